import Verif.Props.Cfg
import Verif.Props.SerdeAttrs

/-!
# C99: conditionally compiled parameters
-/

namespace TF

namespace Spec

/-- The parameter is compiled. `off`: the text of the attribute is a `cfg` that does not hold. -/
def paramCompiled (off : Str → Bool) : FnArg → Bool
  | .receiver as _ _ => as.all fun a => !off a
  | .typed as _ _ => as.all fun a => !off a

/-- The same for a field of a struct. -/
def fieldCompiled (off : Str → Bool) (g : FieldM) : Bool := g.attrs.all fun a => !off a

end Spec

open Spec

theorem paramCompiled_eq (off : Str → Bool) (a : FnArg) : paramCompiled off a = a.attrs.all fun x => !off x := by
  cases a <;> rfl

theorem fields_compiled_iff {off : Str → Bool} {l : List FnArg} {fs : List FieldM} (h : fs.map (·.attrs) = l.map (·.attrs)) :
    (∀ g ∈ fs, fieldCompiled off g = true) ↔ ∀ a ∈ l, paramCompiled off a = true := by
  have e1 : (∀ g ∈ fs, fieldCompiled off g = true) ↔ ∀ as ∈ fs.map (·.attrs), as.all (fun x => !off x) = true := by
    simp [fieldCompiled]
  have e2 : (∀ a ∈ l, paramCompiled off a = true) ↔ ∀ as ∈ l.map (·.attrs), as.all (fun x => !off x) = true := by
    simp [paramCompiled_eq]
  rw [e1, e2, h]

/-- **C99.** A parameter with an attribute `cfg` that does not hold is not removed, but loses the attribute: the function that
replaces the target takes as many arguments as its callers pass exactly if all parameters are compiled. The structs that are
written and read have all of the fields that are mentioned where they are made, in the same case only. -/
theorem C99_parameters (fz : Bool) (im : Option ImplIn) (o : AttrOpts) (f : FnIn) (n n' : Nat) (m : MethodM) (mo : ModuleM)
    (h : mapMethodOrFn fz im o f n = .ok (m, mo, n')) (off : Str → Bool) :
    m.inputs.filter (paramCompiled off) = m.inputs ∧
    (m.inputs.length = (f.inputs.filter (paramCompiled off)).length ↔ ∀ a ∈ f.inputs, paramCompiled off a = true) ∧
    ∀ fs, mo.fields = some fs → (fs.filter (fieldCompiled off) = fs ↔ ∀ a ∈ f.inputs, paramCompiled off a = true) := by
  obtain ⟨ra, fs0, ret, ca, -, h2, -, -, rfl, rfl, -⟩ := mapMethodOrFn_ok h
  refine ⟨?_, ?_, fun fs hf => ?_⟩
  · rw [List.filter_eq_self]
    intro a ha
    obtain ⟨b, -, rfl⟩ := List.mem_map.mp ha
    cases b <;> rfl
  · simp only [List.length_map]
    rw [eq_comm, List.length_filter_eq_length_iff]
  · simp only at hf
    split at hf
    · cases hf
    cases hf
    obtain ⟨fs1, c', h1, rfl, -⟩ := argsFields_ok h2
    obtain ⟨hF, -⟩ := mapArgs_ok (ofOpts_get_ne_none o.convert) h1
    have e := fields_compiled_iff (off := off) (fields_attrs hF)
    change _ ↔ ∀ a ∈ f.inputs, _ at e
    rw [List.filter_eq_self, ← e]
    constructor
    · exact fun h g hg => h g (List.mem_append_left _ hg)
    · intro h g hg
      rcases List.mem_append.mp hg with hg | hg
      · exact h g hg
      · unfold fieldCompiled
        rw [phantoms_attrs _ _ g hg]
        rfl

namespace CfgDemo

/-- `fn f(#[cfg(feature = "x")] a: u8, b: u8)` -/
def g : FnIn :=
  ⟨[], [], c%"f", [], [.typed [c%"cfg(feature = \"x\")"] ⟨[c%"a"], true⟩ (.name c%"u8"), .typed [] ⟨[c%"b"], true⟩ (.name c%"u8")], none, []⟩

/-- Callers pass one argument if the feature is off; the function takes two. -/
example : ∃ m mo n, mapMethodOrFn false none {} g 0 = .ok (m, mo, n) ∧ m.inputs.length = 2 ∧
    (g.inputs.filter (paramCompiled (· == c%"cfg(feature = \"x\")"))).length = 1 := ⟨_, _, _, rfl, rfl, rfl⟩

end CfgDemo

end TF
