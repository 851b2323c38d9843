import Verif.Props.Expand
import Verif.Props.Lifetimes

/-!
# C99: conditionally compiled methods
-/

namespace TF

/-! ## Specification

The compiler removes items with `#[cfg(..)]` that does not hold. For a function with `#[test_fuzz]` it does so before it runs the
macro; but `test_fuzz_impl` is given the whole impl, and what it generates is looked at afterwards. -/

namespace Spec

/-- The item is compiled. `off`: the attribute is a `cfg` that does not hold; `offOther`: the same for items that are not functions,
as text. -/
def Compiled (off : AttrM → Prop) (offOther : Str → Prop) : ItemIn → Prop
  | .fn f => ∀ a ∈ f.attrs, ¬ off a
  | .other s => ¬ offOther s

/-- The same for generated items. -/
def CompiledOut (off : AttrM → Prop) (offOther : Str → Prop) : ItemOut → Prop
  | .fn f => ∀ a ∈ f.attrs, ¬ off a
  | .method m => ∀ a ∈ m.attrs, ¬ off a
  | .other s => ¬ offOther s

def outName : ItemOut → Option Str
  | .fn f => some f.name
  | .method m => some m.name
  | .other _ => none

def inName : ItemIn → Option Str
  | .fn f => some f.name
  | .other _ => none

/-- The harness of the module calls the method of this name: `type::name` or `type::name::<..>`. -/
def Calls (mo : ModuleM) (name : Str) : Prop :=
  ∃ ty gen, mo.callee = ty ++ [c%":", c%":", name] ++ gen ∧ (gen = [] ∨ gen.take 3 = [c%":", c%":", c%"<"])

end Spec

open Spec

theorem expanded_compiled {fz : Bool} {x : ImplIn} {off : AttrM → Prop} {offOther : Str → Prop} (ht : ∀ a, Tagged a → ¬ off a)
    {l : List ItemIn} {os : List ItemOut} {ms : List ModuleM} (h : Expanded fz x l os ms) :
    List.Forall₂ (fun it o => inName it = outName o ∧ (Compiled off offOther it ↔ CompiledOut off offOther o)) l os := by
  induction h with
  | nil => exact .nil
  | other s _ ih => exact .cons ⟨rfl, Iff.rfl⟩ ih
  | plain f _ _ ih => exact .cons ⟨rfl, Iff.rfl⟩ ih
  | tagged f pre post a o m mo i h1 _ h3 _ h5 _ h7 _ _ _ _ _ _ _ _ _ ih =>
    refine .cons ⟨by simp only [inName, outName, h7], ?_⟩ ih
    simp only [Compiled, CompiledOut, h1, h5, List.forall_mem_append, List.forall_mem_cons]
    exact ⟨fun ⟨h, _, h'⟩ => ⟨h, h'⟩, fun ⟨h, h'⟩ => ⟨h, ht a h3, h'⟩⟩

theorem turbofish_form (o : Option (List GArg)) :
    argsAsTurbofish o = [] ∨ (argsAsTurbofish o).take 3 = [c%":", c%":", c%"<"] := by
  cases o with
  | none => exact .inl rfl
  | some l => exact .inr rfl

theorem calleeToks_calls {x : ImplIn} {o : AttrOpts} {name : Str} {ca : List Str} (h : calleeToks (some x) o name = .ok ca) :
    ∃ ty gen, ca = ty ++ [c%":", c%":", name] ++ gen ∧ (gen = [] ∨ gen.take 3 = [c%":", c%":", c%"<"]) := by
  unfold calleeToks at h
  simp only at h
  cases h1 : genericParamsMap x.generics (o.implGenericArgs.getD []) with
  | ok m =>
    rw [h1, Out.ok_bind] at h
    cases h2 : x.ctx.self.mapParams m with
    | ok t =>
      rw [h2, Out.ok_bind] at h
      revert h
      cases x.ctx.tr with
      | none =>
        intro h
        cases h
        exact ⟨t.turbofish.getD [], argsAsTurbofish o.genericArgs, by simp [colon2], turbofish_form _⟩
      | some p =>
        intro h
        simp only at h
        cases h3 : p.mapParams m with
        | ok p' =>
          rw [h3, Out.ok_bind] at h
          cases h
          exact ⟨[c%"<"] ++ t.turbofish.getD [] ++ [c%"as"] ++ p'.turbofish.getD [] ++ [c%">"], argsAsTurbofish o.genericArgs,
            by simp [colon2], turbofish_form _⟩
        | _ => rw [h3] at h; cases h
    | _ => rw [h2] at h; cases h
  | _ => rw [h1] at h; cases h

theorem expanded_modules {fz : Bool} {x : ImplIn} {l : List ItemIn} {os : List ItemOut} {ms : List ModuleM}
    (h : Expanded fz x l os ms) (f : FnIn) (hf : .fn f ∈ l) (ht : ∃ a ∈ f.attrs, Tagged a) :
    ∃ mo ∈ ms, Calls mo f.name := by
  induction h with
  | nil => cases hf
  | other s _ ih => exact ih (by simpa using hf)
  | plain g hg _ ih =>
    rcases List.mem_cons.mp hf with hf | hf
    · cases hf
      obtain ⟨a, ha, hta⟩ := ht
      exact absurd hta (hg a ha)
    · exact ih hf
  | tagged g pre post a o m mo i h1 _ h3 _ h5 _ h7 _ _ _ _ _ _ _ hm _ ih =>
    rcases List.mem_cons.mp hf with hf | hf
    · cases hf
      obtain ⟨n, n', hm⟩ := hm
      obtain ⟨_, _, _, ca, _, _, _, hc, _, rfl⟩ := mapMethodOrFn_ok hm
      exact ⟨_, List.mem_cons_self, calleeToks_calls hc⟩
    · obtain ⟨mo', h, hc⟩ := ih hf
      exact ⟨mo', List.mem_cons_of_mem _ h, hc⟩

/-- **C99.** An item of an impl is compiled just if it would be without the macro, whatever its attributes. -/
theorem C99_items (fz : Bool) (x : ImplIn) (l : List ItemIn) (n n' : Nat) (os : List ItemOut) (ms : List ModuleM) (w : Bool)
    (h : testFuzzImpl fz x l n = .ok (os, ms, w, n')) (off : AttrM → Prop) (offOther : Str → Prop)
    (ht : ∀ a, Tagged a → ¬ off a) (k : Nat) (it : ItemIn) (hk : l[k]? = some it) :
    ∃ o, os[k]? = some o ∧ inName it = outName o ∧ (Compiled off offOther it ↔ CompiledOut off offOther o) :=
  forall2_get (expanded_compiled ht (C56_items fz x l n n' os ms w h).1) k it hk

/-- **C99.** But modules are generated for all methods with the attribute, compiled or not. So if one is not compiled, and it has
the only definition of its name, there is a module whose harness calls a method that does not exist. -/
theorem C99_dangling (fz : Bool) (x : ImplIn) (l : List ItemIn) (n n' : Nat) (os : List ItemOut) (ms : List ModuleM) (w : Bool)
    (h : testFuzzImpl fz x l n = .ok (os, ms, w, n')) (off : AttrM → Prop) (offOther : Str → Prop)
    (ht : ∀ a, Tagged a → ¬ off a) (f : FnIn) (hf : .fn f ∈ l) (hta : ∃ a ∈ f.attrs, Tagged a) :
    (∃ mo ∈ ms, Calls mo f.name) ∧
    ((∀ it ∈ l, inName it = some f.name → ¬ Compiled off offOther it) →
      ∀ o ∈ os, CompiledOut off offOther o → outName o ≠ some f.name) := by
  have hE := (C56_items fz x l n n' os ms w h).1
  refine ⟨expanded_modules hE f hf hta, fun hl o ho hc hn => ?_⟩
  obtain ⟨it, hit, h1, h2⟩ := forall₂_mem_right (expanded_compiled (offOther := offOther) ht hE) ho
  exact hl it hit (h1.trans hn) (h2.mpr hc)

/-- **C99.** The module does not depend on the attributes of the target at all. -/
theorem C99_attributes (fz : Bool) (im : Option ImplIn) (o : AttrOpts) (f : FnIn) (n n' : Nat) (m : MethodM) (mo : ModuleM)
    (h : mapMethodOrFn fz im o f n = .ok (m, mo, n')) (as : List AttrM) :
    mapMethodOrFn fz im o { f with attrs := as } n = .ok ({ m with attrs := as }, mo, n') := by
  obtain ⟨ra, fs, ret, ca, h1, h2, h3, h4, rfl, rfl⟩ := mapMethodOrFn_ok h
  unfold mapMethodOrFn at h ⊢
  split at h
  · cases h
  · rename_i hc
    rw [if_neg hc]
    have e1 : argsIn im o { f with attrs := as } = argsIn im o f := rfl
    have e2 : retTy im { f with attrs := as } = retTy im f := rfl
    have e3 : macroIn im o { f with attrs := as } = macroIn im o f := rfl
    rw [h1, Out.ok_bind, h2, Out.ok_bind] at h
    rw [h1, Out.ok_bind, e1, h2, Out.ok_bind, e2]
    simp only at h ⊢
    rw [h3, Out.ok_bind, h4, Out.ok_bind] at h
    rw [h3, Out.ok_bind, h4, Out.ok_bind, e3]
    cases h5 : identNew (modIdent o.rename (im.bind (·.ctx.self.base)) f.name) with
    | ok i =>
      rw [h5, Out.ok_bind] at h
      rw [Out.ok_bind]
      simp only [Out.ok.injEq, Prod.mk.injEq, ModuleM.mk.injEq] at h
      obtain ⟨-, ⟨rfl, -⟩, -⟩ := h
      rfl
    | _ => rw [h5] at h; cases h

/-! ## A case -/

namespace CfgDemo

def cfg : AttrM := ⟨[c%"cfg"], c%"(feature = \"x\")", .absent⟩
def tag : AttrM := ⟨[c%"test_fuzz"], [], .absent⟩

def impl : ImplIn := ⟨[], ⟨none, .name c%"Foo"⟩⟩

/-- `#[cfg(feature = "x")] #[test_fuzz] fn f(&self) {}` and `fn g() {}` -/
def items : List ItemIn :=
  [.fn ⟨[cfg, tag], [], c%"f", [], [.receiver [] false (.reference none false)], none, []⟩,
   .fn ⟨[], [], c%"g", [], [], none, []⟩]

/-- Without the feature, only `g` is compiled, but the harness calls `Foo::f`. -/
example : ∃ os mo n, testFuzzImpl false impl items 0 = .ok (os, [mo], false, n) ∧ mo.callee = [c%"Foo", c%":", c%":", c%"f"] ∧
    ∀ o ∈ os, CompiledOut (· = cfg) (fun _ => False) o → outName o = some c%"g" := by
  obtain ⟨os, mo, n, h, hc⟩ : ∃ os mo n, testFuzzImpl false impl items 0 = .ok (os, [mo], false, n) ∧
    mo.callee = [c%"Foo", c%":", c%":", c%"f"] := ⟨_, _, _, rfl, rfl⟩
  refine ⟨os, mo, n, h, hc, fun o ho hco => ?_⟩
  obtain ⟨-, h2⟩ := C99_dangling false impl items 0 n os [mo] false h (· = cfg) (fun _ => False)
    (by rintro a ha rfl; exact absurd (ha _ List.mem_cons_self) (by decide)) _ List.mem_cons_self
    ⟨tag, by simp, by simp [Tagged, tag]⟩
  have h3 := h2 (by
    intro it hit hn hc
    simp only [items, List.mem_cons, List.not_mem_nil, or_false] at hit
    rcases hit with rfl | rfl
    · exact hc cfg (by simp) rfl
    · exact absurd hn (by decide)) o ho hco
  obtain ⟨it, hit, h4, -⟩ := forall₂_mem_right (expanded_compiled (off := fun _ => False) (offOther := fun _ => False)
    (fun _ _ => id) (C56_items _ _ _ _ _ _ _ _ h).1) ho
  simp only [items, List.mem_cons, List.not_mem_nil, or_false] at hit
  rcases hit with rfl | rfl
  · exact absurd h4.symm h3
  · exact h4.symm

end CfgDemo

end TF
