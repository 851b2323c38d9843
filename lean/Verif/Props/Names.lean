import Verif.Model.Names
import Verif.Spec.Names
import Verif.Props.Expand
import Mathlib.Tactic.Common

/-! # Names in the generated module: C80 -/

namespace TF

open Spec

theorem mem_moduleNames {only : Bool} {s : Str} : s ∈ moduleNames only ↔ DeclaredName only s := by
  cases only <;> simp [moduleNames, DeclaredName]

/-- The name of the module ends in `_fuzz__`; no declared type is called like this. -/
def IsModName (x : Str) : Prop := ∃ y, x = y ++ c%"_fuzz__"

theorem modName_not_declared {x : Str} (h : IsModName x) (only : Bool) : x ∉ moduleNames only := by
  obtain ⟨y, rfl⟩ := h
  intro hm
  have hl : ∀ s ∈ moduleNames only, s.getLast? ≠ some '_' := by cases only <;> decide
  refine hl _ hm ?_
  simp [List.getLast?_append]

theorem ne_tail (x : Str) (m : List Str) : m ≠ x :: m := by
  intro h
  have := congrArg List.length h
  simp at this

theorem named_module {c : CrateM} {only nested : Bool} {m : List Str} {x s : Str} (hs : s ∉ moduleNames only) :
    (c.withTarget only nested m x).named (x :: m) s = (c.withTarget only nested m x).named m s := by
  simp only [CrateM.withTarget, if_true, if_neg hs, if_neg (ne_tail x m)]

theorem named_declared {c : CrateM} {only nested : Bool} {m : List Str} {x s : Str} (hs : s ∈ moduleNames only) :
    (c.withTarget only nested m x).named (x :: m) s = some (.item (x :: m) s) := by
  simp only [CrateM.withTarget, if_true, if_pos hs]

theorem walk_item (c : CrateM) (m : List Str) (n : Str) (l : List Str) :
    c.walk (.item m n) l = some (.ent (.item m n) l) := by
  cases l <;> simp [CrateM.walk]

theorem resolve_param {c : CrateM} {p : Place} {s : Str} {l : List Str} (h : s ∈ p.params) :
    c.resolve p ⟨.plain, s :: l⟩ = some (.param s l) := by
  simp only [CrateM.resolve, if_pos h]

theorem resolve_name {c : CrateM} {p : Place} {s : Str} {l : List Str} (h : s ∉ p.params) :
    c.resolve p ⟨.plain, s :: l⟩ = (c.lookup p s).bind fun e => c.walk e l := by
  simp only [CrateM.resolve, if_neg h]

/-- The path is not one of those whose meaning changes: it does not begin with `super`, nor with a name that is declared in
the module, unless this is a parameter. -/
def KeepsMeaning (only : Bool) (params : List Str) (r : PathRef) : Prop :=
  match r.start with
  | .plain => ∀ s ∈ r.segs.head?, s ∈ params ∨ ¬ DeclaredName only s
  | .self => ∀ s ∈ r.segs.head?, ¬ DeclaredName only s
  | .super _ => False
  | _ => True

/-- **C80.** In the module a path stands for what it stands for where the target is, if it does not begin with `super`, `Args`,
`UsingReader` or `HasRetTy`. -/
theorem C80_same (c : CrateM) (only : Bool) (m : List Str) (x : Str) (block : Str → Option Ent) (params : List Str)
    (r : PathRef) (h : KeepsMeaning only params r) :
    (c.withTarget only false m x).resolve (modulePlace m x params) r =
      (c.withTarget only false m x).resolve (targetPlace false block m x params) r := by
  obtain ⟨st, segs⟩ := r
  cases segs with
  | nil => rfl
  | cons s l =>
    cases st with
    | plain =>
      have h : s ∈ params ∨ s ∉ moduleNames only := (h s rfl).imp_right (mt mem_moduleNames.mp)
      by_cases hp : s ∈ params
      · rw [resolve_param (p := modulePlace m x params) hp, resolve_param (p := targetPlace false block m x params) hp]
      · have hs := h.resolve_left hp
        rw [resolve_name (p := modulePlace m x params) hp, resolve_name (p := targetPlace false block m x params) hp]
        simp only [CrateM.lookup, modulePlace, targetPlace, blockOf, Bool.false_eq_true, if_false, named_module hs]
    | self =>
      have h : s ∉ moduleNames only := mt mem_moduleNames.mp (h s rfl)
      simp only [CrateM.resolve, modulePlace, targetPlace, named_module h]
    | super k => exact h.elim
    | crate => rfl
    | global => rfl

/-- **C80.** This is so inside of `write_args` and `read_args`, too. -/
theorem C80_same_inside (c : CrateM) (m : List Str) (x : Str) (block : Str → Option Ent) (params : List Str)
    (r : PathRef) (h : KeepsMeaning false params r) :
    (c.withTarget false false m x).resolve (innerPlace m x params) r =
      (c.withTarget false false m x).resolve (targetPlace false block m x params) r := by
  rw [← C80_same c false m x block params r h]
  obtain ⟨st, segs⟩ := r
  cases segs with
  | nil => rfl
  | cons s l =>
    cases st with
    | plain =>
      have h : s ∈ params ∨ s ∉ moduleNames false := (h s rfl).imp_right (mt mem_moduleNames.mp)
      by_cases hp : s ∈ params
      · rw [resolve_param (p := modulePlace m x params) hp, resolve_param (p := innerPlace m x params) hp]
      · have hs : s ≠ c%"Args" := fun e => h.resolve_left hp (e ▸ (by decide))
        rw [resolve_name (p := modulePlace m x params) hp, resolve_name (p := innerPlace m x params) hp]
        simp only [CrateM.lookup, modulePlace, innerPlace, if_neg hs]
    | super k => exact h.elim
    | _ => rfl

/-- **C80.** And, for paths that do not begin with `Ret` either, where the type of the result is written. -/
theorem C80_same_result (c : CrateM) (m : List Str) (x : Str) (block : Str → Option Ent) (r : PathRef)
    (h : KeepsMeaning false [] r) (hr : r.start = .plain → r.segs.head? ≠ some c%"Ret") :
    (c.withTarget false false m x).resolve (retPlace m x) r =
      (c.withTarget false false m x).resolve (targetPlace false block m x []) r := by
  rw [← C80_same c false m x block [] r h]
  obtain ⟨st, segs⟩ := r
  cases segs with
  | nil => rfl
  | cons s l =>
    cases st with
    | plain =>
      have hs : s ≠ c%"Ret" := fun e => hr rfl (by rw [e]; rfl)
      rw [resolve_name (p := modulePlace m x []) (List.not_mem_nil), resolve_name (p := retPlace m x) (List.not_mem_nil)]
      simp only [CrateM.lookup, modulePlace, retPlace, if_neg hs]
    | super k => exact h.elim
    | _ => rfl

/-- **C80.** And, for paths that do not begin with `Auto` or `AutoFallback`, in `auto!`. -/
theorem C80_same_auto (c : CrateM) (m : List Str) (x : Str) (block : Str → Option Ent) (params : List Str) (r : PathRef)
    (h : KeepsMeaning false params r)
    (hr : r.start = .plain → ∀ s ∈ r.segs.head?, s ∈ params ∨ (s ≠ c%"Auto" ∧ s ≠ c%"AutoFallback")) :
    (c.withTarget false false m x).resolve (autoPlace m x params) r =
      (c.withTarget false false m x).resolve (targetPlace false block m x params) r := by
  rw [← C80_same c false m x block params r h]
  obtain ⟨st, segs⟩ := r
  cases segs with
  | nil => rfl
  | cons s l =>
    cases st with
    | plain =>
      by_cases hp : s ∈ params
      · rw [resolve_param (p := modulePlace m x params) hp, resolve_param (p := autoPlace m x params) hp]
      · have hs := (hr rfl s rfl).resolve_left hp
        rw [resolve_name (p := modulePlace m x params) hp, resolve_name (p := autoPlace m x params) hp]
        simp only [CrateM.lookup, modulePlace, autoPlace, hs.1, hs.2, or_self, if_false]
    | super k => exact h.elim
    | _ => rfl

/-- **C80.** An argument whose type is called `Auto` or `AutoFallback` is mistaken for what `auto!` declares, whatever is known by
this name. -/
theorem C80_captured_auto (c : CrateM) (only nested : Bool) (m : List Str) (x : Str) (params : List Str) (s : Str) (l : List Str)
    (hs : s = c%"Auto" ∨ s = c%"AutoFallback") (hp : s ∉ params) :
    (c.withTarget only nested m x).resolve (autoPlace m x params) ⟨.plain, s :: l⟩ =
      some (.ent (.item (c%"auto" :: x :: m) s) l) := by
  rw [resolve_name (p := autoPlace m x params) hp]
  simp only [CrateM.lookup, autoPlace, if_pos hs, Option.bind_some, walk_item]

/-- Nothing is said to be defined in a module that is yet to be generated. -/
def Unknown (c : CrateM) (m : List Str) (x : Str) : Prop :=
  (∀ m' s n, c.named m' s ≠ some (.item (x :: m) n)) ∧ ∀ s n, c.prelude s ≠ some (.item (x :: m) n)

/-- **C80.** A type of the user's that is called `Args`, `UsingReader` or `HasRetTy` is mistaken for the generated one. -/
theorem C80_captured (c : CrateM) (only : Bool) (m : List Str) (x : Str) (block : Str → Option Ent) (params : List Str)
    (hx : IsModName x) (hu : Unknown c m x) (s : Str) (hs : DeclaredName only s) (hp : s ∉ params) :
    (c.withTarget only false m x).resolve (modulePlace m x params) ⟨.plain, [s]⟩ = some (.ent (.item (x :: m) s) []) ∧
      (c.withTarget only false m x).resolve (targetPlace false block m x params) ⟨.plain, [s]⟩ ≠
        some (.ent (.item (x :: m) s) []) := by
  have hs := mem_moduleNames.mpr hs
  have hsx : s ≠ x := fun e => modName_not_declared hx only (e ▸ hs)
  constructor
  · simp only [CrateM.resolve, modulePlace, if_neg hp, CrateM.lookup, named_declared hs, Option.bind_some, CrateM.walk]
  · simp only [CrateM.resolve, targetPlace, if_neg hp, CrateM.lookup, blockOf, Bool.false_eq_true, if_false]
    have hn : (c.withTarget only false m x).named m s = c.named m s := by
      simp only [CrateM.withTarget, if_neg (ne_tail x m), if_true, hsx, false_and, if_false]
    rw [hn]
    cases h1 : c.named m s with
    | some e =>
      intro h
      simp only [Option.bind_some, CrateM.walk, Option.some.injEq, Meaning.ent.injEq, and_true] at h
      exact hu.1 m s s (h1.trans (by rw [h]))
    | none =>
      simp only
      cases h2 : c.prelude s with
      | none =>
        intro h
        have h : (c.prelude s).bind _ = _ := h
        rw [h2] at h
        cases h
      | some e =>
        intro h
        have h : (c.prelude s).bind (fun e => (c.withTarget only false m x).walk e []) = _ := h
        rw [h2] at h
        simp only [Option.bind_some, CrateM.walk, Option.some.injEq, Meaning.ent.injEq, and_true] at h
        exact hu.2 s s (h2.trans (by rw [h]))

/-- **C80.** Paths that begin with `super` are one level off: `super::` is read as `self::`, `super::super::` as `super::`. -/
theorem C80_super (c : CrateM) (only nested : Bool) (m : List Str) (x : Str) (block : Str → Option Ent) (params : List Str)
    (k : Nat) (segs : List Str) :
    (c.withTarget only nested m x).resolve (modulePlace m x params) ⟨.super k, segs⟩ =
      (c.withTarget only nested m x).resolve (targetPlace nested block m x params)
        ⟨match k with | 0 => .self | k + 1 => .super k, segs⟩ := by
  cases segs with
  | nil => rfl
  | cons s l => cases k <;> rfl

/-- **C80.** `Args` is found under the name of the module: by the target, in the module, and inside of `write_args` and
`read_args`, where `Args` by itself is the struct that is declared there. -/
theorem C80_args (c : CrateM) (only : Bool) (m : List Str) (x : Str) (block : Str → Option Ent) (params : List Str)
    (hx : IsModName x) (hp : x ∉ params) :
    (c.withTarget only false m x).resolve (targetPlace false block m x params) (modArgs x) =
        some (.ent (.item (x :: m) c%"Args") []) ∧
      (c.withTarget only false m x).resolve (innerPlace m x params) (modArgs x) =
        some (.ent (.item (x :: m) c%"Args") []) ∧
      (c%"Args" ∉ params → (c.withTarget only false m x).resolve (innerPlace m x params) ⟨.plain, [c%"Args"]⟩ =
        some (.ent (.item (c%"fn" :: x :: m) c%"Args") [])) := by
  have ha : c%"Args" ∈ moduleNames only := by cases only <;> decide
  have hn : x ∉ moduleNames only := modName_not_declared hx only
  have hxa : x ≠ c%"Args" := fun e => hn (e ▸ ha)
  have hm : (c.withTarget only false m x).named m x = some (.module (x :: m)) := by
    simp [CrateM.withTarget]
  refine ⟨?_, ?_, fun h => ?_⟩
  · simp only [CrateM.resolve, modArgs, targetPlace, if_neg hp, CrateM.lookup, blockOf, Bool.false_eq_true, if_false, hm,
      Option.bind_some, CrateM.walk, named_declared ha]
  · simp only [CrateM.resolve, modArgs, innerPlace, if_neg hp, CrateM.lookup, if_neg hxa, named_module hn, hm,
      Option.bind_some, CrateM.walk, named_declared ha]
  · simp only [CrateM.resolve, innerPlace, if_neg h, CrateM.lookup, if_true, Option.bind_some, CrateM.walk]

/-- **C80.** A target inside of a function: the items of that function are not seen by the module, and `read_args`, which names
`Args` by way of the module's name, does not find it. -/
theorem C80_nested (c : CrateM) (only : Bool) (m : List Str) (x : Str) (params : List Str) (hx : IsModName x)
    (hp : x ∉ params) (h1 : c.named m x = none) (h2 : c.prelude x = none) :
    (∀ s l, ¬ DeclaredName only s →
      (c.withTarget only true m x).resolve (modulePlace m x params) ⟨.plain, s :: l⟩ =
        (c.withTarget only true m x).resolve ⟨m, fun _ => none, params⟩ ⟨.plain, s :: l⟩) ∧
      (c.withTarget only true m x).resolve (innerPlace m x params) (modArgs x) = none := by
  have ha : c%"Args" ∈ moduleNames only := by cases only <;> decide
  have hn : x ∉ moduleNames only := modName_not_declared hx only
  have hxa : x ≠ c%"Args" := fun e => hn (e ▸ ha)
  constructor
  · intro s l hs
    have hs := mt mem_moduleNames.mp hs
    simp only [CrateM.resolve, modulePlace, CrateM.lookup, named_module hs]
  · have hm : (c.withTarget only true m x).named m x = none := by
      simp [CrateM.withTarget, h1]
    have hq : (c.withTarget only true m x).prelude x = none := h2
    simp only [CrateM.resolve, modArgs, innerPlace, if_neg hp, CrateM.lookup, if_neg hxa, named_module hn, hm, hq,
      Option.bind_none]

/-- **C80.** The nested target itself does find `Args` by way of the module, and the items of the function around it, also
those that the module does not see. -/
theorem C80_nested_target (c : CrateM) (only : Bool) (m : List Str) (x : Str) (block : Str → Option Ent) (params : List Str)
    (hp : x ∉ params) :
    (c.withTarget only true m x).resolve (targetPlace true block m x params) (modArgs x) =
        some (.ent (.item (x :: m) c%"Args") []) ∧
      ∀ s e, s ∉ params → s ≠ x → block s = some e →
        (c.withTarget only true m x).resolve (targetPlace true block m x params) ⟨.plain, [s]⟩ = some (.ent e []) ∧
        (c.named m s = none → c.prelude s = none → ¬ DeclaredName only s →
          (c.withTarget only true m x).resolve (modulePlace m x params) ⟨.plain, [s]⟩ = none) := by
  have ha : c%"Args" ∈ moduleNames only := by cases only <;> decide
  refine ⟨?_, fun s e hs hsx hb => ⟨?_, fun h1 h2 h3 => ?_⟩⟩
  · simp only [CrateM.resolve, modArgs, targetPlace, if_neg hp, CrateM.lookup, blockOf, if_true, Option.bind_some,
      CrateM.walk, named_declared ha]
  · simp only [CrateM.resolve, targetPlace, if_neg hs, CrateM.lookup, blockOf, if_true, if_neg hsx, hb, Option.bind_some,
      CrateM.walk]
  · have hm : (c.withTarget only true m x).named m s = none := by
      simp [CrateM.withTarget, h1]
    have hq : (c.withTarget only true m x).prelude s = none := h2
    simp only [CrateM.resolve, modulePlace, if_neg hs, CrateM.lookup, named_module (mt mem_moduleNames.mp h3), hm, hq,
      Option.bind_none]

/-- The names of modules are of the form that is assumed. -/
theorem isModName_expanded {fz : Bool} {im : Option ImplIn} {o : AttrOpts} {f : FnIn} {n n' : Nat} {m : MethodM} {mo : ModuleM}
    (h : mapMethodOrFn fz im o f n = .ok (m, mo, n')) : IsModName mo.ident := by
  obtain ⟨_, _, _, _, -, -, -, -, -, rfl⟩ := mapMethodOrFn_ok h
  obtain ⟨j, -, he⟩ := modIdent_eq im o f
  exact ⟨j, he⟩

/-! ## A case: a crate with `mod a { struct Foo; struct Args; fn target(..) }` -/

namespace NamesDemo

def crate : CrateM where
  named m s :=
    if m = [] ∧ s = c%"a" then some (.module [c%"a"])
    else if m = [c%"a"] ∧ (s = c%"Foo" ∨ s = c%"Args") then some (.item m s)
    else none
  prelude s := if s = c%"u8" then some (.item [c%"core"] s) else none
  crates _ := none

def x : Str := c%"target_fuzz__"

example : IsModName x := ⟨c%"target", rfl⟩

example : Unknown crate [c%"a"] x := by
  constructor
  · intro m' s n
    simp only [crate]
    split
    · simp
    · split
      · rename_i h
        simp [h.1]
      · simp
  · intro s n
    simp only [crate]
    split <;> simp [x]

/-- `Foo`, `self::Foo`, `crate::a::Foo` and `u8` mean the same in the module. -/
example : KeepsMeaning false [] ⟨.plain, [c%"Foo"]⟩ ∧ KeepsMeaning false [] ⟨.self, [c%"Foo"]⟩ ∧ KeepsMeaning false [] ⟨.crate, [c%"a", c%"Foo"]⟩ ∧
    (crate.withTarget false false [c%"a"] x).resolve (modulePlace [c%"a"] x []) ⟨.plain, [c%"Foo"]⟩ =
      some (.ent (.item [c%"a"] c%"Foo") []) ∧
    (crate.withTarget false false [c%"a"] x).resolve (modulePlace [c%"a"] x []) ⟨.plain, [c%"u8"]⟩ =
      some (.ent (.item [c%"core"] c%"u8") []) := by
  refine ⟨fun s h => ?_, fun s h => ?_, trivial, rfl, rfl⟩
  · cases h; right; decide
  · cases h; decide

/-- The user's `Args` does not. -/
example : (crate.withTarget false false [c%"a"] x).resolve (targetPlace false (fun _ => none) [c%"a"] x []) ⟨.plain, [c%"Args"]⟩ =
      some (.ent (.item [c%"a"] c%"Args") []) ∧
    (crate.withTarget false false [c%"a"] x).resolve (modulePlace [c%"a"] x []) ⟨.plain, [c%"Args"]⟩ =
      some (.ent (.item [x, c%"a"] c%"Args") []) :=
  ⟨rfl, rfl⟩

/-- A function with a struct `Local` and a target that uses it: the target sees it, the module does not. -/
example : let block : Str → Option Ent := fun s => if s = c%"Local" then some (.item [c%"f", c%"a"] s) else none
    (crate.withTarget false true [c%"a"] x).resolve (targetPlace true block [c%"a"] x []) ⟨.plain, [c%"Local"]⟩ =
      some (.ent (.item [c%"f", c%"a"] c%"Local") []) ∧
    (crate.withTarget false true [c%"a"] x).resolve (modulePlace [c%"a"] x []) ⟨.plain, [c%"Local"]⟩ = none :=
  ⟨rfl, rfl⟩

end NamesDemo

end TF
