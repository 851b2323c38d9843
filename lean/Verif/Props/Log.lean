import Verif.Model.Log
import Verif.Props.ExpandPanics

/-!
# C105: what the macros print
-/

namespace TF

open Spec

/-! ## Vocabulary -/

namespace Spec

/-- README: the value is `1`, or the name of the crate. -/
def Logged (e : LogEnv) : Prop := e.value = some c%"1" ∨ ∃ c, e.value = some c ∧ e.crateName = some c

/-- Whether the crate is meant cannot be said. -/
def Nameless (e : LogEnv) : Prop := e.crateName = none ∧ ∃ v, e.value = some v ∧ v ≠ c%"1"

/-- An instrumented target with its module; an impl with those of its targets (`Expanded`, as in C56). -/
inductive Replaces (fz : Bool) : MacroUse → Expansion → Prop
  | fn (args : AttrArgs) (f : FnIn) (o : AttrOpts) (i : Str) (m : MethodM) (mo : ModuleM) :
      (args = .opts o ∨ args = .absent ∧ o = {}) → m.name = f.name → m.stmts = f.stmts →
      m.code = instrumentation (macroIn none o f) → TargetIdent none o f i → mo.ident = i ++ c%"_fuzz__" →
      Replaces fz (.fn args f) (.fn m mo)
  | impl (x : ImplIn) (items : List ItemIn) (its : List ItemOut) (mos : List ModuleM) :
      Expanded fz x items its mos → Replaces fz (.impl x items) (.impl x its mos)

/-- An impl to which the macro was applied in vain. -/
def Pointless : MacroUse → Prop
  | .fn _ _ => False
  | .impl _ items => ∀ it ∈ items, ¬ IsTarget it

end Spec

/-! ## Lemmas -/

theorem bind_eq_ok {α β : Type} {x : Out α} {f : α → Out β} {r : β} : (x >>= f) = .ok r ↔ ∃ a, x = .ok a ∧ f a = .ok r := by
  cases x with
  | ok a => rw [Out.ok_bind]; simp
  | _ => exact ⟨fun h => (by cases h), fun ⟨_, h, _⟩ => (by cases h)⟩

theorem logExpansion_ok (e : LogEnv) (x : Expansion) (p : List Expansion) :
    logExpansion e x = .ok p ↔ ¬ Nameless e ∧ (Logged e → p = [x]) ∧ (¬ Logged e → p = []) := by
  obtain ⟨v, c⟩ := e
  unfold logExpansion logEnabled Nameless Logged
  cases v with
  | none => simp [Out.ok_bind, eq_comm]
  | some v =>
    by_cases h : v = c%"1"
    · simp [h, Out.ok_bind, eq_comm]
    · cases c with
      | none => simp only [h, if_false]; exact ⟨fun h => (by cases h), fun ⟨h', _⟩ => absurd ⟨trivial, v, rfl, h⟩ h'⟩
      | some c =>
        by_cases hc : v = c
        · subst hc; simp [h, Out.ok_bind, eq_comm]
        · simp [h, hc, Out.ok_bind, eq_comm]

theorem quiet_not (c : Option Str) : ¬ Logged ⟨none, c⟩ ∧ ¬ Nameless ⟨none, c⟩ := by
  simp [Logged, Nameless]

theorem expandUse_ok (fz : Bool) (e : LogEnv) (u : MacroUse) (n n' w : Nat) (x : Expansion) (p : List Expansion) :
    expandUse fz e u n = .ok (x, p, w, n') ↔
      expandUse fz ⟨none, none⟩ u n = .ok (x, [], w, n') ∧ ¬ Nameless e ∧ (Logged e → p = [x]) ∧ (¬ Logged e → p = []) := by
  obtain ⟨q1, q2⟩ := quiet_not none
  cases u with
  | fn args f =>
    simp only [expandUse, bind_eq_ok, Prod.exists, logExpansion_ok, Out.ok.injEq, Prod.mk.injEq]
    constructor
    · rintro ⟨m, mo, k, h1, p', ⟨h2, h3, h4⟩, rfl, rfl, rfl, rfl⟩
      exact ⟨⟨m, mo, k, h1, [], ⟨q2, fun h => absurd h q1, fun _ => rfl⟩, rfl, rfl, rfl, rfl⟩, h2, h3, h4⟩
    · rintro ⟨⟨m, mo, k, h1, p', -, rfl, -, rfl, rfl⟩, h2, h3, h4⟩
      exact ⟨m, mo, k, h1, p, ⟨h2, h3, h4⟩, rfl, rfl, rfl, rfl⟩
  | impl y items =>
    simp only [expandUse, bind_eq_ok, Prod.exists, logExpansion_ok, Out.ok.injEq, Prod.mk.injEq]
    constructor
    · rintro ⟨m, mo, b, k, h1, p', ⟨h2, h3, h4⟩, rfl, rfl, rfl, rfl⟩
      exact ⟨⟨m, mo, b, k, h1, [], ⟨q2, fun h => absurd h q1, fun _ => rfl⟩, rfl, rfl, rfl, rfl⟩, h2, h3, h4⟩
    · rintro ⟨⟨m, mo, b, k, h1, p', -, rfl, -, rfl, rfl⟩, h2, h3, h4⟩
      exact ⟨m, mo, b, k, h1, p, ⟨h2, h3, h4⟩, rfl, rfl, rfl, rfl⟩

theorem expandUse_okp (fz : Bool) (e : LogEnv) (u : MacroUse) (n : Nat) : OkOrPanic (expandUse fz e u n) := by
  have hl : ∀ x, OkOrPanic (logExpansion e x) := by
    intro x
    unfold logExpansion logEnabled
    refine okp_bind ?_ fun b => ?_
    · cases e.value with
      | none => exact okp_ok _
      | some v =>
        simp only
        split
        · exact okp_ok _
        · cases e.crateName with
          | none => exact okp_panic
          | some c => exact okp_ok _
    · cases b <;> exact okp_ok _
  cases u with
  | fn args f =>
    exact okp_bind (C67_or_panics fz args f n) fun _ => okp_bind (hl _) fun _ => okp_ok _
  | impl x items =>
    exact okp_bind (C67_impl_or_panics fz x items n) fun _ => okp_bind (hl _) fun _ => okp_ok _

theorem expandCrate_okp (fz : Bool) (e : LogEnv) : ∀ (us : List MacroUse) (n : Nat), OkOrPanic (expandCrate fz e us n)
  | [], _ => okp_ok _
  | u :: l, n => okp_bind (expandUse_okp fz e u n) fun _ => okp_bind (expandCrate_okp fz e l _) fun _ => okp_ok _

/-! ## Claims -/

/-- **C105.** Printing does not change what the macros do: a crate expands to the same, with the same warnings, as if
`TEST_FUZZ_LOG` were not set. What is printed are, in order, the expansions of all uses, or nothing: everything if the value is
`1` or the name of the crate, else nothing. Only if the value is another one and there is no name of the crate to compare it
with, uses are rejected. -/
theorem C105_crate (fz : Bool) (e : LogEnv) (us : List MacroUse) (n n' w : Nat) (xs ps : List Expansion) :
    expandCrate fz e us n = .ok (xs, ps, w, n') ↔
      expandCrate fz ⟨none, none⟩ us n = .ok (xs, [], w, n') ∧ (Nameless e → us = []) ∧
        (Logged e → ps = xs) ∧ (¬ Logged e → ps = []) := by
  induction us generalizing n n' w xs ps with
  | nil =>
    simp only [expandCrate, Out.ok.injEq, Prod.mk.injEq]
    constructor
    · rintro ⟨rfl, rfl, rfl, rfl⟩
      exact ⟨⟨rfl, trivial, rfl, rfl⟩, fun _ => trivial, fun _ => rfl, fun _ => rfl⟩
    · rintro ⟨⟨rfl, -, rfl, rfl⟩, -, h1, h2⟩
      refine ⟨rfl, ?_, rfl, rfl⟩
      by_cases h : Logged e
      · exact (h1 h).symm
      · exact (h2 h).symm
  | cons u l ih =>
    simp only [expandCrate, bind_eq_ok, Prod.exists, Out.ok.injEq, Prod.mk.injEq]
    constructor
    · rintro ⟨x, p, v, k, h1, ys, qs, vs, m, h2, rfl, rfl, rfl, rfl⟩
      rw [expandUse_ok] at h1
      rw [ih] at h2
      obtain ⟨h1, h3, h4, h5⟩ := h1
      obtain ⟨h2, -, h6, h7⟩ := h2
      refine ⟨⟨x, [], v, k, h1, ys, [], vs, m, h2, rfl, rfl, rfl, rfl⟩, fun h => absurd h h3, fun h => ?_, fun h => ?_⟩
      · rw [h4 h, h6 h]; rfl
      · rw [h5 h, h7 h]; rfl
    · rintro ⟨⟨x, p, v, k, h1, ys, qs, vs, m, h2, rfl, hn, rfl, rfl⟩, h3, h4, h5⟩
      obtain ⟨rfl, rfl⟩ := List.append_eq_nil_iff.mp hn
      have h3 : ¬ Nameless e := fun h => by cases h3 h
      by_cases h : Logged e
      · refine ⟨x, [x], v, k, (expandUse_ok ..).mpr ⟨h1, h3, fun _ => rfl, fun h' => absurd h h'⟩, ys, ys, vs, m,
          (ih ..).mpr ⟨h2, fun h => absurd h h3, fun _ => rfl, fun h' => absurd h h'⟩, rfl, (h4 h).symm, rfl, rfl⟩
      · refine ⟨x, [], v, k, (expandUse_ok ..).mpr ⟨h1, h3, fun h' => absurd h' h, fun _ => rfl⟩, ys, [], vs, m,
          (ih ..).mpr ⟨h2, fun h => absurd h h3, fun h' => absurd h' h, fun _ => rfl⟩, rfl, (h5 h).symm, rfl, rfl⟩

/-- **C105.** Setting `TEST_FUZZ_LOG` causes a crate to be rejected just if it uses the macros, the value is not `1`, and the
crate has no name (it is not compiled by cargo). -/
theorem C105_rejected (fz : Bool) (e : LogEnv) (us : List MacroUse) (n n' w : Nat) (xs : List Expansion)
    (h : expandCrate fz ⟨none, none⟩ us n = .ok (xs, [], w, n')) :
    expandCrate fz e us n = .panic ↔ Nameless e ∧ us ≠ [] := by
  constructor
  · intro hp
    by_contra hc
    have hc : Nameless e → us = [] := fun h1 => by_contra fun h2 => hc ⟨h1, h2⟩
    by_cases hl : Logged e
    · have := (C105_crate fz e us n n' w xs xs).mpr ⟨h, hc, fun _ => rfl, fun h' => absurd hl h'⟩
      rw [hp] at this; cases this
    · have := (C105_crate fz e us n n' w xs []).mpr ⟨h, hc, fun h' => absurd h' hl, fun _ => rfl⟩
      rw [hp] at this; cases this
  · rintro ⟨h1, h2⟩
    rcases expandCrate_okp fz e us n with ⟨⟨ys, ps, v, k⟩, hr⟩ | hr
    · exact absurd (((C105_crate ..).mp hr).2.1 h1) h2
    · exact hr

theorem expandUse_replaces {fz : Bool} {u : MacroUse} {n n' w : Nat} {x : Expansion} {p : List Expansion} {e : LogEnv}
    (h : expandUse fz e u n = .ok (x, p, w, n')) : Replaces fz u x := by
  cases u with
  | fn args f =>
    simp only [expandUse, bind_eq_ok, Prod.exists, Out.ok.injEq, Prod.mk.injEq] at h
    obtain ⟨m, mo, k, h1, -, -, rfl, -⟩ := h
    obtain ⟨o, i, g1, -, -, g2, -, -, -, g3, g4, g5, g6, -⟩ := C56_function fz args f n k m mo h1
    exact .fn args f o i m mo g1 g2 g3 g4 g5 g6
  | impl y items =>
    simp only [expandUse, bind_eq_ok, Prod.exists, Out.ok.injEq, Prod.mk.injEq] at h
    obtain ⟨m, mo, b, k, h1, -, -, rfl, -⟩ := h
    exact .impl y items m mo (C56_items fz y items n k m mo b h1).1

theorem expandCrate_replaces {fz : Bool} {e : LogEnv} {us : List MacroUse} {n n' w : Nat} {xs ps : List Expansion}
    (h : expandCrate fz e us n = .ok (xs, ps, w, n')) : List.Forall₂ (Replaces fz) us xs := by
  induction us generalizing n n' w xs ps with
  | nil => cases h; exact .nil
  | cons u l ih =>
    simp only [expandCrate, bind_eq_ok, Prod.exists, Out.ok.injEq, Prod.mk.injEq] at h
    obtain ⟨x, p, v, k, h1, ys, qs, vs, m, h2, rfl, rfl, rfl, rfl⟩ := h
    exact .cons (expandUse_replaces h1) (ih h2)

/-- **C105.** All instrumented targets and their modules are printed, each once and in order, if printing is asked for. -/
theorem C105_targets (fz : Bool) (e : LogEnv) (us : List MacroUse) (n n' w : Nat) (xs ps : List Expansion) (hl : Logged e)
    (h : expandCrate fz e us n = .ok (xs, ps, w, n')) : List.Forall₂ (Replaces fz) us ps :=
  ((C105_crate ..).mp h).2.2.1 hl ▸ expandCrate_replaces h

open Classical in
/-- **C105.** There is one warning for each impl to which the macro was applied in vain, whether or not anything is printed. -/
theorem C105_warnings (fz : Bool) (e : LogEnv) (us : List MacroUse) (n n' w : Nat) (xs ps : List Expansion)
    (h : expandCrate fz e us n = .ok (xs, ps, w, n')) : w = us.countP (fun u => decide (Pointless u)) := by
  induction us generalizing n n' w xs ps with
  | nil => cases h; rfl
  | cons u l ih =>
    simp only [expandCrate, bind_eq_ok, Prod.exists, Out.ok.injEq, Prod.mk.injEq] at h
    obtain ⟨x, p, v, k, h1, ys, qs, vs, m, h2, rfl, rfl, rfl, rfl⟩ := h
    rw [List.countP_cons, ih _ _ _ _ _ h2, Nat.add_comm]
    congr 1
    cases u with
    | fn args f =>
      simp only [expandUse, bind_eq_ok, Prod.exists, Out.ok.injEq, Prod.mk.injEq] at h1
      obtain ⟨m, mo, k, h1, _, _, _, _, rfl, _⟩ := h1
      simp [show ¬ Pointless (.fn args f) from fun h => h]
    | impl y items =>
      simp only [expandUse, bind_eq_ok, Prod.exists, Out.ok.injEq, Prod.mk.injEq] at h1
      obtain ⟨m, mo, b, k, h1, -, -, -, -, rfl, -⟩ := h1
      have := (C56_warning fz y items n k m mo b h1).1
      by_cases hb : b = true
      · simp [hb, show Pointless (.impl y items) from this.mp hb]
      · have hp : ¬ Pointless (.impl y items) := fun h => hb (this.mpr h)
        simp [hp, Bool.eq_false_iff.mpr hb]

/-- **C105.** In a build of many crates, all print if the value is `1`; if it is the name of a crate, that crate prints, and the
others do not. What the crates expand to does not depend on the value. -/
theorem C105_build (fz : Bool) (v : Option Str) (cs : List (Str × List MacroUse)) (xss : List (List Expansion)) (ps : List Expansion) :
    expandCrates fz v cs = .ok (xss, ps) ↔ expandCrates fz none cs = .ok (xss, []) ∧
      ps = ((cs.zip xss).filter fun c => decide (v = some c%"1" ∨ v = some c.1.1)).flatMap Prod.snd := by
  induction cs generalizing xss ps with
  | nil => simp only [expandCrates, Out.ok.injEq, Prod.mk.injEq]; simp
  | cons c l ih =>
    obtain ⟨c, us⟩ := c
    have hn : ∀ v, ¬ Nameless ⟨v, some c⟩ := by simp [Nameless]
    have hl : Logged ⟨v, some c⟩ ↔ v = some c%"1" ∨ v = some c := by
      simp only [Logged, Option.some.injEq]
      constructor
      · rintro (h | ⟨d, h, rfl⟩)
        · exact .inl h
        · exact .inr h
      · rintro (h | h)
        · exact .inl h
        · exact .inr ⟨c, h, rfl⟩
    simp only [expandCrates, bind_eq_ok, Prod.exists, Out.ok.injEq, Prod.mk.injEq]
    constructor
    · rintro ⟨xs, p, w, k, h1, yss, qs, h2, rfl, rfl⟩
      rw [C105_crate] at h1
      obtain ⟨h1, -, h3, h4⟩ := h1
      rw [ih] at h2
      obtain ⟨h2, rfl⟩ := h2
      refine ⟨⟨xs, [], w, k, (C105_crate ..).mpr ⟨h1, fun h => absurd h (hn _), fun h => absurd h (quiet_not _).1, fun _ => rfl⟩,
        yss, [], h2, rfl, rfl⟩, ?_⟩
      rw [List.zip_cons_cons]
      by_cases h : Logged ⟨v, some c⟩
      · rw [List.filter_cons_of_pos (by simpa using hl.mp h), List.flatMap_cons, h3 h]
      · rw [List.filter_cons_of_neg (by simpa using fun h' => h (hl.mpr h')), h4 h, List.nil_append]
    · rintro ⟨⟨xs, p, w, k, h1, yss, qs, h2, rfl, he⟩, rfl⟩
      obtain ⟨rfl, rfl⟩ := List.append_eq_nil_iff.mp he
      have h1 := ((C105_crate ..).mp h1).1
      rw [List.zip_cons_cons]
      by_cases h : Logged ⟨v, some c⟩
      · refine ⟨xs, xs, w, k, (C105_crate ..).mpr ⟨h1, fun h => absurd h (hn _), fun _ => rfl, fun h' => absurd h h'⟩,
          yss, _, (ih ..).mpr ⟨h2, rfl⟩, rfl, ?_⟩
        rw [List.filter_cons_of_pos (by simpa using hl.mp h), List.flatMap_cons]
      · refine ⟨xs, [], w, k, (C105_crate ..).mpr ⟨h1, fun h => absurd h (hn _), fun h' => absurd h' h, fun _ => rfl⟩,
          yss, _, (ih ..).mpr ⟨h2, rfl⟩, rfl, ?_⟩
        rw [List.filter_cons_of_neg (by simpa using fun h' => h (hl.mpr h')), List.nil_append]

/-! ## Examples -/

namespace LogDemo

open ExpandDemo

/-- An impl with a target, an impl without, and a function. -/
def uses : List MacroUse := [.impl x items, .impl x [.other c%"const N: u8 = 0;"], .fn .absent plainFn]

/-- Three expansions and one warning; they are printed if the value is `1` or the name of the crate. -/
example : ∃ xs k, expandCrate true ⟨none, none⟩ uses 0 = .ok (xs, [], 1, k) ∧ xs.length = 3 ∧
    expandCrate true ⟨some c%"1", none⟩ uses 0 = .ok (xs, xs, 1, k) ∧
    expandCrate true ⟨some c%"a", some c%"a"⟩ uses 0 = .ok (xs, xs, 1, k) ∧
    expandCrate true ⟨some c%"a", some c%"b"⟩ uses 0 = .ok (xs, [], 1, k) ∧
    expandCrate true ⟨some c%"a", none⟩ uses 0 = .panic :=
  ⟨_, _, rfl, rfl, rfl, rfl, rfl, rfl⟩

/-- Of two crates only the one that is named prints. -/
example : ∃ xs ys, expandCrates true (some c%"b") [(c%"a", uses), (c%"b", [.fn .absent plainFn])] = .ok ([xs, ys], ys) ∧
    xs.length = 3 ∧ ys.length = 1 :=
  ⟨_, _, rfl, rfl, rfl⟩

end LogDemo

end TF
