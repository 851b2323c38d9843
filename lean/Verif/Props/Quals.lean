import Verif.Props.Module

/-!
# C100: qualified functions and inner attributes

The macro copies the signature, with its qualifiers, and all attributes (macro/src/lib.rs:249, 777-789 `#(#attrs)* #vis
#defaultness #sig`), inserts statements, and calls the target from a function that has no qualifiers (macro/src/lib.rs:574-601, 728-770).
What the compiler says to that is specified here: rules of the Rust reference on const contexts, `async fn`, calls of unsafe
functions, and the places of attributes.
-/

namespace TF

/-- Qualifiers of a signature that matter to callers, or to what may be called: `const`, `async`, `unsafe`. -/
structure Quals where
  isConst : Bool
  isAsync : Bool
  isUnsafe : Bool
  deriving DecidableEq

namespace Spec

/-- In a build (for tests or not) the code does something else than the target's own statements: it calls functions of
`test_fuzz::runtime`, none of which is `const`. -/
def Foreign (test : Bool) : Code → Prop
  | .nop => False
  | .stmts => False
  | .seq a b => Foreign test a ∨ Foreign test b
  | .cfgTest c => test = true ∧ Foreign test c
  | .cfgNotTest c => test = false ∧ Foreign test c
  | _ => True

/-- The target is called somewhere in the code. -/
def CallsTarget : Code → Prop
  | .callTarget => True
  | .fuzzLoop => True
  | .seq a b => CallsTarget a ∨ CallsTarget b
  | .cfgTest c => CallsTarget c
  | .cfgNotTest c => CallsTarget c
  | .cond _ a b => CallsTarget a ∨ CallsTarget b
  | _ => False

/-- The type of a call. -/
inductive CallTy where
  | value (t : Ty)
  /-- `impl Future<Output = t>` -/
  | future (t : Ty)
  deriving DecidableEq

def callTy (q : Quals) (t : Ty) : CallTy := if q.isAsync then .future t else .value t

/-- The compiler accepts function and module, as far as qualifiers and places of attributes are concerned. `inner`: the attributes
that are written `#![..]`, which may stand at the beginning of a body only. `entry`: the body of `Args::entry`, which is compiled
if the module is, even where there are no tests. -/
structure QualAccepted (inner : AttrM → Prop) (q : Quals) (test : Bool) (m : MethodM) (mo : ModuleM) (entry : Code) : Prop where
  attrs : ∀ a ∈ m.attrs, ¬ inner a
  constant : q.isConst = true → ¬ Foreign test m.code
  safe : (mo.cfgTest = true → test = true) → CallsTarget entry → q.isUnsafe = false
  typed : (mo.cfgTest = true → test = true) → CallsTarget entry → callTy q mo.retTy = .value mo.retTy

end Spec

open Spec

theorem foreign_iff (m : MacroIn) (test : Bool) :
    Foreign test (instrumentation m) ↔ test = true ∨ m.enableInProduction = true := by
  cases test <;> cases h : m.enableInProduction <;>
    simp [instrumentation, writeGenericArgsAndArgs, inProductionWriteGenericArgsAndArgs, h, Foreign, Code.when]

theorem calls_argsEntry (m : MacroIn) : CallsTarget (argsEntry m) ∧ CallsTarget (persistentArgsEntry m) := by
  constructor <;> simp [argsEntry, persistentArgsEntry, argsEntryFrom, CallsTarget, Code.when]

theorem calls_iff (m : MacroIn) : (CallsTarget (entryTest m) ↔ hasEntry m = true) ∧
    (CallsTarget (persistentEntryTest m) ↔ hasEntry m = true) := by
  unfold entryTest persistentEntryTest
  cases h : hasEntry m <;> simp [CallsTarget, calls_argsEntry]

/-- **C100.** Which functions can be targets: in builds for tests, those that are not `const`, and if there is a harness not
`unsafe` nor `async` either. In other builds all of them can, but with `enable_in_production` the conditions are the same as for
tests. Functions with inner attributes never can. This is so with and without persistent mode. -/
theorem C100_compiles {fz : Bool} {im : Option ImplIn} {o : AttrOpts} {f : FnIn} {n n' : Nat} {m : MethodM} {mo : ModuleM}
    (h : mapMethodOrFn fz im o f n = .ok (m, mo, n')) (inner : AttrM → Prop) (q : Quals) (test : Bool) (entry : Code)
    (he : entry = mo.entry ∨ entry = persistentEntryTest (macroIn im o f)) :
    QualAccepted inner q test m mo entry ↔
      (∀ a ∈ f.attrs, ¬ inner a) ∧
      (test = true ∨ o.enableInProduction = true →
        q.isConst = false ∧ (Instantiable im o f → q.isUnsafe = false ∧ q.isAsync = false)) := by
  obtain ⟨ra, fs, ret, ca, -, -, -, -, rfl, rfl⟩ := mapMethodOrFn_ok h
  have hc : CallsTarget entry ↔ Instantiable im o f := by
    rw [← hasEntry_iff]
    rcases he with rfl | rfl
    · exact (calls_iff _).1
    · exact (calls_iff _).2
  have hF : Foreign test (instrumentation (macroIn im o f)) ↔ test = true ∨ o.enableInProduction = true := foreign_iff _ _
  have hm : ((!o.enableInProduction) = true → test = true) ↔ (test = true ∨ o.enableInProduction = true) := by
    cases test <;> cases o.enableInProduction <;> simp
  have ht : ∀ t, callTy q t = .value t ↔ q.isAsync = false := by
    intro t
    unfold callTy
    cases q.isAsync <;> simp
  constructor
  · rintro ⟨h1, h2, h3, h4⟩
    refine ⟨h1, fun hb => ⟨?_, fun hi => ⟨h3 (hm.mpr hb) (hc.mpr hi), (ht _).mp (h4 (hm.mpr hb) (hc.mpr hi))⟩⟩⟩
    cases hq : q.isConst with
    | false => rfl
    | true => exact absurd (hF.mpr hb) (h2 hq)
  · rintro ⟨h1, h2⟩
    refine ⟨h1, fun hq hf => ?_, fun hb hi => ((h2 (hm.mp hb)).2 (hc.mp hi)).1,
      fun hb hi => (ht _).mpr ((h2 (hm.mp hb)).2 (hc.mp hi)).2⟩
    have := (h2 (hF.mp hf)).1
    rw [hq] at this
    cases this

/-- **C100.** A function without qualifiers and inner attributes can be a target in all builds. -/
theorem C100_plain {fz : Bool} {im : Option ImplIn} {o : AttrOpts} {f : FnIn} {n n' : Nat} {m : MethodM} {mo : ModuleM}
    (h : mapMethodOrFn fz im o f n = .ok (m, mo, n')) {inner : AttrM → Prop} (hi : ∀ a ∈ f.attrs, ¬ inner a) (test : Bool) :
    QualAccepted inner ⟨false, false, false⟩ test m mo mo.entry :=
  (C100_compiles h inner _ test _ (.inl rfl)).mpr ⟨hi, fun _ => ⟨rfl, fun _ => ⟨rfl, rfl⟩⟩⟩

/-- **C100.** Whatever the options, a `const` function is no target: there are no tests of it then. -/
theorem C100_const {fz : Bool} {im : Option ImplIn} {o : AttrOpts} {f : FnIn} {n n' : Nat} {m : MethodM} {mo : ModuleM}
    (h : mapMethodOrFn fz im o f n = .ok (m, mo, n')) (inner : AttrM → Prop) {q : Quals} (hq : q.isConst = true) :
    ¬ QualAccepted inner q true m mo mo.entry := by
  intro ha
  have := ((C100_compiles h inner q true _ (.inl rfl)).mp ha).2 (.inl rfl)
  rw [hq] at this
  cases this.1

/-- **C100.** A build for other things than tests is not affected by the attribute, unless it says `enable_in_production`. -/
theorem C100_other_builds {fz : Bool} {im : Option ImplIn} {o : AttrOpts} {f : FnIn} {n n' : Nat} {m : MethodM} {mo : ModuleM}
    (h : mapMethodOrFn fz im o f n = .ok (m, mo, n')) (ho : o.enableInProduction = false) {inner : AttrM → Prop}
    (hi : ∀ a ∈ f.attrs, ¬ inner a) (q : Quals) : QualAccepted inner q false m mo mo.entry :=
  (C100_compiles h inner q false _ (.inl rfl)).mpr ⟨hi, fun hb => by rw [ho] at hb; simp at hb⟩

/-! ## Examples -/

namespace QualsDemo

/-- `fn f() { s1; s2 }` -/
def f : FnIn := ⟨[⟨[c%"inline"], c%"inline", .absent⟩], c%"pub", c%"f", [], [], none, [c%"s1;", c%"s2"]⟩

/-- The macro accepts it. -/
theorem f_ok : ∃ m mo n', mapMethodOrFn false none {} f 0 = .ok (m, mo, n') := ⟨_, _, _, rfl⟩

/-- There is a harness. -/
example : Instantiable none {} f := by
  rw [← hasEntry_iff]
  decide

/-- `const fn f()` compiles as such, but there are no tests. -/
example : ∃ m mo n', mapMethodOrFn false none {} f 0 = .ok (m, mo, n') ∧
    QualAccepted (fun _ => False) ⟨true, false, false⟩ false m mo mo.entry ∧
    ¬ QualAccepted (fun _ => False) ⟨true, false, false⟩ true m mo mo.entry := by
  obtain ⟨m, mo, n', h⟩ := f_ok
  exact ⟨m, mo, n', h, C100_other_builds h rfl (fun _ _ => id) _, C100_const h _ rfl⟩

/-- With `#![inline]` in its body it never compiles. -/
example : ∃ m mo n', mapMethodOrFn false none {} f 0 = .ok (m, mo, n') ∧
    ∀ q test, ¬ QualAccepted (fun a => a.path = [c%"inline"]) q test m mo mo.entry := by
  obtain ⟨m, mo, n', h⟩ := f_ok
  refine ⟨m, mo, n', h, fun q test ha => ?_⟩
  exact ((C100_compiles h _ q test _ (.inl rfl)).mp ha).1 _ (List.mem_singleton.mpr rfl) rfl

end QualsDemo

end TF
