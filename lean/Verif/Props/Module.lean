import Verif.Props.Expand
import Verif.Props.Harness
import Verif.Props.EndToEnd
import Verif.Props.Turbofish

/-!
# C67, C68, C18: what is in the generated module
-/

namespace TF

open Spec

/-! ## Vocabulary -/

namespace Spec

def HasTypeParam (gs : List GParam) : Prop := ∃ i, .ty i ∈ gs

/-- It is known what `Args` stands for: the harness can be written. -/
def Instantiable (im : Option ImplIn) (o : AttrOpts) (f : FnIn) : Prop :=
  o.onlyGenericArgs = false ∧ (HasTypeParam (implParams im) → o.implGenericArgs ≠ none) ∧
    (HasTypeParam f.generics → o.genericArgs ≠ none)

/-- Parameters of types and lifetimes have to be used by a struct. -/
def NeedsUse : GParam → Prop
  | .const _ => False
  | _ => True

instance : DecidablePred NeedsUse := fun g => by cases g <;> simp only [NeedsUse] <;> infer_instance

/-- `std::marker::PhantomData<..>` -/
def phantomOf (inside : Pieces) : Ty :=
  .path .none false (.cons c%"std" .none (.cons c%"marker" .none (.cons c%"PhantomData" (.angle false inside) .nil)))

/-- A field that uses a parameter: `PhantomData<T>`, `PhantomData<&'a ()>`. -/
def UsesParam (g : GParam) (f : FieldM) : Prop :=
  f.attrs = [] ∧ f.ser = .phantom ∧ f.de = none ∧
    match g with
    | .ty i => f.ty = phantomOf (.ty (.name i) .nil)
    | .lifetime s => f.ty = phantomOf (.ty (.ref (some s) false (.other (.group c%"(" c%")" .nil .nil))) .nil)
    | .const _ => False

/-- The text of a generic argument. -/
def argText : GArg → List Str
  | .ty t => t.toks
  | .lifetime s => [c%"'", s]
  | .other ts => ts

/-- `::<A, B, C>`, or nothing. -/
def turbofishText : Option (List GArg) → List Str
  | none => []
  | some l => [c%":", c%":", c%"<"] ++ (List.intersperse [c%","] (l.map argText)).flatten ++ [c%">"]

/-- What the harness calls. -/
inductive Callee (o : AttrOpts) (name : Str) : Option ImplIn → List Str → Prop
  /-- `super::f::<..>` -/
  | free : Callee o name none ([c%"super", c%":", c%":", name] ++ turbofishText o.genericArgs)
  /-- `T::f::<..>`, with the arguments for the impl filled in. -/
  | inherent (x : ImplIn) (m : GMap) (t : Ty) (ts : List Str) : x.ctx.tr = none →
      genericParamsMap x.generics (o.implGenericArgs.getD []) = .ok m → x.ctx.self.mapParams m = .ok t →
      t.turbofish = some ts →
      Callee o name (some x) (ts ++ [c%":", c%":", name] ++ turbofishText o.genericArgs)
  /-- `<T as Trait>::f::<..>` -/
  | ofTrait (x : ImplIn) (m : GMap) (t : Ty) (ts : List Str) (p p' : PathTy) (ps : List Str) : x.ctx.tr = some p →
      genericParamsMap x.generics (o.implGenericArgs.getD []) = .ok m → x.ctx.self.mapParams m = .ok t →
      t.turbofish = some ts → p.mapParams m = .ok p' → p'.turbofish = some ps →
      Callee o name (some x)
        ([c%"<"] ++ ts ++ [c%"as"] ++ ps ++ [c%">", c%":", c%":", name] ++ turbofishText o.genericArgs)

end Spec

/-- Several pieces of data have been written to `dir`, one after the other. -/
inductive Spec.StoredAll (dir : Path) : List Bytes → World → World → Prop
  | nil (w : World) : StoredAll dir [] w w
  | cons {b : Bytes} {l : List Bytes} {w w1 w2 : World} : Stored dir b w w1 → StoredAll dir l w1 w2 →
      StoredAll dir (b :: l) w w2

/-! ## C67 -/

theorem typeIdents_iff (gs : List GParam) : 0 < (typeIdents gs).length ↔ HasTypeParam gs := by
  unfold HasTypeParam
  induction gs with
  | nil => simp [typeIdents]
  | cons g gs ih => cases g <;> simp [typeIdents, ih]

theorem hasEntry_iff (im : Option ImplIn) (o : AttrOpts) (f : FnIn) :
    hasEntry (macroIn im o f) = true ↔ Instantiable im o f := by
  have h1 := typeIdents_iff (implParams im)
  have h2 := typeIdents_iff f.generics
  unfold hasEntry macroIn Instantiable
  rw [← h1, ← h2]
  simp only [implParams, Bool.not_eq_true', Bool.or_eq_false_iff, Bool.and_eq_false_iff, decide_eq_false_iff_not,
    Bool.not_eq_false', Option.isSome_iff_ne_none, and_assoc, imp_iff_not_or, ne_eq]

/-- **C67.** The harness is not empty exactly if it is known how to instantiate the target; in that case, unless switched
off, there is a test that generates inputs, too. This does not depend on the kind of build. -/
theorem C67_harness_iff (fz : Bool) (im : Option ImplIn) (o : AttrOpts) (f : FnIn) (n n' : Nat) (m : MethodM) (mo : ModuleM)
    (h : mapMethodOrFn fz im o f n = .ok (m, mo, n')) :
    (mo.entry ≠ .nop ↔ Instantiable im o f) ∧
      (mo.autoGenerate ≠ none ↔ Instantiable im o f ∧ o.noAutoGenerate = false) ∧
      (mo.fields ≠ none ↔ o.onlyGenericArgs = false) := by
  obtain ⟨_, _, _, _, -, -, -, -, -, rfl⟩ := mapMethodOrFn_ok h
  rw [← hasEntry_iff]
  refine ⟨?_, ?_, ?_⟩
  · simp only [entryTest]
    cases hasEntry (macroIn im o f) <;> simp [argsEntry, argsEntryFrom]
  · simp only [autoGenerateTest]
    have : (macroIn im o f).noAutoGenerate = o.noAutoGenerate := rfl
    rw [this]
    cases hasEntry (macroIn im o f) <;> cases o.noAutoGenerate <;> simp
  · cases o.onlyGenericArgs <;> simp

/-- **C67.** Measuring coverage, the harness of a module warns, before it does anything else, exactly if the target has more
than one statement. -/
theorem C67_coverage_warning {V R : Type} (fz : Bool) (im : Option ImplIn) (o : AttrOpts) (f : FnIn) (n n' : Nat)
    (m : MethodM) (mo : ModuleM) (h : mapMethodOrFn fz im o f n = .ok (m, mo, n')) (hi : Instantiable im o f)
    (c : Setting) (hc : c.test = true) (h1 : On c.ctx.env c%"TEST_FUZZ") (h2 : On c.ctx.env c%"TEST_FUZZ_COVERAGE")
    (t : Target V) (body : V → Prog V R) (s : Proc V R) (ht : t.macro_ = macroIn im o f) :
    ∃ l, (mo.entry.exec c t (fun v => callInstrumented c t v ((body v).run c)) ⟨none, none⟩ s).2.log =
      s.log ++ (if 2 ≤ f.stmts.length then [.warnNontrivial] else []) ++ .readStdin :: l := by
  obtain ⟨_, _, _, _, -, -, -, -, -, rfl⟩ := mapMethodOrFn_ok h
  have he := (hasEntry_iff im o f).mpr hi
  have g2 : coverageEnabled c.ctx.env = true := (eval_coverage c.ctx.env).mpr h2
  have key := harness_other c t body s (by rw [ht]; exact he) h1 (.inl h2)
  unfold runHarness at key
  rw [ht] at key
  simp only
  rw [key, g2]
  simp only [Bool.true_or, if_true]
  have ho : (opening c t : List (Ev V R)) = (if 2 ≤ f.stmts.length then [.warnNontrivial] else []) ++ .readStdin ::
      (if displayEnabled c.ctx.env then [.showArgs (t.de c.stdin) (prettyPrintEnabled c.ctx.env)] else []) := by
    unfold opening
    rw [g2, ht]
    simp [macroIn]
  cases hd : t.de c.stdin with
  | none =>
    simp only [ho, hd]
    exact ⟨_, by simp only [List.append_assoc, List.cons_append]; rfl⟩
  | some v =>
    simp only
    obtain ⟨l, hl, -⟩ := harness_call c t v (body v) { s with warned := true, log := s.log ++ (opening c t ++ [.call v]) } hc h1
    generalize callInstrumented c t v ((body v).run c)
      { s with warned := true, log := s.log ++ (opening c t ++ [.call v]) } = x at hl
    obtain ⟨x, s1⟩ := x
    simp only at hl
    rw [ho] at hl
    cases x <;> simp only [afterCall, Proc.note, hl] <;>
      exact ⟨_, by simp only [List.append_assoc, List.cons_append]; rfl⟩

/-! ## C68 -/

theorem phantomFields_use (gs : List GParam) (n : Nat) :
    List.Forall₂ UsesParam (gs.filter (NeedsUse ·)) (phantomFields n gs).1 := by
  induction gs generalizing n with
  | nil => exact .nil
  | cons g gs ih =>
    cases g with
    | ty i => exact .cons ⟨rfl, rfl, rfl, rfl⟩ (ih _)
    | lifetime s => exact .cons ⟨rfl, rfl, rfl, rfl⟩ (ih _)
    | const i => exact ih _

theorem mapTypedArg_ser (ident : Str) (c : Convs) : ∀ (t : Ty) (e : SerE), (mapTypedArg ident c e t).ser ≠ .phantom
  | .path q lead segs, e => by rw [mapTypedArg]; split <;> simp [mapPathArg]
  | .slice t, e => by rw [mapTypedArg]; split <;> simp [mapPathArg]
  | .other ps, e => by rw [mapTypedArg]; split <;> simp [mapPathArg]
  | .ref lt m (.path q lead segs), e => by
    rw [mapTypedArg]
    split
    · simp
    · simp only; split <;> simp [mapPathArg]
  | .ref lt m (.slice t), e => by rw [mapTypedArg]; split <;> simp
  | .ref lt m (.other ps), e => by
    cases hg : c.get (.ref lt m (.other ps)) with
    | some a => rw [mapTypedArg_get hg]; simp
    | none => simp only [mapTypedArg, hg]; split <;> simp [mapPathArg]
  | .ref lt m (.ref lt2 m2 t), e => by
    cases hg : c.get (.ref lt m (.ref lt2 m2 t)) with
    | some a => rw [mapTypedArg_get hg]; simp
    | none => rw [mapTypedArg_ref hg]; exact mapTypedArg_ser ident c (.ref lt2 m2 t) _

theorem mapArg_field {im : ImplM} {c c' : Convs} {n n' : Nat} {a : FnArg} {f : FieldM}
    (h : mapArg im c n a = .ok (f, c', n')) : f.de ≠ none ∧ f.ser ≠ .phantom := by
  unfold mapArg at h
  cases hb : argBasics im n a with
  | ok r =>
    obtain ⟨i, e, ty, k⟩ := r
    rw [hb, Out.ok_bind] at h
    simp only at h
    split at h
    · cases h
      refine ⟨by simp, ?_⟩
      exact mapTypedArg_ser i c ty e
    · cases h; simp
  | _ => rw [hb] at h; cases h

theorem mapArgs_fields {im : ImplM} : ∀ {l : List FnArg} {c c' : Convs} {n n' : Nat} {fs : List FieldM},
    mapArgs im c n l = .ok (fs, c', n') → fs.length = l.length ∧ ∀ a ∈ fs, a.de ≠ none ∧ a.ser ≠ .phantom
  | [], c, c', n, n', fs, h => by cases h; simp
  | a :: l, c, c', n, n', fs, h => by
    rw [mapArgs] at h
    cases h1 : mapArg im c n a with
    | ok r =>
      obtain ⟨f, c1, n1⟩ := r
      rw [h1, Out.ok_bind] at h
      simp only at h
      cases h2 : mapArgs im c1 n1 l with
      | ok r =>
        obtain ⟨fs', c2, n2⟩ := r
        rw [h2, Out.ok_bind] at h
        cases h
        obtain ⟨g1, g2⟩ := mapArgs_fields h2
        refine ⟨by simp [g1], fun x hx => ?_⟩
        rcases List.mem_cons.mp hx with rfl | hx
        · exact mapArg_field h1
        · exact g2 x hx
      | _ => rw [h2] at h; cases h
    | _ => rw [h1] at h; cases h

/-- **C68.** The argument struct has a field for each argument, followed by one field for each type or lifetime parameter of
the impl and the function, which uses it – a struct must use its parameters. -/
theorem C68_parameters_used (fz : Bool) (im : Option ImplIn) (o : AttrOpts) (f : FnIn) (n n' : Nat) (m : MethodM)
    (mo : ModuleM) (h : mapMethodOrFn fz im o f n = .ok (m, mo, n')) (fs : List FieldM) (hf : mo.fields = some fs) :
    ∃ as ps, fs = as ++ ps ∧ as.length = f.inputs.length ∧ (∀ a ∈ as, a.de ≠ none ∧ a.ser ≠ .phantom) ∧
      List.Forall₂ UsesParam ((implParams im ++ f.generics).filter (NeedsUse ·)) ps := by
  obtain ⟨_, fs', _, _, -, h2, -, -, -, rfl⟩ := mapMethodOrFn_ok h
  simp only at hf
  split at hf
  · cases hf
  cases hf
  obtain ⟨as, c', h3, rfl, -⟩ := argsFields_ok h2
  exact ⟨as, _, rfl, (mapArgs_fields h3).1, (mapArgs_fields h3).2, phantomFields_use _ n⟩

theorem garsToks_eq (l : List GArg) : garsToks l = (List.intersperse [c%","] (l.map argText)).flatten := by
  have ht : ∀ a : GArg, a.toks = argText a := fun a => by cases a <;> rfl
  induction l with
  | nil => rfl
  | cons a l ih =>
    cases l with
    | nil => simp [garsToks, ht]
    | cons b l => simp [garsToks, ht] at ih ⊢; rw [ih]

theorem argsAsTurbofish_eq (x : Option (List GArg)) : argsAsTurbofish x = turbofishText x := by
  cases x with
  | none => rfl
  | some l => simp [argsAsTurbofish, turbofishText, garsToks_eq, colon2]

/-- **C68.** The harness calls the target: by its name in the enclosing module, or as a method of the type or trait, with the
arguments that were given for its parameters. -/
theorem C68_callee (fz : Bool) (im : Option ImplIn) (o : AttrOpts) (f : FnIn) (n n' : Nat) (m : MethodM)
    (mo : ModuleM) (h : mapMethodOrFn fz im o f n = .ok (m, mo, n')) : Callee o f.name im mo.callee := by
  obtain ⟨_, _, _, ca, -, -, -, h1, -, rfl⟩ := mapMethodOrFn_ok h
  simp only
  unfold calleeToks at h1
  cases im with
  | none =>
    cases h1
    rw [argsAsTurbofish_eq]
    exact .free
  | some x =>
    simp only at h1
    cases hm : genericParamsMap x.generics (o.implGenericArgs.getD []) with
    | ok m =>
      rw [hm, Out.ok_bind] at h1
      cases ht : x.ctx.self.mapParams m with
      | ok t =>
        rw [ht, Out.ok_bind] at h1
        obtain ⟨ts, hts⟩ := (C53_terminates t ⟨false, .nil⟩).1
        simp only [hts, Option.getD_some, argsAsTurbofish_eq, colon2] at h1
        cases htr : x.ctx.tr with
        | none =>
          rw [htr] at h1
          cases h1
          rw [List.append_assoc ts]
          exact .inherent x m t ts htr hm ht hts
        | some p =>
          rw [htr] at h1
          simp only at h1
          cases hp : p.mapParams m with
          | ok p' =>
            rw [hp, Out.ok_bind] at h1
            obtain ⟨ps, hps⟩ := (C53_terminates t p').2
            simp only [hps, Option.getD_some] at h1
            cases h1
            have := Callee.ofTrait (o := o) (name := f.name) x m t ts p p' ps htr hm ht hts hp hps
            simpa using this
          | _ => rw [hp] at h1; cases h1
      | _ => rw [ht] at h1; cases h1
    | _ => rw [hm] at h1; cases h1

/-! ## C18: generated inputs are recorded -/

section
variable {V R : Type}

theorem recordBytes_ok {c : Setting} {t : Target V} {x : Out Bytes} {w w' : World}
    (h : (do writeArgs c.ctx t.typeName (← IOm.lift x) : IOm Unit) c.plan w = (.ok (), w')) :
    ∃ dc data, corpusDirFromArgsType c.ctx t.typeName = .ok dc ∧ x = .ok data ∧ Stored dc data w w' := by
  simp only [Bind.bind, IOm.bind, IOm.lift] at h
  cases x with
  | ok d =>
    obtain ⟨dc, hdc, hs⟩ := unwrap_writeData_ok h
    exact ⟨dc, d, hdc, rfl, hs⟩
  | _ => cases h

theorem recordAutos_ok {c : Setting} {t : Target V} : ∀ {l : List (Out Bytes)} {s s' : Proc V R},
    recordAutos c t l s = (.ok (), s') →
    ∃ D bs, (l ≠ [] → corpusDirFromArgsType c.ctx t.typeName = .ok D) ∧ l = bs.map .ok ∧
      StoredAll D bs s.world s'.world ∧ s'.log = s.log ++ List.replicate l.length (.recorded .args)
  | [], s, s', h => by
    cases h
    exact ⟨[], [], fun h => absurd rfl h, rfl, .nil _, by simp⟩
  | v :: l, s, s', h => by
    rw [recordAutos] at h
    split at h
    · next u s1 hr =>
      obtain ⟨w, hw, rfl⟩ := record_ok hr
      obtain ⟨dc, b, h1, rfl, h3⟩ := recordBytes_ok hw
      obtain ⟨D, bs, g1, g2, g3, g4⟩ := recordAutos_ok h
      refine ⟨dc, b :: bs, fun _ => h1, by rw [g2, List.map_cons], ?_, ?_⟩
      · cases l with
        | nil =>
          obtain rfl : bs = [] := by simpa using g2.symm
          cases g3; exact .cons h3 (.nil _)
        | cons a l =>
          have := g1 (by simp)
          rw [h1] at this
          cases this
          exact .cons h3 g3
      · rw [g4]
        simp [Proc.note, List.replicate_succ]
    · next hno => exact absurd h (fun h => hno _ _ h)

theorem recordAutos_fails {c : Setting} {t : Target V} : ∀ {l : List (Out Bytes)} {s s' : Proc V R} {x : Out Unit},
    recordAutos c t l s = (x, s') → x ≠ .ok () → (x = .panic ∨ x = .crash) ∧
    ∃ k < l.length, ∃ e, s'.log = s.log ++ List.replicate k (.recorded .args) ++ .recordFailed .args :: e
  | [], s, s', x, h, hx => by cases h; exact absurd rfl hx
  | v :: l, s, s', x, h, hx => by
    rw [recordAutos] at h
    cases hr : record c .args (do writeArgs c.ctx t.typeName (← IOm.lift v)) s with
    | mk y s1 =>
    rw [hr] at h
    by_cases hy : y = .ok ()
    · subst hy
      obtain ⟨w, -, rfl⟩ := record_ok hr
      obtain ⟨h1, k, hk, e, he⟩ := recordAutos_fails h hx
      exact ⟨h1, k + 1, by simp; omega, e, by rw [he]; simp [Proc.note, List.replicate_succ]⟩
    · obtain ⟨h1, -, -, e, he, -⟩ := record_fails hr hy
      refine ⟨?_, 0, by simp, e, ?_⟩
      · rcases h1 with rfl | rfl <;> cases h <;> simp
      · rcases h1 with rfl | rfl <;> cases h <;> simp [he]

/-- **C18.** The generating test of a module, if it succeeds and fuzzing is off, has recorded every generated input: the
serialised form of each was stored in the target's corpus, in order, and nothing else was done. If it does not succeed, it
says which recording failed. -/
theorem C18_recorded (fz : Bool) (im : Option ImplIn) (o : AttrOpts) (f : FnIn) (n n' : Nat)
    (m : MethodM) (mo : ModuleM) (h : mapMethodOrFn fz im o f n = .ok (m, mo, n')) (code : Code)
    (hcode : mo.autoGenerate = some code) (c : Setting) (h1 : ¬ On c.ctx.env c%"TEST_FUZZ") (t : Target V)
    (run : V → Proc V R → Out R × Proc V R) (fr : Frame V R) (s s' : Proc V R) (x : Out (Frame V R))
    (hr : code.exec c t run fr s = (x, s')) :
    (∀ fr, x = .ok fr → ∃ D bs, (t.autos ≠ [] → corpusDirFromArgsType c.ctx t.typeName = .ok D) ∧
      t.autos = bs.map .ok ∧ StoredAll D bs s.world s'.world ∧
      s'.log = s.log ++ List.replicate t.autos.length (.recorded .args)) ∧
    ((∀ fr, x ≠ .ok fr) → (x = .panic ∨ x = .crash) ∧
      ∃ k < t.autos.length, ∃ e, s'.log = s.log ++ List.replicate k (.recorded .args) ++ .recordFailed .args :: e) := by
  obtain ⟨_, _, _, _, -, -, -, -, -, rfl⟩ := mapMethodOrFn_ok h
  have g1 : (Guard.not .testFuzz).eval c.ctx.env = true := by
    have : ¬ Guard.testFuzz.eval c.ctx.env = true := fun h => h1 ((eval_testFuzz _).mp h)
    simp only [Guard.eval] at this ⊢
    simpa using this
  simp only [autoGenerateTest] at hcode
  split at hcode
  case isFalse => cases hcode
  cases hcode
  rw [exec_when, g1, if_pos rfl, Code.exec] at hr
  cases hra : recordAutos c t t.autos s with
  | mk y s1 =>
  rw [hra] at hr
  cases y with
  | ok u =>
    cases hr
    exact ⟨fun _ _ => recordAutos_ok hra, fun h => absurd rfl (h _)⟩
  | _ =>
    cases hr
    refine ⟨fun _ h => (nomatch h), fun _ => ?_⟩
    obtain ⟨hx, hk⟩ := recordAutos_fails hra (by simp)
    refine ⟨?_, hk⟩
    rcases hx with h | h <;> cases h <;> simp

/-- **C18.** With fuzzing on, the generating test does nothing; neither does a target without such a test. -/
theorem C18_off (c : Setting) (t : Target V) (s : Proc V R) (h : On c.ctx.env c%"TEST_FUZZ") :
    runAutoGenerate c t s = (.ok ⟨none, none⟩, s) := by
  have g1 : (Guard.not .testFuzz).eval c.ctx.env = false := by
    have := (eval_testFuzz _).mpr h
    simp only [Guard.eval] at this ⊢
    simp [this]
  unfold runAutoGenerate autoGenerateTest
  split
  · next code hc =>
    split at hc
    · cases hc
      rw [exec_when, g1]
      rfl
    · cases hc
  · rfl

end

/-! ## Cases -/

namespace ModuleDemo

/-- `fn f<'a, T, const N: usize>(v: &'a T)` with `generic_args = "u8, 3"`. -/
def fn1 : FnIn := ⟨[], c%"pub", c%"f", [.lifetime c%"a", .ty c%"T", .const c%"N"],
  [.typed [] ⟨[c%"v"], true⟩ (.ref (some c%"a") false (.name c%"T"))], none, [c%"a;", c%"b"]⟩

def opts1 : AttrOpts := { genericArgs := some [.ty (.name c%"u8"), .other [c%"3"]] }

/-- The module: one argument field and two phantoms, the call `super::f::<u8, 3>`, a harness and a generating test. -/
example : ∃ m mo, mapMethodOrFn true none opts1 fn1 0 = .ok (m, mo, 2) ∧
    (mo.fields.map fun l => l.map fun f => (f.ident, f.ser)) =
      some [(c%"v", .clone (.deref (.var c%"v"))), (c%"_0", .phantom), (c%"_1", .phantom)] ∧
    mo.callee = [c%"super", c%":", c%":", c%"f", c%":", c%":", c%"<", c%"u8", c%",", c%"3", c%">"] ∧
    mo.entry ≠ .nop ∧ mo.autoGenerate = some (.when (.not .testFuzz) .writeAutos) :=
  ⟨_, _, rfl, rfl, rfl, by decide, rfl⟩

example : Instantiable none opts1 fn1 := ⟨rfl, (by rintro ⟨_, h⟩; cases h), fun _ => by decide⟩

def auto3 : Target UInt8 := { HarnessDemo.target with autos := [.ok [1], .ok [2], .ok [1]] }

/-- Three generated inputs are recorded, the first and the last in the same file. -/
example : (runAutoGenerate (HarnessDemo.setting [] []) auto3 HarnessDemo.start).2.log =
      [.recorded .args, .recorded .args, .recorded .args] ∧
    (runAutoGenerate (HarnessDemo.setting [] []) auto3 HarnessDemo.start).2.world.fs
      [c%"w", c%"corpus", c%"k::t", fileName [2]] = some (.file [2]) := by decide +kernel

end ModuleDemo

end TF
