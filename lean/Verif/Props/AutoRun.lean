import Verif.Props.Corpora
import Verif.Props.EndToEnd
import Verif.Props.InputsReach
import Verif.Props.History
import Verif.Props.Command
import Verif.Props.Tree
import Mathlib.Data.List.Pairwise

/-!
# From a missing corpus to the generated one (C101)

`cargo test-fuzz` looks for the corpora of the selected targets and runs the generating test of each target without one
(cargo-test-fuzz/src/lib.rs:1483-1526); the test is generated by the macro (macro/src/lib.rs:721-741). Here the two are put
together: what is in the corpora when fuzzing begins, and when it does not begin.
-/

namespace TF

open Spec

namespace Spec

/-- A selected target: the executable, where it is declared, what the attribute was applied to, and the target itself. -/
structure Picked : Type 1 where
  exe : Exe
  decl : Decl
  impl : Option ImplIn
  opts : AttrOpts
  fn : FnIn
  V : Type
  target : Target V

/-- A test passes if it returns. -/
def passes {α : Type} : Out α → Bool
  | .ok _ => true
  | _ => false

/-- The executable is the one built for the target: given the name of the generating test, libtest runs this test – nothing
if there is none of the name – in a process whose environment is that of `cargo test-fuzz` as changed by the command, and whose
input/output operations do not fail; the exit status tells whether the test passed. -/
structure RunsTest (y : Sys) (a : Picked) : Prop where
  krate : a.exe.name = a.decl.krate
  typeName : a.target.typeName = argsTypeName a.decl
  macro_ : a.target.macro_ = macroIn a.impl a.opts a.fn
  run : ∀ acts cmd fs, cmd.program = a.exe.path → cmd.args = [c%"--exact", autoGenerateName a.decl] →
    ∃ (c : Setting) (s : Proc a.V Unit), c.ctx.env = cmd.childEnv y.ctx.env ∧ c.ctx.metadata = y.ctx.metadata ∧
      c.ctx.inTest = false ∧ c.plan = Plan.clean ∧ s.world.fs = fs ∧
      y.command acts cmd fs =
        (some (passes (runAutoGenerate c a.target s).1), (runAutoGenerate c a.target s).2.world.fs)

/-- Inputs can be generated for the target: it is known how to instantiate it, generation is not switched off, all parameters
have values, each of which can be serialised; `bs` are the results. And `TEST_FUZZ` is not set in the user's environment. -/
def OffersTarget (y : Sys) (a : Picked) (bs : List Bytes) : Prop :=
  ¬ On y.ctx.env c%"TEST_FUZZ" ∧ Instantiable a.impl a.opts a.fn ∧ a.opts.noAutoGenerate = false ∧ bs ≠ [] ∧
    a.target.autos = bs.map .ok

/-- Below `D` there is one file for each of `bs`, named by its hash, and nothing else. -/
def Exactly (D : Path) (bs : List Bytes) (fs : FS) : Prop :=
  fs D = some .dir ∧ ∀ q, D <+: q → q ≠ D → ∀ node, fs q = some node ↔
    ∃ b ∈ bs, ∃ n, q = D ++ [n] ∧ hexDecode n = some (Sha1.digest b) ∧ node = .file b

end Spec

/-! ## The generating test -/

section
variable {V R : Type}

/-- Values that can be serialised are recorded. -/
theorem recordAutos_all {c : Setting} {t : Target V} {D : Path} (hD : corpusDirFromArgsType c.ctx t.typeName = .ok D)
    (rest : List (Out Bytes)) : ∀ (bs : List Bytes) (s : Proc V R) (w : World), recordAll D bs c.plan s.world = (.ok (), w) →
    ∃ s', recordAutos c t (bs.map .ok ++ rest) s = recordAutos c t rest s' ∧ s'.world = w
  | [], s, w, h => by
    cases h
    exact ⟨s, rfl, rfl⟩
  | b :: bs, s, w, h => by
    unfold recordAll at h
    obtain ⟨u, w1, h1, h2⟩ := IOm.bind_ok h
    have hr : record c .args (do writeArgs c.ctx t.typeName (← IOm.lift (.ok b))) s =
        (.ok (), { s with world := w1 }.note [.recorded .args]) := by
      unfold record
      have : (do writeArgs c.ctx t.typeName (← IOm.lift (.ok b)) : IOm Unit) c.plan s.world = (.ok (), w1) := by
        simp only [Bind.bind, IOm.bind, IOm.lift, writeArgs, hD, IOm.unwrap, h1]
      rw [this]
    obtain ⟨s', g1, g2⟩ := recordAutos_all hD rest bs ({ s with world := w1 }.note [.recorded .args]) w h2
    refine ⟨s', ?_, g2⟩
    rw [List.map_cons, List.cons_append, recordAutos, hr]
    exact g1

/-- A value that cannot be serialised ends the test. -/
theorem recordAutos_bad {c : Setting} {t : Target V} {x : Out Bytes} (hx : ∀ b, x ≠ .ok b) (l : List (Out Bytes))
    (s : Proc V R) : passes (recordAutos c t (x :: l) s).1 = false ∧ (recordAutos c t (x :: l) s).2.world = s.world := by
  have hb : (do writeArgs c.ctx t.typeName (← IOm.lift x) : IOm Unit) c.plan s.world =
      ((match x with | .ok _ => .panic | .err e => .err e | .panic => .panic | .exit n => .exit n | .crash => .crash : Out Unit),
        s.world) := by
    cases x with
    | ok b => exact absurd rfl (hx b)
    | _ => rfl
  rw [recordAutos]
  unfold record
  rw [hb]
  cases x with
  | ok b => exact absurd rfl (hx b)
  | crash => exact ⟨rfl, rfl⟩
  | _ =>
    unfold raise
    cases s.hook <;> exact ⟨rfl, rfl⟩

theorem autos_split : ∀ l : List (Out Bytes), (∃ bs : List Bytes, l = bs.map .ok) ∨
    ∃ (bs : List Bytes) (x : Out Bytes) (r : List (Out Bytes)), l = bs.map .ok ++ x :: r ∧ ∀ b, x ≠ .ok b
  | [] => .inl ⟨[], rfl⟩
  | x :: l => by
    cases x with
    | ok b =>
      rcases autos_split l with ⟨bs, rfl⟩ | ⟨bs, x, r, rfl, hx⟩
      · exact .inl ⟨b :: bs, rfl⟩
      · exact .inr ⟨b :: bs, x, r, rfl, hx⟩
    | _ => exact .inr ⟨[], _, l, rfl, fun b h => by cases h⟩

end

/-! ## Recording several values -/

theorem recordAll_stored {D : Path} : ∀ {bs : List Bytes} {pl : Plan} {w w' : World}, recordAll D bs pl w = (.ok (), w') →
    StoredAll D bs w w'
  | [], _, _, _, h => by
    cases h
    exact .nil _
  | b :: bs, pl, w, w', h => by
    unfold recordAll at h
    obtain ⟨u, w1, h1, h2⟩ := IOm.bind_ok h
    obtain ⟨n, g1, -, g2, g3⟩ := C01_record_stores_data D b pl w w1 h1
    exact .cons ⟨n, g1, g2, g3⟩ (recordAll_stored h2)

theorem storedAll_elsewhere {D X : Path} {bs : List Bytes} {w w' : World} (h : StoredAll D bs w w') (hX : Apart X D) :
    ∀ q, X <+: q → w'.fs q = w.fs q := by
  induction h with
  | nil w => exact fun _ _ => rfl
  | cons h1 _ ih => exact fun q hq => (ih q hq).trans (h1.elsewhere hX q hq)

theorem storedAll_creatable {D X : Path} {bs : List Bytes} {w w' : World} (h : StoredAll D bs w w') (hX : Apart X D)
    (hc : Creatable w.fs X) : Creatable w'.fs X := by
  induction h with
  | nil w => exact hc
  | cons h1 _ ih =>
    refine ih fun q b hq hf => ?_
    obtain ⟨n, -, -, h3⟩ := h1
    by_cases hqn : q = D ++ [n]
    · subst hqn
      exact hX.2 ((List.prefix_append D [n]).trans hq)
    · rcases h3 q hqn with h | ⟨-, h, -⟩
      · exact hc q b hq (h ▸ hf)
      · rw [h] at hf; cases hf

theorem storedAll_gained {D : Path} {bs : List Bytes} {w w' : World} (h : StoredAll D bs w w') :
    Gained D (· ∈ bs) w.fs w'.fs := by
  induction h with
  | nil w => exact Gained.none (by simp) fun _ _ _ => rfl
  | cons h1 _ ih => exact (h1.here.trans ih).congr fun b => by simp

theorem storedAll_exactly {D : Path} {bs : List Bytes} {w w' : World} (h : StoredAll D bs w w') (hne : bs ≠ [])
    (hinj : ∀ a ∈ bs, ∀ b ∈ bs, Sha1.digest a = Sha1.digest b → a = b) (hw : WellFormed w'.fs) (hD : D ≠ [])
    (hno : ∀ q, D <+: q → w.fs q = none) : Exactly D bs w'.fs := by
  have hg := storedAll_gained h
  refine ⟨?_, fun q hq hqD node => ⟨fun hn => ?_, ?_⟩⟩
  · obtain ⟨n, h1⟩ : ∃ n, w'.fs (D ++ [n]) ≠ none := by
      clear hg hw hinj hno
      induction h with
      | nil w => exact absurd rfl hne
      | @cons b l w w1 w2 h1 h2 ih =>
        by_cases hl : l = []
        · subst hl
          cases h2
          obtain ⟨n, g1, -, -⟩ := h1
          exact ⟨n, by rw [g1]; simp⟩
        · exact ih hl
    exact (hw D n h1).resolve_left hD
  · rcases hg q hq hqD with ⟨b, n, hb, h1, h2, h3⟩ | ⟨-, h1⟩
    · rw [h3] at hn
      cases hn
      exact ⟨b, hb, n, h1, h2, rfl⟩
    · rw [h1, hno q hq] at hn
      cases hn
  · rintro ⟨b, hb, n, rfl, h2, rfl⟩
    rcases hg _ hq hqD with ⟨b', n', hb', h1, h2', h3⟩ | ⟨h1, -⟩
    · have hnn : n = n' := by simpa using h1
      subst hnn
      rw [h2] at h2'
      rw [h3, hinj b' hb' b hb (Option.some.inj h2').symm]
    · exact absurd h2 (h1 b n hb rfl)

/-! ## One target -/

theorem maybeId_congr {c r : Ctx} (h1 : c.env = r.env) (h2 : c.inTest = false) (h3 : r.inTest = false) :
    maybeId c = maybeId r := by
  unfold maybeId
  rw [h1, h2, h3]
  rfl

theorem targetDirectory_congr {c r : Ctx} (h1 : c.env = r.env) (h2 : c.metadata = r.metadata) (a b : Bool) :
    targetDirectory c a b = targetDirectory r a b := by
  unfold targetDirectory
  rw [h1, h2]

/-- One generation run: values are recorded, up to the first one that cannot be serialised. -/
theorem generation_step {y : Sys} (hin : y.ctx.inTest = false) {a : Picked} (hr : RunsTest y a) (hm : MarkerFree a.decl)
    {D : Path} (hD : corpusDirFromTarget y.ctx a.exe.name (targetName a.decl) = .ok D) (acts : List Act) {cmd : Cmd} {fs : FS}
    (hp : cmd.program = a.exe.path) (ha : cmd.args = [c%"--exact", targetName a.decl ++ c%"_fuzz__::auto_generate"])
    (he : cmd.envs = []) (hcr : Creatable fs D) (hd : ∀ name, fs (D ++ [name]) ≠ some .dir) :
    ∃ ok bs n w', y.command acts cmd fs = (some ok, w'.fs) ∧ recordAll D bs Plan.clean ⟨fs, n⟩ = (.ok (), w') ∧
      ((OffersTarget y a bs ∧ ok = true) ∨ ((∀ bs, ¬ OffersTarget y a bs) ∧ (bs = [] ∨ ok = false) ∧
        (On y.ctx.env c%"TEST_FUZZ" → bs = [] ∧ ok = true))) ∧
      (¬ On y.ctx.env c%"TEST_FUZZ" → Instantiable a.impl a.opts a.fn → a.opts.noAutoGenerate = false →
        ∀ b, a.target.autos.head? = some (.ok b) → bs ≠ []) := by
  obtain ⟨c, s, h1, h2, h3, h4, rfl, h6⟩ := hr.run acts cmd fs hp (by rw [ha, autoGenerateName_eq])
  have henv : c.ctx.env = y.ctx.env := by rw [h1, Cmd.childEnv, he]; rfl
  obtain ⟨t, ht, hdir, -, -⟩ := C05_writer_reader_agree a.decl c.ctx y.ctx (maybeId_congr henv h3 hin)
    (targetDirectory_congr henv h2 _ _) hm
  rw [targetOfLine_harness] at ht
  cases ht
  rw [← hr.typeName, ← hr.krate, hD] at hdir
  rw [h6]
  have idle : (∀ bs, ¬ OffersTarget y a bs) →
      ¬ (¬ On y.ctx.env c%"TEST_FUZZ" ∧ Instantiable a.impl a.opts a.fn ∧ a.opts.noAutoGenerate = false) →
      runAutoGenerate c a.target s = (.ok ⟨none, none⟩, s) →
      ∃ ok bs n w', (some (passes (runAutoGenerate c a.target s).1), (runAutoGenerate c a.target s).2.world.fs) = (some ok, w'.fs) ∧
        recordAll D bs Plan.clean ⟨s.world.fs, n⟩ = (.ok (), w') ∧
        ((OffersTarget y a bs ∧ ok = true) ∨ ((∀ bs, ¬ OffersTarget y a bs) ∧ (bs = [] ∨ ok = false) ∧
          (On y.ctx.env c%"TEST_FUZZ" → bs = [] ∧ ok = true))) ∧
        (¬ On y.ctx.env c%"TEST_FUZZ" → Instantiable a.impl a.opts a.fn → a.opts.noAutoGenerate = false →
          ∀ b, a.target.autos.head? = some (.ok b) → bs ≠ []) := by
    intro hno hwhy hrun
    exact ⟨true, [], s.world.tick, s.world, by rw [hrun]; rfl, rfl, .inr ⟨hno, .inl rfl, fun _ => ⟨rfl, rfl⟩⟩,
      fun h1 h2 h3 => absurd ⟨h1, h2, h3⟩ hwhy⟩
  by_cases hon : On y.ctx.env c%"TEST_FUZZ"
  · exact idle (fun _ h => h.1 hon) (fun h => h.1 hon) (C18_off c a.target s (henv ▸ hon))
  by_cases hi : Instantiable a.impl a.opts a.fn
  case neg =>
    refine idle (fun _ h => hi h.2.1) (fun h => hi h.2.1) ?_
    have : hasEntry a.target.macro_ = false := by
      rw [hr.macro_]
      cases hx : hasEntry (macroIn a.impl a.opts a.fn) with
      | false => rfl
      | true => exact absurd ((hasEntry_iff _ _ _).mp hx) hi
    simp [runAutoGenerate, autoGenerateTest, this]
  by_cases hg : a.opts.noAutoGenerate = false
  case neg =>
    refine idle (fun _ h => hg h.2.2.1) (fun h => hg h.2.2) ?_
    have : a.target.macro_.noAutoGenerate = true := by
      rw [hr.macro_]
      exact (Bool.not_eq_false _).mp hg
    simp [runAutoGenerate, autoGenerateTest, this]
  have hentry : hasEntry a.target.macro_ = true := by rw [hr.macro_]; exact (hasEntry_iff _ _ _).mpr hi
  have hgen : a.target.macro_.noAutoGenerate = false := by rw [hr.macro_]; exact hg
  have hrun : passes (runAutoGenerate c a.target s).1 = passes (recordAutos c a.target a.target.autos s).1 ∧
      (runAutoGenerate c a.target s).2 = (recordAutos c a.target a.target.autos s).2 := by
    have g1 : (Guard.not .testFuzz).eval c.ctx.env = true := by
      have : ¬ Guard.testFuzz.eval c.ctx.env = true := fun h => hon (henv ▸ (eval_testFuzz _).mp h)
      simp only [Guard.eval] at this ⊢
      simpa using this
    simp only [runAutoGenerate, autoGenerateTest, hentry, hgen, Bool.not_false, Bool.and_self, if_true]
    rw [exec_when, g1, if_pos rfl, Code.exec]
    generalize recordAutos c a.target a.target.autos s = r
    obtain ⟨r1, r2⟩ := r
    cases r1 <;> exact ⟨rfl, rfl⟩
  rw [hrun.1, hrun.2]
  have hworld : (⟨s.world.fs, s.world.tick⟩ : World) = s.world := rfl
  rcases autos_split a.target.autos with ⟨bs, hbs⟩ | ⟨bs, x, r, hbs, hx⟩
  · obtain ⟨w', hw'⟩ := recordAll_succeeds D bs s.world hcr hd
    obtain ⟨s', g1, g2⟩ := recordAutos_all (rest := []) hdir bs s w' (by rw [h4]; exact hw')
    rw [List.append_nil, ← hbs] at g1
    rw [g1, recordAutos, g2]
    refine ⟨true, bs, s.world.tick, w', rfl, hw', ?_, fun _ _ _ b hb h => by rw [hbs, h] at hb; cases hb⟩
    by_cases hne : bs = []
    · refine .inr ⟨fun bs' h => ?_, .inl hne, fun _ => ⟨hne, rfl⟩⟩
      obtain ⟨-, -, -, h5, h7⟩ := h
      rw [hbs, hne] at h7
      exact h5 (List.map_eq_nil_iff.mp h7.symm)
    · exact .inl ⟨⟨hon, hi, hg, hne, hbs⟩, rfl⟩
  · obtain ⟨w', hw'⟩ := recordAll_succeeds D bs s.world hcr hd
    obtain ⟨s', g1, g2⟩ := recordAutos_all (rest := x :: r) hdir bs s w' (by rw [h4]; exact hw')
    rw [← hbs] at g1
    obtain ⟨b1, b2⟩ := recordAutos_bad (c := c) (t := a.target) hx r s'
    rw [g1, b1, b2, g2]
    refine ⟨false, bs, s.world.tick, w', rfl, hw', .inr ⟨fun bs' h => ?_, .inr rfl, fun h => absurd h hon⟩, ?_⟩
    case refine_2 =>
      rintro - - - b hb rfl
      rw [hbs] at hb
      exact hx b (Option.some.inj hb)
    have h7 := h.2.2.2.2
    rw [hbs] at h7
    have hmem : x ∈ bs'.map Out.ok := h7 ▸ (by simp : x ∈ bs.map Out.ok ++ x :: r)
    obtain ⟨b, -, hb⟩ := List.mem_map.mp hmem
    exact hx b hb.symm

/-! ## All targets -/

theorem generation_all {y : Sys} (hin : y.ctx.inTest = false) (corpus : Picked → Path) :
    ∀ (l : List Picked) (steps : List GenStep) (fs fs' : FS),
    (∀ a ∈ l, corpus a ≠ [] ∧ corpusDirFromTarget y.ctx a.exe.name (targetName a.decl) = .ok (corpus a)) →
    (∀ a ∈ l, RunsTest y a) → (∀ a ∈ l, MarkerFree a.decl) → l.Pairwise (fun a b => Apart (corpus a) (corpus b)) →
    steps.map (fun x => (x.exe, x.target)) = l.map (fun a => (a.exe, targetName a.decl)) →
    (∀ x ∈ steps, x.Faithful y []) → Linked fs steps fs' → WellFormed fs → (∀ a ∈ l, Creatable fs (corpus a)) →
    ((∀ x ∈ steps, ¬ x.Fails) ↔ ∀ a ∈ l, fs (corpus a) ≠ none ∨ ∃ bs, OffersTarget y a bs) ∧
      (∀ a ∈ l, fs (corpus a) = none → ∀ bs, OffersTarget y a bs →
        (∀ d ∈ bs, ∀ b ∈ bs, Sha1.digest d = Sha1.digest b → d = b) → Exactly (corpus a) bs fs') ∧
      (∀ X, (∀ a ∈ l, Apart X (corpus a) ∨ fs (corpus a) ≠ none) → ∀ q, X <+: q → fs' q = fs q) ∧
      (On y.ctx.env c%"TEST_FUZZ" → fs' = fs)
  | [], steps, fs, fs', _, _, _, _, hs, _, hl, _, _ => by
    have : steps = [] := List.map_eq_nil_iff.mp hs
    subst this
    cases hl
    simp
  | a :: l, [], _, _, _, _, _, _, hs, _, _, _, _ => by cases hs
  | a :: l, x :: steps, fs, fs', hc, hr, hm, hap, hs, hf, hl, hw, hcr => by
    obtain ⟨rfl, hl⟩ := hl
    rw [List.pairwise_cons] at hap
    simp only [List.map_cons, List.cons.injEq, Prod.mk.injEq] at hs
    obtain ⟨⟨hxe, hxt⟩, hs⟩ := hs
    have hfx := hf x (by simp)
    obtain ⟨hne, hca⟩ := hc a (by simp)
    have hcx : x.corpus = corpus a := by
      have := hfx.corpus_eq
      rw [hxe, hxt, hca] at this
      exact (Out.ok.inj this).symm
    -- the rest, from where this step ends
    have rest := fun hw' hcr' => generation_all hin corpus l steps x.after fs' (fun b hb => hc b (by simp [hb]))
      (fun b hb => hr b (by simp [hb])) (fun b hb => hm b (by simp [hb])) hap.2 hs (fun z hz => hf z (by simp [hz])) hl hw' hcr'
    by_cases hb : x.before x.corpus = none
    case neg =>
      obtain ⟨h1, h2⟩ := hfx.idle hb
      rw [h2] at rest
      obtain ⟨r1, r2, r3, r4⟩ := rest hw fun b hb => hcr b (by simp [hb])
      rw [hcx] at hb
      refine ⟨?_, ?_, ?_, r4⟩
      · have hx : ¬ x.Fails := by rintro ⟨_, _, h, -⟩; rw [h1] at h; cases h
        rw [List.forall_mem_cons, List.forall_mem_cons, r1]
        exact ⟨fun h => ⟨.inl hb, h.2⟩, fun h => ⟨hx, h.2⟩⟩
      · intro b hb' hnone
        rcases List.mem_cons.mp hb' with rfl | hb'
        · exact absurd hnone hb
        · exact r2 b hb' hnone
      · exact fun X hX => r3 X fun b hb => hX b (by simp [hb])
    case pos =>
      obtain ⟨cmd, r, acts, hran, hp, hargs, henvs, -, hrun⟩ := hfx.run hb
      rw [hcx] at hb
      have hno : ∀ q, corpus a <+: q → x.before q = none := by
        intro q hq
        by_contra hq'
        exact (WellFormed.rooted hw hne) q hq hq' hb
      obtain ⟨ok, bs, n, w', g1, g2, g3, -⟩ := generation_step hin (hr a (by simp)) (hm a (by simp)) hca acts
        (by rw [hp, hxe]) (by rw [hargs, hxt]) (by rw [henvs]; rfl) (hcr a (by simp))
        (fun name => by rw [hno _ (List.prefix_append _ _)]; simp)
      rw [hrun] at g1
      obtain ⟨rfl, hafter⟩ := Prod.mk.inj g1
      have hst := recordAll_stored g2
      have hw' : WellFormed w'.fs := by
        have := C04_tree (corpus a) bs Plan.clean ⟨x.before, n⟩ hw
        rw [g2] at this
        exact this
      rw [hafter] at rest
      have hkeep : ∀ b ∈ l, w'.fs (corpus b) = x.before (corpus b) := fun b hb =>
        storedAll_elsewhere hst (And.symm (hap.1 b hb)) _ (List.prefix_refl _)
      obtain ⟨r1, r2, r3, r4⟩ := rest hw' fun b hb => storedAll_creatable hst (And.symm (hap.1 b hb)) (hcr b (by simp [hb]))
      have hmissing : bs = [] → w'.fs (corpus a) = none := by
        rintro rfl
        cases g2
        exact hb
      refine ⟨?_, ?_, ?_, ?_⟩
      · have hx : x.Fails ↔ ∀ bs, ¬ OffersTarget y a bs := by
          constructor
          · rintro ⟨cmd', r', h1, h2⟩ bs' ho
            rw [hran] at h1
            cases h1
            rcases g3 with ⟨ho', rfl⟩ | ⟨h, -⟩
            · rcases h2 with h2 | h2
              · exact h2 rfl
              · rw [hafter, hcx] at h2
                obtain ⟨m, h3⟩ : ∃ m, w'.fs (corpus a ++ [m]) ≠ none := by
                  have hbs := ho'.2.2.2.1
                  clear r1 r2 r3 r4 rest
                  obtain ⟨b, bs, rfl⟩ := List.exists_cons_of_ne_nil hbs
                  have hg := storedAll_gained hst
                  rcases hg (corpus a ++ [fileName b]) (List.prefix_append _ _) (by simp) with ⟨b', n', -, -, -, h⟩ | ⟨h, -⟩
                  · exact ⟨fileName b, by rw [h]; simp⟩
                  · exact absurd (by rw [fileName]; exact hexDecode_hexEncode _) (h b (fileName b) (by simp) rfl)
                rcases hw' _ _ h3 with h | h
                · exact hne h
                · rw [h] at h2; cases h2
            · exact h bs' ho
          · intro hnone
            refine ⟨cmd, some ok, hran, ?_⟩
            rcases g3 with ⟨ho', -⟩ | ⟨-, h | h, -⟩
            · exact absurd ho' (hnone bs)
            · exact .inr (by rw [hafter, hcx]; exact hmissing h)
            · exact .inl (by rw [h]; simp)
        rw [List.forall_mem_cons, List.forall_mem_cons, r1, hx]
        constructor
        · rintro ⟨h1, h2⟩
          refine ⟨.inr (by simpa using h1), fun b hb => ?_⟩
          rw [← hkeep b hb]; exact h2 b hb
        · rintro ⟨h1, h2⟩
          refine ⟨by simpa using h1.resolve_left (fun h => h hb), fun b hb => ?_⟩
          rw [hkeep b hb]; exact h2 b hb
      · intro b hb' hnone bs' ho hinj
        rcases List.mem_cons.mp hb' with rfl | hb'
        · have hbs : bs' = bs := by
            rcases g3 with ⟨h, -⟩ | ⟨h, -⟩
            · have h1 := ho.2.2.2.2
              rw [h.2.2.2.2] at h1
              exact (List.map_injective_iff.mpr (fun _ _ h => Out.ok.inj h) h1).symm
            · exact absurd ho (h bs')
          subst hbs
          obtain ⟨e1, e2⟩ := storedAll_exactly hst ho.2.2.2.1 hinj hw' hne hno
          have hk := r3 (corpus b) fun z hz => .inl (hap.1 z hz)
          exact ⟨by rw [hk _ (List.prefix_refl _)]; exact e1, fun q hq => by rw [hk q hq]; exact e2 q hq⟩
        · exact r2 b hb' (by rw [hkeep b hb']; exact hnone) bs' ho hinj
      · intro X hX q hq
        have hXa : Apart X (corpus a) := (hX a (by simp)).resolve_right fun h => h hb
        rw [r3 X (fun b hb => by rw [hkeep b hb]; exact hX b (by simp [hb])) q hq]
        exact storedAll_elsewhere hst hXa q hq
      · intro hon
        rw [r4 hon]
        rcases g3 with ⟨h, -⟩ | ⟨-, -, h⟩
        · exact absurd hon h.1
        · cases (h hon).1
          cases g2
          rfl

/-! ## C101 -/

section
variable {y : Sys} (hy : Reliable y) (hin : y.ctx.inTest = false) {root : Path}
  (hroot : targetDirectory y.ctx false false = .ok root) (hid : IdOk y.ctx)
include hy hin hroot hid

/-- **C101.** Let `l` be the selected targets, which are different ones. Fuzzing begins exactly if every target has a corpus
already, or is one inputs can be generated for, `TEST_FUZZ` not being set. Then the corpus of each target of the latter
kind, and without a corpus so far, consists of exactly one file for each generated input; and corpora that were there are
left as they were. -/
theorem C101_exactly (l : List Picked) (corpus : Picked → Path)
    (hc : ∀ a ∈ l, corpusDirFromTarget y.ctx a.exe.name (targetName a.decl) = .ok (corpus a))
    (hn : ∀ a ∈ l, Named a.exe.name (targetName a.decl)) (hr : ∀ a ∈ l, RunsTest y a) (hm : ∀ a ∈ l, MarkerFree a.decl)
    (hd : l.Pairwise fun a b => ¬ SameTarget a.exe.name (targetName a.decl) b.exe.name (targetName b.decl))
    (s : RSt) (hw : WellFormed s.world.fs) (hcr : ∀ a ∈ l, Creatable s.world.fs (corpus a)) :
    let after := autoGenerateCorpora y [] (l.map fun a => (a.exe, targetName a.decl)) s
    (after.1 = .ok () ↔ ∀ a ∈ l, s.world.fs (corpus a) ≠ none ∨ ∃ bs, OffersTarget y a bs) ∧
      (∀ a ∈ l, s.world.fs (corpus a) = none → ∀ bs, OffersTarget y a bs →
        (∀ d ∈ bs, ∀ b ∈ bs, Sha1.digest d = Sha1.digest b → d = b) → Exactly (corpus a) bs after.2.world.fs) ∧
      (∀ a ∈ l, s.world.fs (corpus a) ≠ none → ∀ q, corpus a <+: q → after.2.world.fs q = s.world.fs q) ∧
      (On y.ctx.env c%"TEST_FUZZ" → after.2.world.fs = s.world.fs) := by
  intro after
  have hne : ∀ a ∈ l, corpus a ≠ [] := by
    intro a ha h
    have h1 := dirOf_eq y.ctx root a.exe.name (targetName a.decl) .corpus hid (hn a ha).1 (hn a ha).2.1 hroot
    rw [show dirOf y.ctx a.exe.name (targetName a.decl) .corpus = .ok [] from h ▸ hc a ha] at h1
    simp at h1
  have hap : l.Pairwise fun a b => Apart (corpus a) (corpus b) :=
    hd.imp_of_mem fun {a b} ha hb h => dirs_apart hroot hid (hn a ha) (hn b hb) (kind := .corpus) (kind' := .corpus) (hc a ha) (hc b hb)
      (fun h' => h h'.2)
  obtain ⟨steps, lines, h1, h2, h3, -, -, h4, -⟩ := C21_generation y hy [] (l.map fun a => (a.exe, targetName a.decl))
    (by
      intro e t het
      obtain ⟨a, ha, hae⟩ := List.mem_map.mp het
      cases hae
      exact ⟨_, hc a ha⟩) s
  obtain ⟨g1, g2, g3, g4⟩ := generation_all hin corpus l steps s.world.fs _ (fun a ha => ⟨hne a ha, hc a ha⟩) hr hm hap h1 h2 h3
    hw hcr
  refine ⟨h4.trans g1, g2, fun a ha hex => g3 _ fun b hb => ?_, g4⟩
  have : Std.Symm fun a b => corpus a = corpus b ∨ Apart (corpus a) (corpus b) := ⟨fun _ _ h => h.imp Eq.symm And.symm⟩
  have hsym := List.Pairwise.forall_of_forall (R := fun a b => corpus a = corpus b ∨ Apart (corpus a) (corpus b)) (l := l)
    (fun _ _ => .inl rfl) (hap.imp fun h => .inr h)
  rcases hsym ha hb with h | h
  · exact .inr (h ▸ hex)
  · exact .inl h

theorem generation_one {a : Picked} {D : Path} (hc : corpusDirFromTarget y.ctx a.exe.name (targetName a.decl) = .ok D)
    (hn : Named a.exe.name (targetName a.decl)) (hr : RunsTest y a) (hm : MarkerFree a.decl)
    {s : RSt} (hw : WellFormed s.world.fs) (hcr : Creatable s.world.fs D) (hD : s.world.fs D = none) :
    ∃ ok bs n w', recordAll D bs Plan.clean ⟨s.world.fs, n⟩ = (.ok (), w') ∧
      (autoGenerateCorpora y [] [(a.exe, targetName a.decl)] s).2.world.fs = w'.fs ∧ D ≠ [] ∧
      ((OffersTarget y a bs ∧ ok = true) ∨ ((∀ bs, ¬ OffersTarget y a bs) ∧ (bs = [] ∨ ok = false) ∧
        (On y.ctx.env c%"TEST_FUZZ" → bs = [] ∧ ok = true))) ∧
      (¬ On y.ctx.env c%"TEST_FUZZ" → Instantiable a.impl a.opts a.fn → a.opts.noAutoGenerate = false →
        ∀ b, a.target.autos.head? = some (.ok b) → bs ≠ []) ∧
      (autoGenerateCorpora y [] [(a.exe, targetName a.decl)] s).1 =
        (if ok = false then .err (c%"\n" ++ c%"Command failed:") else if w'.fs D = none then .err (c%"\n" ++
          (c%"Could not find or auto-generate `" ++ pathStr D ++ c%"`. Please ensure `" ++ targetName a.decl ++ c%"` is tested."))
        else .ok ()) := by
  obtain ⟨steps, lines, h1, h2, h3, -, h5, h7, h6⟩ := C21_generation y hy [] [(a.exe, targetName a.decl)]
    (by
      intro e t het
      cases List.mem_singleton.mp het
      exact ⟨_, hc⟩) s
  obtain ⟨x, rfl⟩ : ∃ x, steps = [x] := List.length_eq_one_iff.mp (by simpa using congrArg List.length h1)
  simp only [List.map_cons, List.map_nil, List.cons.injEq, Prod.mk.injEq, and_true] at h1
  have hfx := h2 x (by simp)
  have hcx : x.corpus = D := by
    have := hfx.corpus_eq
    rw [h1.1, h1.2, hc] at this
    exact (Out.ok.inj this).symm
  obtain ⟨hb, hl⟩ := h3
  have hx0 : x.before x.corpus = none := by rw [hcx, hb]; exact hD
  obtain ⟨cmd, r, acts, hran, hp, hargs, henvs, -, hrun⟩ := hfx.run hx0
  have hne : D ≠ [] := by
    intro h
    have h1 := dirOf_eq y.ctx root a.exe.name (targetName a.decl) .corpus hid hn.1 hn.2.1 hroot
    rw [show dirOf y.ctx a.exe.name (targetName a.decl) .corpus = .ok [] from h ▸ hc] at h1
    simp at h1
  have hno : ∀ q, D <+: q → x.before q = none := by
    intro q hq
    by_contra hq'
    rw [hb] at hq'
    exact (WellFormed.rooted hw hne) q hq hq' hD
  obtain ⟨ok, bs, n, w', g1, g2, g3, g4⟩ := generation_step hin hr hm hc acts
    (by rw [hp, h1.1]) (by rw [hargs, h1.2]) (by rw [henvs]; rfl) (hb ▸ hcr)
    (fun name => by rw [hno _ (List.prefix_append _ _)]; simp)
  rw [hrun] at g1
  obtain ⟨rfl, hafter⟩ := Prod.mk.inj g1
  refine ⟨ok, bs, n, w', hb ▸ g2, ?_, hne, g3, g4, ?_⟩
  · rw [← hafter]; exact hl.symm
  by_cases hfail : x.Fails
  · rw [h6 ⟨x, by simp, hfail⟩]
    rw [List.filter_cons_of_pos (by simpa using hfail)] at h5
    obtain ⟨line, _, hline, hnil, rfl⟩ := List.forall₂_cons_left_iff.mp h5
    cases hnil
    obtain ⟨cmd', r', hran', hcase⟩ := hline
    rw [hran] at hran'
    cases hran'
    simp only [joinWith]
    rcases hcase with ⟨h, -⟩ | ⟨h, rfl⟩ | ⟨h, h', rfl⟩
    · cases h
    · cases h
      rfl
    · cases h
      rw [hafter, hcx] at h'
      rw [if_neg (by simp), if_pos h', hcx, h1.2]
  · rw [h7.mpr (by simpa using hfail)]
    have hok : ok = true := by
      cases ok with
      | true => rfl
      | false => exact absurd ⟨cmd, _, hran, .inl (by simp)⟩ hfail
    have hthere : w'.fs D ≠ none := fun h => hfail ⟨cmd, _, hran, .inr (by rw [hafter, hcx]; exact h)⟩
    rw [if_neg (by simp [hok]), if_neg hthere]

/-- **C101 (a switch left on).** With `TEST_FUZZ` set in the user's environment nothing is generated: a target without
corpus is then reported as not being tested, and nothing is fuzzed. -/
theorem C101_switched_on (a : Picked) (D : Path) (hc : corpusDirFromTarget y.ctx a.exe.name (targetName a.decl) = .ok D)
    (hn : Named a.exe.name (targetName a.decl)) (hr : RunsTest y a) (hm : MarkerFree a.decl)
    (s : RSt) (hw : WellFormed s.world.fs) (hcr : Creatable s.world.fs D) (hD : s.world.fs D = none)
    (hon : On y.ctx.env c%"TEST_FUZZ") (o : Opts) (ho : o.coverage = none) :
    (fuzz o y [] [(a.exe, targetName a.decl)] s).1 = .err (c%"\n" ++ (c%"Could not find or auto-generate `" ++ pathStr D ++
      c%"`. Please ensure `" ++ targetName a.decl ++ c%"` is tested.")) ∧
    (fuzz o y [] [(a.exe, targetName a.decl)] s).2.world.fs = s.world.fs := by
  obtain ⟨ok, bs, n, w', g1, g2, -, g3, -, g5⟩ := generation_one hy hin hroot hid hc hn hr hm hw hcr hD
  rcases g3 with ⟨h, -⟩ | ⟨-, hcase, h⟩
  · exact absurd hon h.1
  obtain ⟨rfl, rfl⟩ := h hon
  cases g1
  rw [if_neg (by simp), if_pos hD] at g5
  rw [C21_stops o ho y [] _ s (by rw [g5]; simp), g5]
  exact ⟨rfl, g2⟩

/-- **C101 (a failed generation is not repeated).** If a value other than the first one cannot be serialised, `cargo test-fuzz`
fails, but leaves a corpus: when it is run again, it does not try to generate inputs, and goes on with what is there. -/
theorem C101_again (a : Picked) (D : Path) (hc : corpusDirFromTarget y.ctx a.exe.name (targetName a.decl) = .ok D)
    (hn : Named a.exe.name (targetName a.decl)) (hr : RunsTest y a) (hm : MarkerFree a.decl)
    (s : RSt) (hw : WellFormed s.world.fs) (hcr : Creatable s.world.fs D) (hD : s.world.fs D = none)
    (hoff : ¬ On y.ctx.env c%"TEST_FUZZ") (hi : Instantiable a.impl a.opts a.fn) (hg : a.opts.noAutoGenerate = false)
    (b : Bytes) (hb : a.target.autos.head? = some (.ok b)) (x : Out Bytes) (hx : x ∈ a.target.autos) (hbad : ∀ b, x ≠ .ok b) :
    (autoGenerateCorpora y [] [(a.exe, targetName a.decl)] s).1 = .err (c%"\n" ++ c%"Command failed:") ∧
    ∀ s2 : RSt, s2.world.fs = (autoGenerateCorpora y [] [(a.exe, targetName a.decl)] s).2.world.fs →
      ∃ l, autoGenerateCorpora y [] [(a.exe, targetName a.decl)] s2 = (.ok (), l) ∧ l.world.fs = s2.world.fs ∧
        l.acts.filterMap commandOf = s2.acts.filterMap commandOf := by
  obtain ⟨ok, bs, n, w', g1, g2, hne, g3, g4, g5⟩ := generation_one hy hin hroot hid hc hn hr hm hw hcr hD
  have hno : ∀ bs, ¬ OffersTarget y a bs := by
    intro bs h
    obtain ⟨b, -, h'⟩ := List.mem_map.mp (h.2.2.2.2 ▸ hx)
    exact hbad b h'.symm
  have hbs := g4 hoff hi hg b hb
  have hok : ok = false := by
    rcases g3 with ⟨h, -⟩ | ⟨-, h | h, -⟩
    · exact absurd h (hno bs)
    · exact absurd h hbs
    · exact h
  rw [if_pos hok] at g5
  refine ⟨g5, fun s2 hs2 => ?_⟩
  rw [g2] at hs2
  have hw' : WellFormed w'.fs := by
    have := C04_tree D bs Plan.clean ⟨s.world.fs, n⟩ hw
    rw [g1] at this
    exact this
  have hthere : w'.fs D ≠ none := by
    obtain ⟨c, cs, rfl⟩ := List.exists_cons_of_ne_nil hbs
    have hgd := storedAll_gained (recordAll_stored g1)
    have hf : w'.fs (D ++ [fileName c]) ≠ none := by
      rcases hgd (D ++ [fileName c]) (List.prefix_append _ _) (by simp) with ⟨b', n', -, -, -, h⟩ | ⟨h, -⟩
      · rw [h]; simp
      · exact absurd (by rw [fileName]; exact hexDecode_hexEncode _) (h c (fileName c) (by simp) rfl)
    rcases hw' _ _ hf with h | h
    · exact absurd h hne
    · rw [h]; simp
  obtain ⟨steps, lines, h1, h2, h3, ⟨l, h4, h4'⟩, -, h7, -⟩ := C21_generation y hy [] [(a.exe, targetName a.decl)]
    (by
      intro e t het
      cases List.mem_singleton.mp het
      exact ⟨_, hc⟩) s2
  obtain ⟨z, rfl⟩ : ∃ x, steps = [x] := List.length_eq_one_iff.mp (by simpa using congrArg List.length h1)
  simp only [List.map_cons, List.map_nil, List.cons.injEq, Prod.mk.injEq, and_true] at h1
  have hfx := h2 z (by simp)
  have hcx : z.corpus = D := by
    have := hfx.corpus_eq
    rw [h1.1, h1.2, hc] at this
    exact (Out.ok.inj this).symm
  obtain ⟨hz, hl⟩ := h3
  obtain ⟨i1, i2⟩ := hfx.idle (by rw [hcx, hz, hs2]; exact hthere)
  refine ⟨(autoGenerateCorpora y [] [(a.exe, targetName a.decl)] s2).2, ?_, ?_, ?_⟩
  · refine Prod.ext (h7.mpr ?_) rfl
    intro z' hz'
    cases List.mem_singleton.mp hz'
    rintro ⟨_, _, h, -⟩
    rw [i1] at h
    cases h
  · have : z.after = _ := hl
    rw [← this, i2, hz]
  · rw [h4, List.filterMap_append, h4']
    simp [i1]

/-- **C101 (what is fuzzed).** A single target without corpus that inputs can be generated for: when its fuzzer is started –
unless this fails – it reads a directory with exactly the generated inputs. -/
theorem C101_fuzzed (a : Picked) (D : Path) (hc : corpusDirFromTarget y.ctx a.exe.name (targetName a.decl) = .ok D)
    (hn : Named a.exe.name (targetName a.decl)) (hr : RunsTest y a) (hm : MarkerFree a.decl)
    (s : RSt) (hw : WellFormed s.world.fs) (hcr : Creatable s.world.fs D) (hD : s.world.fs D = none)
    (bs : List Bytes) (hoffers : OffersTarget y a bs) (hinj : ∀ d ∈ bs, ∀ b ∈ bs, Sha1.digest d = Sha1.digest b → d = b)
    (o : Opts) (hx : o.exitCode = false) (hcov : o.coverage = none) (hres : o.resume = false) :
    ∃ s1, autoGenerateCorpora y [] [(a.exe, targetName a.decl)] s = (.ok (), s1) ∧ Exactly D bs s1.world.fs ∧
      ((∃ cmd, (fuzz o y [] [(a.exe, targetName a.decl)] s).2.acts = s1.acts ++ [.command cmd] ∧
          inputOption cmd.args = some (pathStr D)) ∨
        (fuzz o y [] [(a.exe, targetName a.decl)] s).2.acts = s1.acts ∧ (fuzz o y [] [(a.exe, targetName a.decl)] s).1 ≠ .ok ()) := by
  obtain ⟨e1, e2, -, -⟩ := C101_exactly hy hin hroot hid [a] (fun _ => D) (by simpa using hc) (by simpa using hn) (by simpa using hr)
    (by simpa using hm) (List.pairwise_singleton _ _) s hw (by simpa using hcr)
  have hok := e1.mpr (by simpa using Or.inr ⟨bs, hoffers⟩)
  have hs1 : autoGenerateCorpora y [] [(a.exe, targetName a.decl)] s =
      (.ok (), (autoGenerateCorpora y [] [(a.exe, targetName a.decl)] s).2) := Prod.ext hok rfl
  refine ⟨_, hs1, e2 a (by simp) hD bs hoffers hinj, ?_⟩
  rcases C39_single o y [] a.exe (targetName a.decl) s hx hcov _ hs1 with ⟨cmd, D', h1, h2, h3⟩ | h
  · rw [hc] at h1
    cases h1
    exact .inl ⟨cmd, h2, by rw [h3, hres]; rfl⟩
  · exact .inr h

end

/-! ## Cases -/

namespace AutoDemo

/-- `fn a(v: u8)` -/
def fn1 : FnIn := ⟨[], [], c%"a", [], [.typed [] ⟨[c%"v"], true⟩ (.name c%"u8")], none, []⟩

/-- The function in crate `p`, with these results of serialising the generated values. -/
def picked (autos : List (Out Bytes)) : Picked :=
  { exe := Demo.exe, decl := ⟨c%"p", [], c%"a", []⟩, impl := none, opts := {}, fn := fn1, V := UInt8
    target := { macro_ := macroIn none {} fn1, typeName := argsTypeName ⟨c%"p", [], c%"a", []⟩, implTypes := fun _ => [],
                types := fun _ => [], ser := fun v => .ok [v], de := fun b => b.head?, autos := autos } }

/-- Running a program runs the generating test. -/
def sys (env : Env) (autos : List (Out Bytes)) : Sys :=
  { Demo.sys with
    ctx := { Demo.sys.ctx with env := env }
    command := fun _ cmd fs =>
      let r := runAutoGenerate (R := Unit)
        { ctx := { Demo.sys.ctx with env := cmd.childEnv env }, plan := Plan.clean, test := true, stdin := [] }
        (picked autos).target ⟨⟨fs, 0⟩, .other 0, false, []⟩
      (some (passes r.1), r.2.world.fs) }

/-- There is nothing on the disk. -/
def start : RSt := ⟨⟨fun _ => none, 0⟩, []⟩

theorem runs (env : Env) (autos : List (Out Bytes)) : RunsTest (sys env autos) (picked autos) :=
  ⟨rfl, rfl, rfl, fun _ _ _ _ _ => ⟨_, _, rfl, rfl, rfl, rfl, rfl, rfl⟩⟩

theorem free (autos) : MarkerFree (picked autos).decl := by
  change MarkerFree ⟨c%"p", [], c%"a", []⟩
  unfold MarkerFree
  rw [← contains_iff]
  decide +kernel

theorem named (autos) : Named (picked autos).exe.name (targetName (picked autos).decl) := by
  change Named c%"p" c%"a"
  exact ⟨by unfold NoSlash; decide, by unfold NoSlash; decide, by decide⟩

theorem wellFormed : WellFormed start.world.fs := fun _ _ h => absurd rfl h

theorem instantiable : Instantiable none {} fn1 :=
  ⟨rfl, (by rintro ⟨_, h⟩; cases h), (by rintro ⟨_, h⟩; cases h)⟩

/-- Three values, two of them the same: the fuzzer is given a directory with two inputs. -/
example : ∃ s1 : RSt, Exactly [c%"t", c%"corpus", c%"p::a"] [[1], [2], [1]] s1.world.fs ∧
    ((∃ cmd, (fuzz {} (sys (fun _ => none) [.ok [1], .ok [2], .ok [1]]) [] [(Demo.exe, c%"a")] start).2.acts =
        s1.acts ++ [.command cmd] ∧ inputOption cmd.args = some c%"/t/corpus/p::a") ∨
      (fuzz {} (sys (fun _ => none) [.ok [1], .ok [2], .ok [1]]) [] [(Demo.exe, c%"a")] start).2.acts = s1.acts ∧
        (fuzz {} (sys (fun _ => none) [.ok [1], .ok [2], .ok [1]]) [] [(Demo.exe, c%"a")] start).1 ≠ .ok ()) := by
  obtain ⟨s1, -, h⟩ := C101_fuzzed (y := sys (fun _ => none) [.ok [1], .ok [2], .ok [1]]) (fun _ => rfl) rfl
    (root := [c%"t"]) rfl (fun _ h => by cases h) (picked [.ok [1], .ok [2], .ok [1]]) [c%"t", c%"corpus", c%"p::a"] rfl (named _) (runs _ _)
    (free _) start wellFormed (fun _ _ _ h => by cases h) rfl [[1], [2], [1]]
    ⟨(by rintro ⟨_, h, -⟩; cases h), instantiable, rfl, (by simp), rfl⟩ (by decide +kernel) {} rfl rfl rfl
  exact ⟨s1, h⟩

/-- The same with `TEST_FUZZ=1`. -/
example : (fuzz {} (sys (fun v => if v = c%"TEST_FUZZ" then some (.utf8 c%"1") else none) [.ok [1]]) [] [(Demo.exe, c%"a")] start).1 =
    .err c%"\nCould not find or auto-generate `/t/corpus/p::a`. Please ensure `a` is tested." :=
  (C101_switched_on (y := sys (fun v => if v = c%"TEST_FUZZ" then some (.utf8 c%"1") else none) [.ok [1]]) (fun _ => rfl) rfl
    (root := [c%"t"]) rfl (fun _ h => by cases h) (picked [.ok [1]]) [c%"t", c%"corpus", c%"p::a"] rfl (named _) (runs _ _)
    (free _) start wellFormed (fun _ _ _ h => by cases h) rfl ⟨c%"1", rfl, by decide⟩ {} rfl).1

/-- The second value cannot be serialised: the first run fails, the second one does not. -/
example : (autoGenerateCorpora (sys (fun _ => none) [.ok [1], .err c%"x"]) [] [(Demo.exe, c%"a")] start).1 =
      .err c%"\nCommand failed:" ∧
    (autoGenerateCorpora (sys (fun _ => none) [.ok [1], .err c%"x"]) [] [(Demo.exe, c%"a")]
      (autoGenerateCorpora (sys (fun _ => none) [.ok [1], .err c%"x"]) [] [(Demo.exe, c%"a")] start).2).1 = .ok () := by
  obtain ⟨h1, h2⟩ := C101_again (y := sys (fun _ => none) [.ok [1], .err c%"x"]) (fun _ => rfl) rfl
    (root := [c%"t"]) rfl (fun _ h => by cases h) (picked [.ok [1], .err c%"x"]) [c%"t", c%"corpus", c%"p::a"] rfl (named _) (runs _ _)
    (free _) start wellFormed (fun _ _ _ h => by cases h) rfl (by rintro ⟨_, h, -⟩; cases h) instantiable rfl [1] rfl (.err c%"x")
    (by simp [picked]) (by simp)
  obtain ⟨l, h3, -⟩ := h2 _ rfl
  exact ⟨h1, congrArg Prod.fst h3⟩

end AutoDemo

end TF
