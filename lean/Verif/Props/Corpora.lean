import Verif.Spec.Corpora
import Verif.Lemmas.RunPlain
import Verif.Props.RunCases

/-! # Missing corpora: C21 -/

namespace TF

open Spec

theorem pathExists_reliable {y : Sys} (h : Reliable y) (p : Path) (s : RSt) :
    Rm.io y (pathExists p) s = (.ok (s.world.fs.exists p), { s with world := ⟨s.world.fs, s.world.tick + 1⟩ }) := by
  unfold Rm.io pathExists
  rw [h]

theorem autoGenerateCommand_ok (llvm exe target) :
    ∃ cmd, autoGenerateCommand llvm exe target = .ok cmd ∧ cmd.program = exe.path ∧
      cmd.args = [c%"--exact", target ++ c%"_fuzz__::auto_generate"] ∧
      cmd.envs = llvm.map (fun x => (x.1, some x.2)) ∧ cmd.cwd = none :=
  ⟨_, rfl, rfl, rfl, rfl, rfl⟩

theorem autoGenerateCorpus_run (y : Sys) (llvm exe target) (s : RSt) :
    ∃ cmd r fs', cmd.program = exe.path ∧ cmd.args = [c%"--exact", target ++ c%"_fuzz__::auto_generate"] ∧
      cmd.envs = llvm.map (fun x => (x.1, some x.2)) ∧ cmd.cwd = none ∧ y.command s.acts cmd s.world.fs = (r, fs') ∧
      autoGenerateCorpus y llvm exe target s =
        (.ok (match r with | none => some c%"Could not get status of" | some false => some c%"Command failed:" | some true => none),
          ⟨{ s.world with fs := fs' }, s.acts ++ [.command cmd]⟩) := by
  obtain ⟨cmd, h1, h2, h3, h4, h5⟩ := autoGenerateCommand_ok llvm exe target
  refine ⟨cmd, _, _, h2, h3, h4, h5, rfl, ?_⟩
  unfold autoGenerateCorpus
  rw [h1, Rm.lift_ok_bind, Rm.bind_def]
  simp only [Rm.command]
  rcases (y.command s.acts cmd s.world.fs).1 with _ | _ | _ <;> rfl

open Classical in
theorem autoGenerateLoop_steps (y : Sys) (hy : Reliable y) (llvm) (ets : List (Exe × Str))
    (hc : ∀ e t, (e, t) ∈ ets → ∃ d, corpusDirFromTarget y.ctx e.name t = .ok d) (errs : List Str) (s : RSt) :
    ∃ steps lines s', autoGenerateLoop y llvm ets errs s = (.ok (errs ++ lines), s') ∧
      steps.map (fun x => (x.exe, x.target)) = ets ∧ (∀ x ∈ steps, x.Faithful y llvm) ∧
      Linked s.world.fs steps s'.world.fs ∧
      (∃ l, s'.acts = s.acts ++ l ∧ l.filterMap commandOf = steps.filterMap fun x => x.ran.map Prod.fst) ∧
      List.Forall₂ LineFor (steps.filter fun x => decide x.Fails) lines := by
  induction ets generalizing errs s with
  | nil => exact ⟨[], [], s, by simp [autoGenerateLoop], rfl, by simp, rfl, ⟨[], by simp, rfl⟩, .nil⟩
  | cons et ets ih =>
    obtain ⟨e, t⟩ := et
    obtain ⟨d, hd⟩ := hc e t (by simp)
    have hc' : ∀ e t, (e, t) ∈ ets → ∃ d, corpusDirFromTarget y.ctx e.name t = .ok d :=
      fun e t h => hc e t (by simp [h])
    have ih := fun errs s => ih hc' errs s
    unfold autoGenerateLoop
    rw [hd, Rm.lift_ok_bind, Rm.bind_ok (pathExists_reliable hy d s)]
    by_cases hex : s.world.fs.exists d = true
    · -- nothing to do for this target
      simp only [hex, if_true]
      obtain ⟨steps, lines, s', h1, h2, h3, h4, h5, h6⟩ := ih errs { s with world := ⟨s.world.fs, s.world.tick + 1⟩ }
      have hne : s.world.fs d ≠ none := by
        intro h; simp [FS.exists, h] at hex
      refine ⟨⟨e, t, d, s.world.fs, s.world.fs, none⟩ :: steps, lines, s', h1, by simp [h2], ?_, ⟨rfl, h4⟩, ?_, ?_⟩
      · rintro x hx
        rcases List.mem_cons.mp hx with rfl | hx
        · exact ⟨hd, fun _ => ⟨rfl, rfl⟩, fun h => absurd h hne⟩
        · exact h3 x hx
      · obtain ⟨l, h7, h8⟩ := h5
        exact ⟨l, h7, by simpa using h8⟩
      · rw [List.filter_cons_of_neg]
        · exact h6
        · simp [GenStep.Fails]
    · have hnone : s.world.fs d = none := by
        simpa [FS.exists] using hex
      simp only [hex, Bool.false_eq_true, if_false]
      rw [Rm.bind_ok (Rm.act_run _ _)]
      obtain ⟨n1, hn1, hc1⟩ : ∃ n1, n1 = Act.note (c%"Could not find `" ++ pathStr d ++ c%"`. Trying to auto-generate it...") ∧
        commandOf n1 = none := ⟨_, rfl, rfl⟩
      rw [← hn1]
      obtain ⟨cmd, r, fs', g1, g2, g5, g6, g3, g4⟩ := autoGenerateCorpus_run y llvm e t
        { world := ⟨s.world.fs, s.world.tick + 1⟩, acts := s.acts ++ [n1] }
      rw [Rm.bind_ok g4]
      have hfaith : GenStep.Faithful y llvm ⟨e, t, d, s.world.fs, fs', some (cmd, r)⟩ :=
        ⟨hd, fun h => absurd hnone h, fun _ => ⟨cmd, r, _, rfl, g1, g2, g5, g6, g3⟩⟩
      -- the rest, once the line for this target is known
      have rest : ∀ (errs : List Str) (s1 : RSt) (l1 : List Act) (pre : List Str),
          s1.world.fs = fs' → s1.acts = s.acts ++ l1 → l1.filterMap commandOf = [cmd] →
          List.Forall₂ LineFor ([(⟨e, t, d, s.world.fs, fs', some (cmd, r)⟩ : GenStep)].filter fun x => decide x.Fails) pre →
          ∃ steps lines s', autoGenerateLoop y llvm ets (errs ++ pre) s1 = (.ok (errs ++ lines), s') ∧
            steps.map (fun x => (x.exe, x.target)) = (e, t) :: ets ∧ (∀ x ∈ steps, x.Faithful y llvm) ∧
            Linked s.world.fs steps s'.world.fs ∧
            (∃ l, s'.acts = s.acts ++ l ∧ l.filterMap commandOf = steps.filterMap fun x => x.ran.map Prod.fst) ∧
            List.Forall₂ LineFor (steps.filter fun x => decide x.Fails) lines := by
        intro errs s1 l1 pre k1 k2 k3 k4
        obtain ⟨steps, lines, s', h1, h2, h3, h4, ⟨l, h7, h8⟩, h6⟩ := ih (errs ++ pre) s1
        refine ⟨⟨e, t, d, s.world.fs, fs', some (cmd, r)⟩ :: steps, pre ++ lines, s', by rw [h1, List.append_assoc],
          by simp [h2], ?_, ⟨rfl, by rw [← k1]; exact h4⟩, ⟨l1 ++ l, by rw [h7, k2, List.append_assoc], ?_⟩, ?_⟩
        · rintro x hx
          rcases List.mem_cons.mp hx with rfl | hx
          · exact hfaith
          · exact h3 x hx
        · rw [List.filterMap_append, k3, h8]; rfl
        · have : ∀ a : GenStep, a :: steps = [a] ++ steps := fun _ => rfl
          rw [this, List.filter_append]
          exact List.rel_append k4 h6
      cases r with
      | none =>
        dsimp only
        refine rest errs _ [n1, .command cmd] [c%"Could not get status of"] ?_ ?_ (by rw [List.filterMap_cons_none hc1]; rfl) ?_
        · rfl
        · simp
        rw [List.filter_cons_of_pos (by simp [GenStep.Fails])]
        exact .cons ⟨cmd, none, rfl, Or.inl ⟨rfl, rfl⟩⟩ .nil
      | some ok =>
        cases ok with
        | false =>
          dsimp only
          refine rest errs _ [n1, .command cmd] [c%"Command failed:"] ?_ ?_ (by rw [List.filterMap_cons_none hc1]; rfl) ?_
          · rfl
          · simp
          rw [List.filter_cons_of_pos (by simp [GenStep.Fails])]
          exact .cons ⟨cmd, some false, rfl, Or.inr (Or.inl ⟨rfl, rfl⟩)⟩ .nil
        | true =>
          dsimp only
          rw [Rm.bind_ok (pathExists_reliable hy d _)]
          by_cases hex' : FS.exists fs' d = true
          · have hne : fs' d ≠ none := by intro h; simp [FS.exists, h] at hex'
            simp only [hex', Bool.not_true, Bool.false_eq_true, if_false]
            rw [Rm.bind_ok (Rm.act_run _ _)]
            have := rest errs ⟨⟨fs', s.world.tick + 1 + 1⟩, s.acts ++ [n1] ++ [.command cmd] ++ [.note (c%"Auto-generated `" ++ pathStr d ++ c%"`.")]⟩
              [n1, .command cmd, .note (c%"Auto-generated `" ++ pathStr d ++ c%"`.")] [] rfl (by simp) (by rw [List.filterMap_cons_none hc1]; rfl) (by
                rw [List.filter_cons_of_neg (by simp [GenStep.Fails, hne])]; exact .nil)
            simpa using this
          · have hnone' : fs' d = none := by simpa [FS.exists] using hex'
            have hex'' : FS.exists fs' d = false := by simpa using hex'
            simp only [hex'', Bool.not_false, if_true]
            refine rest errs _ [n1, .command cmd] [missingMessage d t] ?_ ?_ (by rw [List.filterMap_cons_none hc1]; rfl) ?_
            · rfl
            · simp
            rw [List.filter_cons_of_pos (by simp [GenStep.Fails, hnone'])]
            exact .cons ⟨cmd, some true, rfl, Or.inr (Or.inr ⟨rfl, hnone', rfl⟩)⟩ .nil

open Classical in
/-- Before fuzzing, the targets are gone through in order. The generation test of a target is run exactly if it has no
corpus then. The result is an error exactly if for some target the generation failed or there is no corpus afterwards,
and then its text has one line for each such target, in order; in particular, later targets are not skipped. -/
theorem C21_generation (y : Sys) (hy : Reliable y) (llvm) (ets : List (Exe × Str))
    (hc : ∀ e t, (e, t) ∈ ets → ∃ d, corpusDirFromTarget y.ctx e.name t = .ok d) (s : RSt) :
    ∃ steps lines, steps.map (fun x => (x.exe, x.target)) = ets ∧ (∀ x ∈ steps, x.Faithful y llvm) ∧
      Linked s.world.fs steps (autoGenerateCorpora y llvm ets s).2.world.fs ∧
      (∃ l, (autoGenerateCorpora y llvm ets s).2.acts = s.acts ++ l ∧
        l.filterMap commandOf = steps.filterMap fun x => x.ran.map Prod.fst) ∧
      List.Forall₂ LineFor (steps.filter fun x => decide x.Fails) lines ∧
      ((autoGenerateCorpora y llvm ets s).1 = .ok () ↔ ∀ x ∈ steps, ¬ x.Fails) ∧
      ((∃ x ∈ steps, x.Fails) → (autoGenerateCorpora y llvm ets s).1 = .err (c%"\n" ++ joinWith c%"\n" lines)) := by
  obtain ⟨steps, lines, s', h1, h2, h3, h4, h5, h6⟩ := autoGenerateLoop_steps y hy llvm ets hc [] s
  have hnil : lines = [] ↔ ∀ x ∈ steps, ¬ x.Fails := by
    have hlen := h6.length_eq
    constructor
    · rintro rfl x hx hf
      have : x ∈ steps.filter fun x => decide x.Fails := List.mem_filter.mpr ⟨hx, by simpa using hf⟩
      rw [List.eq_nil_of_length_eq_zero hlen] at this
      cases this
    · intro h
      have : (steps.filter fun x => decide x.Fails) = [] := by
        rw [List.filter_eq_nil_iff]; simpa using h
      rw [this] at h6
      cases h6; rfl
  have hrun : autoGenerateCorpora y llvm ets s =
      (if lines.isEmpty then .ok () else .err (c%"\n" ++ joinWith c%"\n" lines), s') := by
    unfold autoGenerateCorpora
    rw [Rm.bind_ok h1, List.nil_append]
    split <;> rfl
  rw [hrun]
  refine ⟨steps, lines, h2, h3, h4, h5, h6, ?_, ?_⟩
  · rw [← hnil]
    cases lines <;> simp
  · rintro ⟨x, hx, hf⟩
    have : lines ≠ [] := fun h => hnil.mp h x hx hf
    cases lines with
    | nil => exact absurd rfl this
    | cons a b => rfl

/-- Fuzzing proceeds only if no target failed: otherwise its error is the result and nothing more is done. -/
theorem C21_stops (o : Opts) (ho : o.coverage = none) (y : Sys) (llvm ets) (s : RSt)
    (h : (autoGenerateCorpora y llvm ets s).1 ≠ .ok ()) : fuzz o y llvm ets s = autoGenerateCorpora y llvm ets s := by
  unfold fuzz
  rw [ho]
  change (Rm.lift (.ok ()) >>= _) s = _
  rw [Rm.lift_ok_bind, Rm.bind_def]
  generalize autoGenerateCorpora y llvm ets s = w at h
  obtain ⟨w1, w2⟩ := w
  cases w1 with
  | ok u => exact absurd rfl h
  | _ => rfl

theorem Spec.Linked.mono {y : Sys} (ha : OnlyAdds y) {a b : FS} {steps : List GenStep} (h : Linked a steps b)
    (hf : ∀ x ∈ steps, x.Faithful y llvm) {p : Path} (hp : a p ≠ none) : b p ≠ none := by
  induction steps generalizing a with
  | nil => cases h; exact hp
  | cons x xs ih =>
    obtain ⟨rfl, h⟩ := h
    refine ih h (fun z hz => hf z (List.mem_cons_of_mem _ hz)) ?_
    have hx := hf x (by simp)
    by_cases hb : x.before x.corpus = none
    · obtain ⟨cmd, r, acts, -, -, -, -, -, h4⟩ := hx.run hb
      have := ha acts cmd x.before p hp
      rw [h4] at this; exact this
    · rw [(hx.idle hb).2]; exact hp

/-- If generation runs remove nothing, then after a success every target has a corpus. -/
theorem C21_all_there (y : Sys) (hy : Reliable y) (ha : OnlyAdds y) (llvm) (ets : List (Exe × Str)) (s : RSt)
    (hok : (autoGenerateCorpora y llvm ets s).1 = .ok ()) (e : Exe) (t : Str) (d : Path) (he : (e, t) ∈ ets)
    (hc : ∀ e t, (e, t) ∈ ets → ∃ d, corpusDirFromTarget y.ctx e.name t = .ok d)
    (hd : corpusDirFromTarget y.ctx e.name t = .ok d) :
    (autoGenerateCorpora y llvm ets s).2.world.fs d ≠ none := by
  obtain ⟨steps, lines, h1, h2, h3, -, -, h4, -⟩ := C21_generation y hy llvm ets hc s
  have hno := h4.mp hok
  rw [← h1] at he
  obtain ⟨x, hx, hxe⟩ := List.mem_map.mp he
  simp only [Prod.mk.injEq] at hxe
  obtain ⟨rfl, rfl⟩ := hxe
  have hf := h2 x hx
  have hdx : d = x.corpus := by have := hf.corpus_eq; rw [hd] at this; cases this; rfl
  subst hdx
  clear h4 hok he h1
  generalize (autoGenerateCorpora y llvm ets s).2.world.fs = b at h3 ⊢
  generalize s.world.fs = a at h3
  induction steps generalizing a with
  | nil => cases hx
  | cons z zs ih =>
    obtain ⟨rfl, h3⟩ := h3
    rcases List.mem_cons.mp hx with rfl | hx
    · refine h3.mono ha (fun w hw => h2 w (List.mem_cons_of_mem _ hw)) ?_
      by_cases hb : x.before x.corpus = none
      · obtain ⟨cmd, r, acts, g1, -, -, -⟩ := hf.run hb
        intro hcon
        exact hno x (by simp) ⟨cmd, r, g1, Or.inr hcon⟩
      · rw [(hf.idle hb).2]; exact hb
    · exact ih (fun w hw => h2 w (List.mem_cons_of_mem _ hw)) (fun w hw => hno w (List.mem_cons_of_mem _ hw)) hx _ h3

/-! ## Cases -/

open Demo in
/-- `a` has a corpus and `b` has none; generation "succeeds" without producing one. -/
example : (autoGenerateCorpora sys [] [(exe, c%"b"), (exe, c%"a"), (exe, c%"c")] start).1 =
      .err c%"\nCould not find or auto-generate `/t/corpus/p::b`. Please ensure `b` is tested.\nCould not find or auto-generate `/t/corpus/p::c`. Please ensure `c` is tested." ∧
    ((autoGenerateCorpora sys [] [(exe, c%"b"), (exe, c%"a"), (exe, c%"c")] start).2.acts.filterMap commandOf).map Cmd.args =
      [[c%"--exact", c%"b_fuzz__::auto_generate"], [c%"--exact", c%"c_fuzz__::auto_generate"]] := by decide +kernel

open Demo in
example : Reliable sys ∧ OnlyAdds sys ∧ (autoGenerateCorpora sys [] [(exe, c%"a")] start).1 = .ok () ∧
    ∀ e t, (e, t) ∈ [(exe, c%"a"), (exe, c%"b")] → ∃ d, corpusDirFromTarget sys.ctx e.name t = .ok d :=
  ⟨fun _ => rfl, fun _ _ _ _ h => h, by decide +kernel, fun _ _ _ => ⟨_, rfl⟩⟩

end TF
