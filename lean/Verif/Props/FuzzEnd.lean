import Verif.Props.FuzzIO
import Verif.Props.SuccessLoop

/-!
# C108: fuzzing several targets, from the command line to the fuzzers
-/

namespace TF

open Spec

section

variable {fz : FS → FS → Prop} {o : Opts} {y : Sys} {llvm : List (Str × Str)} {k : FCfg} {ets : List (Exe × Str)} {w₀ : World}

/-- Whether a directory can be made is not changed by making directories. -/
theorem Spec.Creatable.dirExt {F G : FS} {d out : Path} (h : Creatable F out) (he : DirExt d F G) : Creatable G out := by
  intro q b hq hG
  rcases he q with he | ⟨-, he, -⟩
  · rw [he] at hG; exact h q b hq hG
  · rw [he] at hG; cases hG

/-- The output directories, start by start. -/
theorem Spec.LoopReach.outputs (hy : Reliable y) {s w l} (h : LoopReach fz o y llvm k ets w₀ s w l)
    (hcr : ∀ x ∈ ets, ∀ out, outputDirFromTarget y.ctx x.1.name x.2 = .ok out → Creatable w₀.fs out)
    (hfz : ∀ F G, fz F G → ∀ x ∈ ets, ∀ out, outputDirFromTarget y.ctx x.1.name x.2 = .ok out →
      Creatable F out → Creatable G out) :
    List.Forall₂ (fun (a : Nat × Bool) (c : Cmd × FS) => ∀ x, ets[a.1]? = some x →
      ∀ out, outputDirFromTarget y.ctx x.1.name x.2 = .ok out → c.2.isDir out = true) (s.log.filterMap startOf) l := by
  have keeps := fun {s w l} (h : LoopReach fz o y llvm k ets w₀ s w l) => h.keeps
    (P := fun F => ∀ x ∈ ets, ∀ out, outputDirFromTarget y.ctx x.1.name x.2 = .ok out → Creatable F out) hcr
    (fun F G hf h x hx out ho => hfz F G hf x hx out ho (h x hx out ho))
    (fun F G h x hx out ho he x' hx' out' ho' => (h x' hx' out' ho').dirExt he)
  induction h with
  | init => exact .nil
  | fuzzers _ _ ih => exact ih
  | quiet _ h ih =>
    obtain ⟨h1, ⟨h2, -, -⟩ | ⟨_, _, _, _, -, -, hc, -⟩⟩ := iterateIO_ok h
    · rw [starting_log h1, h2]; simpa using ih
    · cases hc
  | @started _ w1 _ _ _ _ _ hr h ih =>
    obtain ⟨h1, ⟨-, hc, -⟩ | ⟨t, first, x, cmd, h2, hx, hc, hf⟩⟩ := iterateIO_ok h
    · cases hc
    · cases hc
      rw [starting_log h1, h2]
      refine List.rel_append ih (.cons (fun x' hx' out ho => ?_) .nil)
      rw [hx] at hx'
      cases hx'
      have := fuzzCommandIO_state (checks := y.checks) (o := o) (llvm := llvm) (cfg := ⟨!o.noUi, k.sufficient, first⟩) y.plan w1 ho
      rw [hf] at this
      simp only at this
      rw [this]
      exact (createDirAll_there (hy _) ((keeps hr).1 x (List.mem_of_getElem? hx) out ho)).2

theorem started_startOf (l : List LogEv) : l.filterMap started = (l.filterMap startOf).map Prod.fst := by
  rw [List.map_filterMap]
  congr 1
  funext e
  cases e <;> rfl

/-- When the loop has ended, the starts were those of the targets, in order, each of them the first. -/
theorem startOf_done {s s' : FState} (h : Reach k s) {inp : Inp} (hd : iterate k inp s = .ok (.done s')) :
    s.log.filterMap startOf = (List.range k.targets.length).map (·, true) := by
  obtain ⟨-, -, h3, h4⟩ := C36_done k s s' h inp hd
  rw [started_startOf] at h3
  have hall : ∀ a ∈ s.log.filterMap startOf, a.2 = true := by
    rintro ⟨t, f⟩ ha
    have hlt : t < k.targets.length := by
      have : t ∈ (s.log.filterMap startOf).map Prod.fst := List.mem_map.mpr ⟨_, ha, rfl⟩
      rw [h3] at this
      exact List.mem_range.mp this
    obtain ⟨A, B, hAB⟩ := List.append_of_mem ha
    obtain ⟨pre, sl, post, hlog, -⟩ := filterMap_startOf_split hAB
    have hg := h.inv.good.at pre _ post hlog
    rw [hg.2.2.2.2.1]
    have := (h4 t hlt).1
    rw [hlog] at this
    simp only [starts, List.countP_append, List.countP_cons, isStart, decide_true, if_true] at this
    show List.countP _ _ = 0
    simp at this
    omega
  rw [← h3, List.map_map]
  conv_lhs => rw [← List.map_id (s.log.filterMap startOf)]
  refine List.map_congr_left fun a ha => ?_
  have := hall a ha
  obtain ⟨t, f⟩ := a
  simp only at this
  subst this
  rfl

/-- When the loop ends, no fuzzer is started. -/
theorem starting_done {inp : Inp} {s s' : FState} {a : Nat × Bool} (h : iterate k inp s = .ok (.done s')) :
    starting k inp s ≠ some a := by
  obtain ⟨h1, h2, -⟩ := iterate_done h
  unfold iterate at h
  unfold starting
  rw [h1] at h ⊢
  rw [Out.ok_bind, if_neg h2] at h
  cases hw : wantsTask k s' with
  | true =>
    rw [hw, if_pos rfl] at h
    cases hsc : schedule k inp.spawnOk s' with
    | ok s2 => rw [hsc, Out.ok_bind] at h; cases h
    | _ => rw [hsc] at h; cases h
  | false => simp [hw]

/-- What the loop was for: one fuzzer for each target, in order. -/
theorem Spec.LoopEnds.fuzzers {F G : FS} {l} (hk : k.targets.length = ets.length) (h : LoopEnds fz o y llvm k ets F G l) :
    List.Forall₂ (fun x (d : Cmd × FS) => fuzzCommand y.checks o y.ctx llvm ⟨!o.noUi, k.sufficient, true⟩ x.1 x.2 = .ok d.1) ets l := by
  obtain ⟨t, t', s, s', w, inp, h1, h2⟩ := h
  have hc := h1.commands
  rw [startOf_done h1.reach (iterateIO_ok h2).1, hk] at hc
  rw [List.forall₂_iff_get] at hc ⊢
  obtain ⟨e, hc⟩ := hc
  simp only [List.length_map, List.length_range] at e
  refine ⟨e, fun i hi hi' => ?_⟩
  obtain ⟨x, hx, hf⟩ := hc i (by simpa using hi) hi'
  simp only [List.get_eq_getElem, List.getElem_map, List.getElem_range] at hx hf ⊢
  rw [List.getElem?_eq_getElem hi] at hx
  cases hx
  exact hf

theorem Spec.LoopEnds.outputs {F G : FS} {l} (hy : Reliable y) (hk : k.targets.length = ets.length)
    (h : LoopEnds fz o y llvm k ets F G l)
    (hcr : ∀ x ∈ ets, ∀ out, outputDirFromTarget y.ctx x.1.name x.2 = .ok out → Creatable F out)
    (hfz : ∀ F G, fz F G → ∀ x ∈ ets, ∀ out, outputDirFromTarget y.ctx x.1.name x.2 = .ok out →
      Creatable F out → Creatable G out) :
    List.Forall₂ (fun x (d : Cmd × FS) => ∀ out, outputDirFromTarget y.ctx x.1.name x.2 = .ok out → d.2.isDir out = true) ets l := by
  obtain ⟨t, t', s, s', w, inp, h1, h2⟩ := h
  have hc := h1.outputs hy hcr hfz
  rw [startOf_done h1.reach (iterateIO_ok h2).1, hk] at hc
  rw [List.forall₂_iff_get] at hc ⊢
  obtain ⟨e, hc⟩ := hc
  simp only [List.length_map, List.length_range] at e
  refine ⟨e, fun i hi hi' => ?_⟩
  refine hc i (by simpa using hi) hi' _ ?_
  simp only [List.get_eq_getElem, List.getElem_map, List.getElem_range]
  exact List.getElem?_eq_getElem hi

theorem Spec.LoopEnds.corpora {F G : FS} {l} (hfz : ∀ F G, fz F G → ∀ p, F p ≠ none → G p ≠ none)
    (h : LoopEnds fz o y llvm k ets F G l) (p : Path) (hp : F p ≠ none) : ∀ d ∈ l, d.2 p ≠ none := by
  obtain ⟨t, t', s, s', w, inp, h1, -⟩ := h
  refine (h1.keeps (P := fun F => F p ≠ none) hp (fun F G hf h => hfz F G hf _ h) ?_).2
  intro F G h x hx out ho he
  rcases he p with he | ⟨he, -, -⟩
  · rw [he]; exact h
  · exact absurd he h

end

/-- Generation removes nothing. -/
theorem autoGenerate_adds (y : Sys) (hy : Reliable y) (ha : OnlyAdds y) (llvm) (ets : List (Exe × Str))
    (hc : ∀ e t, (e, t) ∈ ets → ∃ d, corpusDirFromTarget y.ctx e.name t = .ok d) (s : RSt) (p : Path)
    (hp : s.world.fs p ≠ none) : (autoGenerateCorpora y llvm ets s).2.world.fs p ≠ none := by
  obtain ⟨steps, lines, h1, h2, h3, -⟩ := C21_generation y hy llvm ets hc s
  exact h3.mono ha h2 hp

/-- A run that fuzzes with the loop and succeeds: missing corpora were generated, and then the loop ran. -/
theorem run_loop {o : Opts} (ho : Wants o .fuzzing) {y : Sys} {s : RSt} {exes ets}
    (hexes : buildResult y.metadata (y.build s.world.fs).1 = .ok exes) (hets : executableTargets y.listing exes = .ok ets)
    (hmany : o.exitCode = true ∨ (pairs (selectTargets o ets)).length ≠ 1) (hok : (run o y s).1 = .ok ()) :
    ∃ s2 s3, s2.world.fs = (y.build s.world.fs).2 ∧
      autoGenerateCorpora y [] (pairs (selectTargets o ets)) s2 = (.ok (), s3) ∧
      (run o y s).2.world.fs = y.fuzzed (loopConfig o y ((pairs (selectTargets o ets)).map Prod.snd)) s3.world.fs := by
  generalize hkd : loopConfig o y ((pairs (selectTargets o ets)).map Prod.snd) = k
  have ex : (effectiveOpts o).exitCode = o.exitCode := by unfold effectiveOpts; split <;> rfl
  have eu : (effectiveOpts o).noUi = (o.noUi || o.exitCode) := by
    unfold effectiveOpts; split <;> rename_i h <;> simp [h]
  have ecv : (effectiveOpts o).coverage = o.coverage := by unfold effectiveOpts; split <;> rfl
  obtain ⟨exes', ets', llvm, s1, l, g1, g2, hl, ha, hw, hllvm, h⟩ := run_prepared hok
  rw [hexes] at g1; cases g1
  rw [hets] at g2; cases g2
  rw [dispatch_eq (wants_effective.mpr ho)] at h
  simp only at h
  rw [← ex] at hmany
  have ec : cpusToUse (effectiveOpts o) y.numCpus = k.nCpus := by
    rw [← hkd]
    unfold cpusToUse effectiveOpts
    show _ = min (match o.cpus with | some n => n | none => y.numCpus - 1) y.numCpus
    split <;> cases o.cpus <;> rfl
  have ek : k = ⟨(pairs (selectTargets o ets)).map Prod.snd, cpusToUse (effectiveOpts o) y.numCpus, (effectiveOpts o).noUi,
      (effectiveOpts o).exitCode, y.vis⟩ := by rw [ec, ex, eu, ← hkd]; rfl
  clear hkd
  rw [← ecv] at hllvm
  generalize effectiveOpts o = o' at *
  generalize (run o y s).2 = sf at *
  obtain ⟨flat, s2, h1, h⟩ := Rm.bind_eq_ok h
  simp only [Rm.lift_run, Prod.mk.injEq] at h1
  obtain ⟨hf, rfl⟩ := h1
  obtain ⟨rfl, -⟩ := flatten_eq hf
  generalize pairs (selectTargets o ets) = ps at *
  unfold fuzz at h
  obtain ⟨_, s2, ha, hb⟩ := Rm.bind_eq_ok h
  clear h
  simp only [Rm.lift_run, Prod.mk.injEq] at ha
  obtain ⟨ha, rfl⟩ := ha
  have hcov : o'.coverage = none := by
    unfold assert at ha
    split at ha
    · next hn => simpa using hn
    · cases ha
  cases hllvm hcov
  obtain ⟨_, s3, h2, h⟩ := Rm.bind_eq_ok hb
  have h : fuzzMany o' y ps s3 = (.ok (), sf) := by
    rcases hx : o'.exitCode with _ | _
    · rw [hx] at h hmany
      rcases ps with _ | ⟨a, _ | ⟨b, ps⟩⟩
      · exact h
      · simp at hmany
      · exact h
    · rw [hx] at h
      exact h
  unfold fuzzMany at h
  obtain ⟨k', s4, h3, h⟩ := Rm.bind_eq_ok h
  simp only [Rm.lift_run, Prod.mk.injEq] at h3
  obtain ⟨hk, rfl⟩ := h3
  have hk' := fuzzSetup_ok hk
  rw [← ek] at hk'
  subst k'
  rw [Rm.bind_ok (Rm.act_run _ _)] at h
  simp only [Rm.loop, Prod.mk.injEq] at h
  obtain ⟨hloop, rfl⟩ := h
  exact ⟨_, s3, by rw [hw], h2, rfl⟩

/-- **C108.** If fuzzing several targets (or one, with `--exit-code`) succeeds, then exactly one fuzzer was started for each
selected target, in order. Each was told to run its target, to read the target's corpus – unless `--resume` was given –, which was
there, and to write to the target's output directory, which was there if no file was in the way. The files afterwards are those
that the loop left. The loop is only assumed to be the loop of the code: to end, when it ends without error, as `LoopEnds` says.
Generation runs and fuzzers are assumed not to remove anything. -/
theorem C108_end_to_end (fz : FS → FS → Prop) (o : Opts) (ho : Wants o .fuzzing) (y : Sys) (hy : Reliable y) (ha : OnlyAdds y)
    (s : RSt) (exes ets) (hexes : buildResult y.metadata (y.build s.world.fs).1 = .ok exes)
    (hets : executableTargets y.listing exes = .ok ets)
    (hmany : o.exitCode = true ∨ (pairs (selectTargets o ets)).length ≠ 1)
    (hadds : ∀ F G, fz F G → ∀ p, F p ≠ none → G p ≠ none)
    (hfz : ∀ F G, fz F G → ∀ x ∈ pairs (selectTargets o ets), ∀ out, outputDirFromTarget y.ctx x.1.name x.2 = .ok out →
      Creatable F out → Creatable G out)
    (hloop : let k := loopConfig o y ((pairs (selectTargets o ets)).map Prod.snd)
      y.loop k = .ok () → ∀ F, ∃ l, LoopEnds fz (effectiveOpts o) y [] k (pairs (selectTargets o ets)) F (y.fuzzed k F) l)
    (hok : (run o y s).1 = .ok ()) :
    ∃ F l, LoopEnds fz (effectiveOpts o) y [] (loopConfig o y ((pairs (selectTargets o ets)).map Prod.snd))
        (pairs (selectTargets o ets)) F (run o y s).2.world.fs l ∧
      (∀ p, (y.build s.world.fs).2 p ≠ none → F p ≠ none) ∧
      List.Forall₂ (fun x (d : Cmd × FS) => ∃ corpus out rest, corpusDirFromTarget y.ctx x.1.name x.2 = .ok corpus ∧
        outputDirFromTarget y.ctx x.1.name x.2 = .ok out ∧ d.1.program = c%"cargo" ∧ RunsTarget d.1 x ∧
        d.1.args = [c%"afl", c%"fuzz", c%"-c-", c%"-i", if o.resume then c%"-" else pathStr corpus, c%"-o", pathStr out] ++ rest ∧
        F corpus ≠ none ∧ d.2 corpus ≠ none ∧
        ((∀ x ∈ pairs (selectTargets o ets), ∀ out, outputDirFromTarget y.ctx x.1.name x.2 = .ok out → Creatable F out) →
          d.2.isDir out = true)) (pairs (selectTargets o ets)) l := by
  obtain ⟨s2, s3, hb, hgen, hend⟩ := run_loop ho hexes hets hmany hok
  obtain ⟨-, -, hl, -⟩ := C98_loop o ho y s exes ets hexes hets hmany hok
  obtain ⟨l, hl⟩ := hloop hl s3.world.fs
  rw [← hend] at hl
  have hres : (effectiveOpts o).resume = o.resume := by unfold effectiveOpts; split <;> rfl
  generalize pairs (selectTargets o ets) = ps at *
  have hk : (loopConfig o y (ps.map Prod.snd)).targets.length = ps.length := by simp [loopConfig]
  generalize loopConfig o y (ps.map Prod.snd) = k at *
  have hf := hl.fuzzers hk
  have hcd : ∀ e t, (e, t) ∈ ps → ∃ d, corpusDirFromTarget y.ctx e.name t = .ok d := by
    intro e t hm
    obtain ⟨d, -, hd⟩ := forall₂_meets hf _ hm
    obtain ⟨corpus, -, -, h1, -⟩ := fuzzCommand_ok hd
    exact ⟨_, h1⟩
  have hthere : ∀ x ∈ ps, ∀ d, corpusDirFromTarget y.ctx x.1.name x.2 = .ok d → s3.world.fs d ≠ none := by
    intro x hx d hd
    have := C21_all_there y hy ha [] ps s2 (by rw [hgen]) x.1 x.2 d hx hcd hd
    rwa [hgen] at this
  refine ⟨s3.world.fs, l, hl, ?_, ?_⟩
  · intro p hp
    rw [← hb] at hp
    have := autoGenerate_adds y hy ha [] ps hcd s2 p hp
    rwa [hgen] at this
  · have hc := hl.corpora hadds
    rw [List.forall₂_iff_get] at hf ⊢
    obtain ⟨e, hf⟩ := hf
    refine ⟨e, fun i hi hi' => ?_⟩
    have hfi := hf i hi hi'
    obtain ⟨corpus, out, tm, h1, h2, -, h4, -, hargs, -⟩ := fuzzCommand_ok hfi
    have hx : ps.get ⟨i, hi⟩ ∈ ps := List.get_mem _ _
    refine ⟨corpus, out, [c%"-M", c%"default"] ++ timeBoundArgs (effectiveOpts o) ⟨!(effectiveOpts o).noUi, k.sufficient, true⟩ ++
      tm ++ (effectiveOpts o).zzargs ++ [c%"--", (ps.get ⟨i, hi⟩).1.path, c%"--exact", (ps.get ⟨i, hi⟩).2 ++ entrySuffix], h1, h2, h4,
      fuzzCommand_runs hfi, ?_, hthere _ hx _ h1, hc _ (hthere _ hx _ h1) _ (List.get_mem _ _), fun hcr => ?_⟩
    · rw [hargs, hres]
      simp only [Bool.not_true, Bool.or_false, List.append_assoc, List.cons_append, List.nil_append]
    · have ho := hl.outputs hy hk hcr hfz
      rw [List.forall₂_iff_get] at ho
      exact ho.2 i hi hi' out h2

/-! ## A case -/

namespace EndDemo

open SuccessDemo

def sel : List (Exe × Str) := [(Demo.exe, c%"a"), (Demo.exe, c%"b")]

/-- Fuzzers only add files, and these below output directories. -/
def fz : FS → FS → Prop := fun F G => (∀ p, F p ≠ none → G p ≠ none) ∧
  ∀ p, ¬ (LoopDemo.out c%"a" <+: p ∧ p ≠ LoopDemo.out c%"a") → ¬ (LoopDemo.out c%"b" <+: p ∧ p ≠ LoopDemo.out c%"b") → G p = F p

theorem reaches (F : FS) : ∃ G l, LoopEnds fz opts sys [] config sel F G l := by
  generalize hr : (Out.ok () : Out Unit) = r
  have h := SuccessDemo.ends
  rw [hr] at h
  cases h with
  | @done st st' inp hreach hd =>
    have hy : Reliable sys := fun _ => rfl
    have hb : Buildable opts sys [] config sel := by
      intro x hx first
      simp only [sel, List.mem_cons, List.not_mem_nil, or_false] at hx
      rcases hx with rfl | rfl <;> exact ⟨_, rfl⟩
    obtain ⟨w, l, h⟩ := (C107_refines (fz := fz) (w₀ := ⟨F, 0⟩) hy rfl hb st).mpr hreach
    have ho := C107_outcome hy rfl hb inp st w
    rw [hd] at ho
    rcases hi : iterateIO opts sys [] config sel inp st sys.plan w with ⟨r, w'⟩
    rw [hi] at ho
    cases r with
    | ok p =>
      obtain ⟨n, c⟩ := p
      simp only [Out.ok_bind, Out.ok.injEq] at ho
      subst ho
      have hc : c = none := by
        obtain ⟨h1, ⟨-, hc, -⟩ | ⟨t, f, x, cmd, hs, -, -, -⟩⟩ := iterateIO_ok hi
        · exact hc
        · exact absurd hs (starting_done h1)
      subst hc
      exact ⟨w'.fs, l, 0, w'.tick, st, st', w, inp, h, hi⟩
    | _ => cases ho
  | err => cases hr
  | panic => cases hr
  | exit => cases hr

/-- The files that the loop leaves. -/
noncomputable def system : Sys := { sys with fuzzed := fun _ F => (reaches F).choose }

/-- The hypotheses of `C108_end_to_end` hold. -/
example : Wants opts .fuzzing ∧ Reliable system ∧ OnlyAdds system ∧
    buildResult system.metadata (system.build Demo.fs2).1 = .ok [Demo.exe] ∧
    executableTargets system.listing [Demo.exe] = .ok [(Demo.exe, [c%"a", c%"b"])] ∧
    pairs (selectTargets opts [(Demo.exe, [c%"a", c%"b"])]) = sel ∧
    (∀ F, ∃ l, LoopEnds fz (effectiveOpts opts) system [] (loopConfig opts system (sel.map Prod.snd)) sel F
      (system.fuzzed (loopConfig opts system (sel.map Prod.snd)) F) l) ∧
    (run opts system ⟨⟨Demo.fs2, 0⟩, []⟩).1 = .ok () := by
  refine ⟨.fuzzing rfl rfl (by unfold AsksStorage; decide) (by unfold AsksReplay; decide), fun _ => rfl, fun _ _ _ _ h => h,
    by decide +kernel, by decide +kernel, by decide +kernel, fun F => ?_, ?_⟩
  · obtain ⟨l, t, t', s, s', w, inp, h, hi⟩ := (reaches F).choose_spec
    refine ⟨l, t, t', s, s', w, inp, ?_, hi⟩
    clear hi
    induction h with
    | init => exact .init
    | fuzzers _ hf ih => exact .fuzzers ih hf
    | quiet _ he ih => exact .quiet ih he
    | started _ he ih => exact .started ih he
  · have : (run opts sys ⟨⟨Demo.fs2, 0⟩, []⟩).1 = .ok () := by decide +kernel
    rw [← this]
    rfl

/-- So do those about the fuzzers. -/
example : (∀ F G, fz F G → ∀ p, F p ≠ none → G p ≠ none) ∧
    ∀ F G, fz F G → ∀ x ∈ sel, ∀ out, outputDirFromTarget sys.ctx x.1.name x.2 = .ok out → Creatable F out → Creatable G out := by
  refine ⟨fun F G h => h.1, fun F G h x hx out ho hF q b hq => ?_⟩
  have hlen : out.length = 4 := by
    simp only [sel, List.mem_cons, List.not_mem_nil, or_false] at hx
    rcases hx with rfl | rfl <;> (cases ho; rfl)
  have notBelow : ∀ t, ¬ (LoopDemo.out t <+: q ∧ q ≠ LoopDemo.out t) := by
    rintro t ⟨h1, h2⟩
    have e1 : (LoopDemo.out t).length = 4 := rfl
    have := h1.length_le
    have := hq.length_le
    exact h2 (h1.eq_of_length (by omega)).symm
  rw [h.2 q (notBelow _) (notBelow _)]
  exact hF q b hq

end EndDemo

end TF
