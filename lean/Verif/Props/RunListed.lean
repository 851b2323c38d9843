import Verif.Props.Command
import Verif.Props.Build
import Verif.Props.RunCases

/-! # Only listed tests are run: C23 -/

namespace TF

open Spec

/-- All actions performed have property `P`. -/
def Does {α} (P : Act → Prop) (x : Rm α) : Prop := ∀ s, ∃ l, (x s).2.acts = s.acts ++ l ∧ ∀ a ∈ l, P a

theorem Does.bind {α β} {P} {x : Rm α} {f : α → Rm β} (hx : Does P x)
    (hf : ∀ a, (∃ s s', x s = (.ok a, s')) → Does P (f a)) : Does P (x >>= f) := by
  intro s
  obtain ⟨l1, h2, h3⟩ := hx s
  rw [Rm.bind_def]
  split
  all_goals (rename_i hx'; rw [hx'] at h2)
  · obtain ⟨l2, h5, h6⟩ := hf _ ⟨_, _, hx'⟩ _
    refine ⟨l1 ++ l2, by rw [h5, h2, List.append_assoc], fun a ha => ?_⟩
    rcases List.mem_append.mp ha with ha | ha
    · exact h3 a ha
    · exact h6 a ha
  all_goals exact ⟨l1, h2, h3⟩

theorem Does.pure {α} {P} (a : α) : Does P (Pure.pure a : Rm α) := fun _ => ⟨[], by simp, by simp⟩
theorem Does.lift {α} {P} (a : Out α) : Does P (Rm.lift a) := fun _ => ⟨[], by simp, by simp⟩
theorem Does.io {α} {P} (y : Sys) (x : IOm α) : Does P (Rm.io y x) := fun _ => ⟨[], by simp [Rm.io], by simp⟩
theorem Does.loop {P} (y : Sys) (k : FCfg) : Does P (Rm.loop y k) := fun _ => ⟨[], by simp [Rm.loop], by simp⟩
theorem Does.act {P : Act → Prop} {a : Act} (h : P a) : Does P (Rm.act a) := fun _ => ⟨[a], rfl, by simpa using h⟩
theorem Does.command {P : Act → Prop} (y : Sys) {c : Cmd} (h : P (.command c)) : Does P (Rm.command y c) :=
  fun _ => ⟨[.command c], rfl, by simpa using h⟩
theorem Does.plain {α} {P Q : Act → Prop} {x : Rm α} (h : Plain Q x) (hQ : ∀ a, Q a → P a) : Does P x := fun s => by
  obtain ⟨-, l, h1, h2⟩ := h s
  exact ⟨l, h1, fun a ha => hQ a (h2 a ha)⟩
theorem Does.when {P : Act → Prop} {c : Bool} {x : Rm Unit} (h : Does P x) : Does P (Rm.when c x) := by
  unfold Rm.when; split
  · exact h
  · exact .pure _

/-- Actions other than running tests or commands. -/
def Quiet : Act → Prop
  | .harness .. | .command _ | .fuzzLoop .. => False
  | _ => True

theorem Quiet.listed {y : Sys} {a : Act} (h : Quiet a) : RunsListed y a := by
  refine .other ?_ ?_ ?_ <;> (intros; rintro rfl; exact h)

/-! ## Lines of a listing -/

theorem mem_splitNl {b l : Bytes} (h : l ∈ splitNl b) :
    ∃ pre post, b = pre ++ l ++ post ∧ (pre = [] ∨ pre.getLast? = some 10) ∧ (post = [] ∨ post.head? = some 10) := by
  suffices H : ∀ b, (∀ l ∈ splitNl b, ∃ pre post, b = pre ++ l ++ post ∧ (pre = [] ∨ pre.getLast? = some 10) ∧
      (post = [] ∨ post.head? = some 10)) ∧
      (∀ x xs, splitNl b = x :: xs → (∃ post, b = x ++ post ∧ (post = [] ∨ post.head? = some 10)) ∧
        ∀ l ∈ xs, ∃ pre post, b = pre ++ l ++ post ∧ pre.getLast? = some 10 ∧ (post = [] ∨ post.head? = some 10)) from
    (H b).1 l h
  clear h l b
  intro b
  induction b with
  | nil => simp [splitNl]
  | cons c b ih =>
    by_cases hc : c = 10
    · subst hc
      have e : splitNl (10 :: b) = [] :: splitNl b := by rw [splitNl, if_pos rfl]
      have tail : ∀ l ∈ splitNl b, ∃ pre post, 10 :: b = pre ++ l ++ post ∧ pre.getLast? = some 10 ∧
          (post = [] ∨ post.head? = some 10) := by
        intro l hl
        obtain ⟨pre, post, h1, h2, h3⟩ := ih.1 l hl
        refine ⟨10 :: pre, post, by rw [h1]; rfl, ?_, h3⟩
        rcases h2 with rfl | h2
        · rfl
        · cases pre with
          | nil => cases h2
          | cons p ps => rw [List.getLast?_cons_cons]; exact h2
      rw [e]
      refine ⟨fun l hl => ?_, fun x xs hx => ?_⟩
      · rcases List.mem_cons.mp hl with rfl | hl
        · exact ⟨[], 10 :: b, rfl, Or.inl rfl, Or.inr rfl⟩
        · obtain ⟨pre, post, h1, h2, h3⟩ := tail l hl
          exact ⟨pre, post, h1, Or.inr h2, h3⟩
      · cases hx
        exact ⟨⟨10 :: b, rfl, Or.inr rfl⟩, tail⟩
    · have e : splitNl (c :: b) = match splitNl b with | [] => [[c]] | x :: xs => (c :: x) :: xs := by
        rw [splitNl, if_neg hc]; cases splitNl b <;> rfl
      cases hs : splitNl b with
      | nil =>
        have hb : b = [] := by
          cases b with
          | nil => rfl
          | cons d b =>
            exfalso
            rw [splitNl] at hs
            split at hs
            · cases hs
            · split at hs <;> cases hs
        subst hb
        rw [hs] at e
        simp only at e
        rw [e]
        refine ⟨fun l hl => ?_, fun x xs hx => ?_⟩
        · rw [List.mem_singleton] at hl; subst hl
          exact ⟨[], [], rfl, Or.inl rfl, Or.inl rfl⟩
        · cases hx
          exact ⟨⟨[], rfl, Or.inl rfl⟩, by simp⟩
      | cons z zs =>
        rw [hs] at e
        simp only at e
        obtain ⟨⟨post, h1, h2⟩, h3⟩ := ih.2 z zs hs
        have tail : ∀ l ∈ zs, ∃ pre post, c :: b = pre ++ l ++ post ∧ pre.getLast? = some 10 ∧
            (post = [] ∨ post.head? = some 10) := by
          intro l hl
          obtain ⟨pre, post, h4, h5, h6⟩ := h3 l hl
          refine ⟨c :: pre, post, by rw [h4]; rfl, ?_, h6⟩
          cases pre with
          | nil => cases h5
          | cons p ps => rw [List.getLast?_cons_cons]; exact h5
        rw [e]
        refine ⟨fun l hl => ?_, fun x xs hx => ?_⟩
        · rcases List.mem_cons.mp hl with rfl | hl
          · exact ⟨[], post, by rw [h1]; rfl, Or.inl rfl, h2⟩
          · obtain ⟨pre, post, h4, h5, h6⟩ := tail l hl
            exact ⟨pre, post, h4, Or.inr h5, h6⟩
        · cases hx
          exact ⟨⟨post, by rw [h1]; rfl, h2⟩, tail⟩

theorem isLineOf_dropCr {l b : Bytes} (h : l ∈ splitNl b) : IsLineOf (dropCr l) b := by
  obtain ⟨pre, post, h1, h2, h3⟩ := mem_splitNl h
  unfold dropCr
  split
  · next hl =>
    have hd : l = l.dropLast ++ [13] := by
      obtain ⟨ys, rfl⟩ := List.getLast?_eq_some_iff.mp hl
      simp
    refine ⟨pre, 13 :: post, ?_, h2, ?_⟩
    · rw [h1]; conv => lhs; rw [hd]
      simp
    · rcases h3 with rfl | h3
      · exact Or.inr (Or.inr (Or.inl rfl))
      · cases post with
        | nil => exact Or.inr (Or.inr (Or.inl rfl))
        | cons p ps => cases h3; exact Or.inr (Or.inr (Or.inr ⟨ps, rfl⟩))
  · exact ⟨pre, post, h1, h2, h3.elim Or.inl fun h => Or.inr (Or.inl h)⟩

theorem targetsLoop_mem {ls : List Bytes} {ts : List Str} (h : targetsLoop ls = .ok ts) {t : Str} (ht : t ∈ ts) :
    ∃ l ∈ ls, dropCr l = utf8Encode (t ++ c%"_fuzz__::entry: test") := by
  induction ls generalizing ts with
  | nil => simp only [targetsLoop] at h; cases h; cases ht
  | cons l ls ih =>
    simp only [targetsLoop] at h
    split at h
    · cases h
    · next line hline =>
      cases hr : targetsLoop ls with
      | ok rest =>
        rw [hr, Out.ok_bind] at h
        split at h
        · cases h
          obtain ⟨l', h1, h2⟩ := ih hr ht
          exact ⟨l', List.mem_cons_of_mem _ h1, h2⟩
        · next t' ht' =>
          cases h
          rcases List.mem_cons.mp ht with rfl | ht
          · refine ⟨l, List.mem_cons_self, ?_⟩
            rw [utf8Decode_sound hline, (targetOfLine_some _ _).mp ht']
          · obtain ⟨l', h1, h2⟩ := ih hr ht
            exact ⟨l', List.mem_cons_of_mem _ h1, h2⟩
      | _ => rw [hr] at h; cases h

theorem executableTargets_mem {run : Exe → Option Bytes} {es : List Exe} {ets : List (Exe × List Str)}
    (h : executableTargets run es = .ok ets) {e : Exe} {ts : List Str} (he : (e, ts) ∈ ets) {t : Str} (ht : t ∈ ts) :
    e ∈ es ∧ ∃ b, run e = some b ∧ IsLineOf (utf8Encode (t ++ c%"_fuzz__::entry: test")) b := by
  unfold executableTargets at h
  cases ha : allTargets run es with
  | ok all =>
    rw [ha, Out.ok_bind] at h
    cases h
    replace he := (List.mem_filter.mp he).1
    induction es generalizing all with
    | nil => simp only [allTargets] at ha; cases ha; cases he
    | cons x es ih =>
      simp only [allTargets] at ha
      cases h1 : targets (run x) with
      | ok ts1 =>
        rw [h1, Out.ok_bind] at ha
        cases h2 : allTargets run es with
        | ok rest =>
          rw [h2, Out.ok_bind] at ha
          cases ha
          rcases List.mem_cons.mp he with he | he
          · cases he
            refine ⟨List.mem_cons_self, ?_⟩
            cases hb : run e with
            | none => rw [hb] at h1; cases h1
            | some b =>
              rw [hb] at h1
              simp only [targets] at h1
              obtain ⟨l, h3, h4⟩ := targetsLoop_mem h1 ht
              exact ⟨b, rfl, h4 ▸ isLineOf_dropCr h3⟩
          · obtain ⟨h3, h4⟩ := ih rest h2 he
            exact ⟨List.mem_cons_of_mem _ h3, h4⟩
        | _ => rw [h2] at ha; cases ha
      | _ => rw [h1] at ha; cases ha
  | _ => rw [ha] at h; cases h

/-! ## Parts of the command -/

/-- All targets of a grouped list are listed. -/
def AllListed (y : Sys) (ets : List (Exe × List Str)) : Prop := ∀ x ∈ ets, ∀ t ∈ x.2, Listed y x.1 t

theorem build_ok {o : Opts} {y : Sys} {q : Bool} {s s' : RSt} {exes : List Exe} (h : build o y q s = (.ok exes, s'))
    {e : Exe} (he : e ∈ exes) :
    ∃ fs msgs id, (y.build fs).1 = .done msgs (some true) ∧ .artifact id e.name true (some e.path) ∈ msgs := by
  obtain ⟨dir, fmt, -, -, -, -, -, hb⟩ := C62_run o y q s exes s' h
  obtain ⟨msgs, h1, -, h2⟩ := C62_result _ _ _ hb
  obtain ⟨id, h3, -⟩ := h2 e he
  exact ⟨_, msgs, id, h1, h3⟩

theorem gather_ok {o : Opts} {y : Sys} {s s' : RSt} {x : List (Str × Str) × List (Exe × List Str)}
    (h : gather o y s = (.ok x, s')) : AllListed y x.2 := by
  unfold gather at h
  obtain ⟨_, s1, -, h⟩ := Rm.bind_eq_ok h
  obtain ⟨_, s2, -, h⟩ := Rm.bind_eq_ok h
  obtain ⟨_, s3, -, h⟩ := Rm.bind_eq_ok h
  obtain ⟨llvm, s4, -, h⟩ := Rm.bind_eq_ok h
  obtain ⟨exes, s5, h5, h⟩ := Rm.bind_eq_ok h
  obtain ⟨ets, s6, h6, h⟩ := Rm.bind_eq_ok h
  obtain ⟨_, s7, -, h⟩ := Rm.bind_eq_ok h
  simp only [Rm.pure_run, Prod.mk.injEq, Out.ok.injEq] at h
  obtain ⟨rfl, rfl⟩ := h
  simp only [listTargets, Prod.mk.injEq] at h6
  have hall : AllListed y ets := by
    rintro ⟨e, ts⟩ hx t ht
    obtain ⟨h7, h8⟩ := executableTargets_mem h6.1 hx ht
    exact ⟨build_ok h5 h7, h8⟩
  rintro ⟨e, ts⟩ hx t ht
  simp only [selectTargets] at hx
  split at hx
  · next pat _ =>
    unfold filterExecutableTargets at hx
    obtain ⟨⟨e', ts'⟩, h8, h9⟩ := List.mem_filterMap.mp hx
    simp only at h9
    split at h9
    · cases h9
    · cases h9
      exact hall (e, ts') h8 t (List.mem_filter.mp ht).1
  · exact hall _ hx t ht

theorem flatten_ok {o : Opts} {ets : List (Exe × List Str)} {flat : List (Exe × Str)} {y : Sys}
    (h : flattenExecutableTargets o ets = .ok flat) (hl : AllListed y ets) : ∀ x ∈ flat, Listed y x.1 x.2 := by
  unfold flattenExecutableTargets at h
  dsimp only at h
  generalize hf : ets.flatMap _ = fl at h
  cases he : ensure (!fl.isEmpty) (c%"Found no fuzz targets" ++ matchMessage o) with
  | ok u =>
    rw [he, Out.ok_bind] at h
    cases h
    intro x hx
    rw [← hf] at hx
    obtain ⟨z, hz, hx⟩ := List.mem_flatMap.mp hx
    obtain ⟨t, ht, rfl⟩ := List.mem_map.mp hx
    exact hl z hz t ht
  | _ => rw [he] at h; cases h

theorem runEntry_does (lim : Nat) (y : Sys) (f e t p i) (hl : Listed y e t) :
    Does (RunsListed y) (runEntry lim y f (entryArgs t) e.path p i) :=
  .plain (runEntry_plain lim y f _ _ p i (.harness hl) (Quiet.listed trivial) (Quiet.listed trivial)) fun _ h => h

theorem entriesLoop_does (lim : Nat) (y : Sys) (f e t d ns se) (hl : Listed y e t) :
    Does (RunsListed y) (entriesLoop lim y f (entryArgs t) e.path d ns se) := by
  induction ns generalizing se with
  | nil => exact .pure _
  | cons n ns ih =>
    unfold entriesLoop
    refine .bind (.io _ _) fun input _ => ?_
    split
    · exact ih _
    · refine .bind (runEntry_does _ _ _ _ _ _ _ hl) fun x _ => ?_
      exact .bind (.plain (reportEntry_plain (P := Quiet) _ _ _ _ _ fun _ => trivial) fun _ h => h.listed) fun _ _ => ih _

theorem replayLoop_does (o : Opts) (y : Sys) (m l) (hl : ∀ x ∈ l, Listed y x.1 x.2) :
    Does (RunsListed y) (replayLoop o y m l) := by
  induction l with
  | nil => exact .pure _
  | cons x l ih =>
    obtain ⟨exe, target⟩ := x
    have h0 := hl _ List.mem_cons_self
    unfold replayLoop printHeading forEachEntry
    exact .bind (.when (.bind (.lift _) fun _ _ => .act (Quiet.listed trivial))) fun _ _ => .bind (.lift _) fun _ _ =>
      .bind (.bind (.io _ _) fun _ _ => .bind (.lift _) fun _ _ => .bind (.io _ _) fun _ _ =>
        .bind (entriesLoop_does _ _ _ _ _ _ _ _ h0) fun _ _ =>
          .plain (closing_plain (P := Quiet) _ _ fun _ => trivial) fun _ h => h.listed) fun _ _ =>
      ih fun x hx => hl x (List.mem_cons_of_mem _ hx)

theorem command_ok {llvm : List (Str × Str)} {p : Str} {as : List Str} {c : Cmd} (h : command llvm (p :: as) = .ok c) :
    c.program = p ∧ c.args = as := by
  simp only [command] at h; cases h; exact ⟨rfl, rfl⟩

theorem lift_result {α} {x : Out α} {a : α} (h : ∃ s s' : RSt, Rm.lift x s = (.ok a, s')) : x = .ok a := by
  obtain ⟨s, s', h⟩ := h
  simp only [Rm.lift, Prod.mk.injEq] at h
  exact h.1

theorem mustSucceed_does (y : Sys) (c) (h : RunsListed y (.command c)) : Does (RunsListed y) (mustSucceed y c) :=
  .plain (mustSucceed_plain _ _ h) fun _ h => h

theorem Spec.RunsListed.coverage_more {y : Sys} {c : Cmd} {l : List Str} (h1 : c.program = c%"cargo")
    (h2 : c.args = c%"llvm-cov" :: l) (more : List Str) : RunsListed y (.command (c.addArgs more)) :=
  .coverage (l := l ++ more) h1 (by simp only [Cmd.addArgs, h2, List.cons_append])

theorem replayAll_does (o : Opts) (y : Sys) (llvm ets) (hl : AllListed y ets) :
    Does (RunsListed y) (replayAll o y llvm ets) := by
  unfold replayAll coverageClean coverageReport
  refine .bind (.when (.bind (.lift _) fun c hc => mustSucceed_does _ _ ?_)) fun _ _ =>
    .bind (.lift _) fun flat hflat => .bind (replayLoop_does _ _ _ _ (flatten_ok (lift_result hflat) hl)) fun _ _ =>
    .when (.bind ?_ fun _ _ => .bind (.lift _) fun c hc => mustSucceed_does _ _ ?_)
  · obtain ⟨h1, h2⟩ := command_ok (lift_result hc)
    exact .coverage h1 h2
  · unfold coverageWarning
    split
    · exact .lift _
    · exact .when (.act (Quiet.listed trivial))
  · obtain ⟨h1, h2⟩ := command_ok (lift_result hc)
    exact .coverage_more h1 h2 _

theorem autoGenerateLoop_does (y : Sys) (llvm ets errs) (hl : ∀ x ∈ ets, Listed y x.1 x.2) :
    Does (RunsListed y) (autoGenerateLoop y llvm ets errs) := by
  induction ets generalizing errs with
  | nil => exact .pure _
  | cons x ets ih =>
    obtain ⟨exe, target⟩ := x
    have h0 := hl _ List.mem_cons_self
    have ih := fun errs => ih errs fun x hx => hl x (List.mem_cons_of_mem _ hx)
    unfold autoGenerateLoop
    refine .bind (.lift _) fun _ _ => .bind (.io _ _) fun _ _ => ?_
    split
    · exact ih _
    · refine .bind (.act (Quiet.listed trivial)) fun _ _ => .bind ?_ fun e _ => ?_
      · unfold autoGenerateCorpus
        refine .bind (.lift _) fun c hc => .bind (.command _ ?_) fun _ _ => ?_
        · have := lift_result hc
          unfold autoGenerateCommand at this
          simp only [command, Out.ok_bind] at this
          cases this
          exact .generate h0 rfl rfl
        · split <;> exact .pure _
      · split
        · exact ih _
        · refine .bind (.io _ _) fun _ _ => ?_
          split
          · exact ih _
          · exact .bind (.act (Quiet.listed trivial)) fun _ _ => ih _

theorem fuzzCommand_shape {checks : Bool} {o : Opts} {c : Ctx} {llvm : List (Str × Str)} {cfg : Config} {exe : Exe}
    {target : Str} {cmd : Cmd} (h : fuzzCommand checks o c llvm cfg exe target = .ok cmd) :
    cmd.program = c%"cargo" ∧ ∃ l, cmd.args = [c%"afl", c%"fuzz"] ++ l ++
      [c%"--", exe.path, c%"--exact", target ++ c%"_fuzz__::entry"] := by
  obtain ⟨corpus, out, tm, -, -, -, hp, -, ha, -⟩ := fuzzCommand_ok h
  refine ⟨hp, [c%"-c-", c%"-i", (if o.resume || !cfg.firstRun then c%"-" else pathStr corpus),
        c%"-o", pathStr out, c%"-M", c%"default"] ++ timeBoundArgs o cfg ++ tm ++ o.zzargs, ?_⟩
  rw [ha]
  simp only [List.append_assoc]
  rfl

theorem fuzz_does (o : Opts) (y : Sys) (llvm flat) (hl : ∀ x ∈ flat, Listed y x.1 x.2) :
    Does (RunsListed y) (fuzz o y llvm flat) := by
  unfold fuzz
  refine .bind (.lift _) fun _ _ => .bind ?_ fun _ _ => ?_
  · unfold autoGenerateCorpora
    refine .bind (autoGenerateLoop_does _ _ _ _ hl) fun _ _ => ?_
    split
    · exact .pure _
    · exact .lift _
  · split
    · next exe target _ =>
      refine .bind (.io _ _) fun cmd hc => .bind (.command _ ?_) fun _ _ => ?_
      · obtain ⟨s, s', hc⟩ := hc
        simp only [Rm.io, Prod.mk.injEq] at hc
        obtain ⟨hp, l, ha⟩ := fuzzCommand_shape (fuzzCommandIO_ok hc.1)
        exact .fuzz (hl _ List.mem_cons_self) hp ha
      · split
        · exact .lift _
        · exact .lift _
    · unfold fuzzMany
      exact .bind (.lift _) fun _ _ => .bind (.act (.loop hl)) fun _ _ => .loop _ _

/-- What may happen when one target is fuzzed: its corpus is generated by its executable, and the fuzzer is started afresh unless
`--resume` was given, for as long as `--max-total-time` says, not for a time slice. -/
def OneTarget (o : Opts) (y : Sys) (exe : Exe) (target : Str) : Act → Prop
  | .command cmd => cmd.program = exe.path ∧ cmd.args = [c%"--exact", target ++ c%"_fuzz__::auto_generate"] ∨
      ∃ (corpus out : Path) (opts : List (Str × Str)), corpusDirFromTarget y.ctx exe.name target = .ok corpus ∧
        outputDirFromTarget y.ctx exe.name target = .ok out ∧ cmd.program = c%"cargo" ∧
        cmd.args = [c%"afl", c%"fuzz", c%"-c-"] ++ opts.flatMap (fun x => [x.1, x.2]) ++ o.zzargs ++
          [c%"--", exe.path, c%"--exact", target ++ c%"_fuzz__::entry"] ∧
        (opts.map Prod.fst).Nodup ∧
        (∀ x ∈ opts, FuzzerOption o corpus out (!o.resume) true x.1 x.2) ∧
        ∀ k v, FuzzerOption o corpus out (!o.resume) true k v → ∃ v', (k, v') ∈ opts
  | .note _ => True
  | _ => False

/-- **C46 (one target).** Without `--exit-code`, one target is fuzzed with these commands only. -/
theorem C46_one_target (o : Opts) (y : Sys) (llvm : List (Str × Str)) (exe : Exe) (target : Str) (he : o.exitCode = false)
    (hb : ∀ t, o.timeout = some t → t * 1000 < 2 ^ 64) (s : RSt) :
    ∃ l, (fuzz o y llvm [(exe, target)] s).2.acts = s.acts ++ l ∧ ∀ a ∈ l, OneTarget o y exe target a := by
  have hnil : ∀ errs, Does (OneTarget o y exe target) (autoGenerateLoop y llvm [] errs) := fun _ => .pure _
  have hauto : Does (OneTarget o y exe target) (autoGenerateLoop y llvm [(exe, target)] []) := by
    unfold autoGenerateLoop
    refine .bind (.lift _) fun _ _ => .bind (.io _ _) fun _ _ => ?_
    split
    · exact hnil _
    · refine .bind (.act trivial) fun _ _ => .bind ?_ fun e _ => ?_
      · unfold autoGenerateCorpus
        refine .bind (.lift _) fun c hc => .bind (.command _ ?_) fun _ _ => ?_
        · have := lift_result hc
          unfold autoGenerateCommand at this
          simp only [command, Out.ok_bind] at this
          cases this
          exact Or.inl ⟨rfl, rfl⟩
        · split <;> exact .pure _
      · split
        · exact hnil _
        · refine .bind (.io _ _) fun _ _ => ?_
          split
          · exact hnil _
          · exact .bind (.act trivial) fun _ _ => hnil _
  have H : Does (OneTarget o y exe target) (fuzz o y llvm [(exe, target)]) := by
    unfold fuzz
    refine .bind (.lift _) fun _ _ => .bind ?_ fun _ _ => ?_
    · unfold autoGenerateCorpora
      refine .bind hauto fun _ _ => ?_
      split
      · exact .pure _
      · exact .lift _
    · rw [he]
      refine .bind (.io _ _) fun cmd hc => .bind (.command _ ?_) fun _ _ => ?_
      · obtain ⟨s, s', hc⟩ := hc
        simp only [Rm.io, Prod.mk.injEq] at hc
        have := C46_command_line _ _ _ _ _ _ _ _ (fuzzCommandIO_ok hc.1) hb
        simp only [Bool.and_true] at this
        exact Or.inr this
      · split <;> exact .lift _
  exact H s

/-- In a whole command, whatever happens, a test is run only if it was listed by the executable that it is run from, as
the harness of a target or the generator beside it, and is run by its exact name. -/
theorem C23_only_listed (o : Opts) (y : Sys) (s : RSt) :
    ∃ l, (run o y s).2.acts = s.acts ++ l ∧ ∀ a ∈ l, RunsListed y a := by
  have H : Does (RunsListed y) (runWithoutExitCode (effectiveOpts o) y) := by
    generalize effectiveOpts o = o
    unfold runWithoutExitCode
    refine .bind (.plain (prepare_plain (P := Quiet) o y fun a ha => ?_) fun _ h => h.listed) fun x hx => ?_
    · cases a <;> first | trivial | exact ha
    · obtain ⟨llvm, ets⟩ := x
      have hl : AllListed y ets := by
        obtain ⟨s, s', hx⟩ := hx
        unfold prepare at hx
        obtain ⟨_, s1, -, hx⟩ := Rm.bind_eq_ok hx
        obtain ⟨_, s2, -, hx⟩ := Rm.bind_eq_ok hx
        exact gather_ok hx
      dsimp only
      unfold dispatch
      split
      · exact .act (Quiet.listed trivial)
      · split
        · exact .pure _
        · split
          · exact .plain (storageAll_plain (P := Quiet) _ _ _ trivial trivial) fun _ h => h.listed
          · split
            · exact replayAll_does _ _ _ _ hl
            · exact .bind (.lift _) fun flat hflat => fuzz_does _ _ _ _ (flatten_ok (lift_result hflat) hl)
  obtain ⟨l, h1, h2⟩ := H s
  refine ⟨l, ?_, h2⟩
  rw [← h1]
  unfold run
  split
  · next e s' he => rw [he]; split <;> rfl
  · rfl

/-- The fuzzers that the loop starts run the harness of the target they are started for. -/
theorem C23_loop (o : Opts) (y : Sys) (llvm : List (Str × Str)) (k : FCfg) (ets : List (Exe × Str)) (t sl : Nat)
    (first : Bool) (exe : Exe) (target : Str) (he : ets[t]? = some (exe, target)) (cmd : Cmd)
    (hc : loopCommand o y llvm k ets (.start t sl first) = some (.ok cmd)) :
    cmd.program = c%"cargo" ∧ ∃ l, cmd.args = [c%"afl", c%"fuzz"] ++ l ++
      [c%"--", exe.path, c%"--exact", target ++ c%"_fuzz__::entry"] := by
  simp only [loopCommand, he, Option.map_some, Option.some.injEq] at hc
  exact fuzzCommand_shape hc

/-- For a target as declared, these are the names that libtest gives the harness and the generator. -/
theorem C23_declared (d : Decl) :
    targetOfLine (harnessName d ++ c%": test") = some (targetName d) ∧
      targetName d ++ entrySuffix = harnessName d ∧ targetName d ++ autoGeneratedSuffix = autoGenerateName d :=
  ⟨targetOfLine_harness d, (harnessName_eq d).symm, (autoGenerateName_eq d).symm⟩

/-- Different targets run different tests, and no harness is another target's generator. -/
theorem C23_distinct (t t' : Str) :
    (t ++ entrySuffix = t' ++ entrySuffix → t = t') ∧ (t ++ autoGeneratedSuffix = t' ++ autoGeneratedSuffix → t = t') ∧
      t ++ entrySuffix ≠ t' ++ autoGeneratedSuffix := by
  refine ⟨List.append_cancel_right, List.append_cancel_right, fun h => ?_⟩
  have h1 : (t ++ entrySuffix).getLast? = some 'y' := by
    rw [List.getLast?_append]; rfl
  have h2 : (t' ++ autoGeneratedSuffix).getLast? = some 'e' := by
    rw [List.getLast?_append]; rfl
  rw [h, h2] at h1
  cases h1

open Demo in
/-- The example of two targets: a replay runs the harness of `a` on its inputs. -/
example : .harness [c%"--exact", c%"a_fuzz__::entry", c%"--nocapture"] c%"/t/p" (corpus c%"a" ++ [c%"x"]) (some [1]) ∈
    (run { opts with replay := some .corpus, ztarget := some c%"a" } sys start).2.acts := by decide +kernel

open Demo in
/-- Target `a` is listed: the line is the first one. -/
example : Listed sys exe c%"a" :=
  ⟨⟨fs, _, _, rfl, List.mem_cons_of_mem _ List.mem_cons_self⟩, _, rfl, [], _, rfl, .inl rfl, .inr (.inl rfl)⟩

end TF
