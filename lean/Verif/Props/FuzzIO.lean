import Verif.Spec.FuzzIO
import Verif.Props.Success
import Verif.Props.ConcSeq
import Verif.Props.RunCases
import Mathlib.Data.List.Forall2

/-!
# C107: the fuzzers that the loop starts, and the files it changes
-/

namespace TF

open Spec

section

variable {fz : FS → FS → Prop} {o : Opts} {y : Sys} {llvm : List (Str × Str)} {k : FCfg} {ets : List (Exe × Str)} {w₀ : World}

/-- The start of a fuzzer, with the target's number and whether it is the first. -/
def startOf : LogEv → Option (Nat × Bool)
  | .start t _ f => some (t, f)
  | _ => none

theorem processRead_log {ev : Event} {s s' : FState} {c : FChild} (h : processRead k ev s = .ok (s', c)) : s'.log = s.log := by
  unfold processRead at h
  split at h
  · split at h
    · cases h1 : readLoop ev.reads with
      | ok b =>
        rw [h1, Out.ok_bind] at h
        rename_i c0 _
        cases h2 : takeText (c0.unprinted ++ b) with
        | ok p =>
          rw [h2, Out.ok_bind] at h
          simp only [Out.ok.injEq, Prod.mk.injEq] at h
          rw [← h.1]
        | _ => rw [h2] at h; cases h
      | _ => rw [h1] at h; cases h
    · cases h
  · cases h

theorem processEvent_startOf {ev : Event} {s s' : FState} (h : processEvent k ev s = .ok s') :
    s'.log.filterMap startOf = s.log.filterMap startOf := by
  unfold processEvent at h
  cases h1 : processRead k ev s with
  | ok p =>
    obtain ⟨s1, c⟩ := p
    rw [h1, Out.ok_bind] at h
    have e := processRead_log h1
    simp only at h
    split at h
    · unfold reap at h
      simp only at h
      repeat' split at h
      all_goals first
        | cases h; done
        | (cases h; simp [List.filterMap_append, startOf, e])
    · cases h; rw [e]
  | _ => rw [h1] at h; cases h

theorem processEvents_startOf {evs : List Event} {s s' : FState} (h : processEvents k evs s = .ok s') :
    s'.log.filterMap startOf = s.log.filterMap startOf := by
  induction evs generalizing s with
  | nil => cases h; rfl
  | cons ev evs ih =>
    unfold processEvents at h
    cases h1 : processEvent k ev s with
    | ok s1 => rw [h1, Out.ok_bind] at h; rw [ih h, processEvent_startOf h1]
    | _ => rw [h1] at h; cases h

/-- What an iteration is going to start, it starts, unless it fails. -/
theorem starting_log {inp : Inp} {s s' : FState} (h : iterate k inp s = .ok (.cont s')) :
    s'.log.filterMap startOf = s.log.filterMap startOf ++ (starting k inp s).toList := by
  obtain ⟨s1, h1, hf, ⟨hw, h2⟩ | ⟨hw, hn, evs, -, h2⟩⟩ := iterate_cont h
  · unfold starting
    have hl : s1.log = s.log := by obtain ⟨b, rfl⟩ := refreshState_eq h1; rfl
    rw [h1]
    simp only
    unfold schedule at h2
    by_cases h0 : k.n = 0
    · rw [if_pos h0] at h2; cases h2
    · rw [if_neg h0] at h2
      simp only at h2
      by_cases hm : s1.iTask % k.n ∈ s1.failed
      · rw [if_pos hm] at h2
        cases h2
        simp [hm, startOf, hl]
      · rw [if_neg hm] at h2
        rw [if_neg (by simp [hf, hw, h0, hm])]
        cases hc : s1.children[s1.iTask % k.n]? with
        | none => rw [hc] at h2; cases h2
        | some c =>
          rw [hc] at h2
          cases c with
          | some c =>
            simp only [assert] at h2
            split at h2
            · simp only [Out.ok_bind, Out.ok.injEq] at h2
              rw [← h2]
              simp [startOf, hl]
            · cases h2
          | none =>
            simp only [assert] at h2 ⊢
            split at h2
            · next ha =>
              simp only [Out.ok_bind] at h2
              split at h2
              · simp only [Out.ok.injEq] at h2
                rw [← h2]
                rw [if_pos ha]
                simp [startOf, hl]
              · cases h2
            · cases h2
  · have hl : s1.log = s.log := by obtain ⟨b, rfl⟩ := refreshState_eq h1; rfl
    rw [processEvents_startOf h2]
    unfold starting
    rw [h1]
    simp [hw, startOf, hl]

/-! ## One iteration -/

theorem fuzzCommandIO_state {checks : Bool} {o : Opts} {c : Ctx} {llvm : List (Str × Str)} {cfg : Config} {exe : Exe}
    {target : Str} (pl : Plan) (w : World) {out : Path} (h1 : outputDirFromTarget c exe.name target = .ok out) :
    (fuzzCommandIO checks o c llvm cfg exe target pl w).2 = (createDirAll out pl w).2 := by
  unfold fuzzCommandIO
  rw [h1, ← ignore_state]
  simp only [Bind.bind, IOm.bind, IOm.lift]
  split <;> simp_all

theorem fuzzCommandIO_fs (checks : Bool) (o : Opts) (c : Ctx) (llvm : List (Str × Str)) (cfg : Config) (exe : Exe)
    (target : Str) (pl : Plan) (w : World) :
    (fuzzCommandIO checks o c llvm cfg exe target pl w).2 = w ∨
    ∃ out, outputDirFromTarget c exe.name target = .ok out ∧
      (fuzzCommandIO checks o c llvm cfg exe target pl w).2 = (createDirAll out pl w).2 := by
  cases h1 : outputDirFromTarget c exe.name target with
  | ok out => exact .inr ⟨out, rfl, fuzzCommandIO_state pl w h1⟩
  | _ => left; unfold fuzzCommandIO; rw [h1]; rfl

/-- What an iteration that goes on did. -/
theorem iterateIO_ok {inp : Inp} {s : FState} {pl : Plan} {w w' : World} {n : Next} {c : Option Cmd}
    (h : iterateIO o y llvm k ets inp s pl w = (.ok (n, c), w')) :
    iterate k inp s = .ok n ∧
    ((starting k inp s = none ∧ c = none ∧ w' = w) ∨
     ∃ t first x cmd, starting k inp s = some (t, first) ∧ ets[t]? = some x ∧ c = some cmd ∧
       fuzzCommandIO y.checks o y.ctx llvm ⟨!o.noUi, k.sufficient, first⟩ x.1 x.2 pl w = (.ok cmd, w')) := by
  unfold iterateIO at h
  rcases hs : starting k inp s with _ | ⟨t, first⟩ <;> simp only [hs] at h
  · obtain ⟨a, w1, h1, h2⟩ := IOm.bind_ok h
    simp only [IOm.lift, Prod.mk.injEq] at h1
    obtain ⟨h1, rfl⟩ := h1
    cases h2
    exact ⟨h1, .inl ⟨rfl, rfl, rfl⟩⟩
  · rcases hx : ets[t]? with _ | x <;> simp only [hx] at h
    · cases h
    · obtain ⟨cmd, w1, h1, h2⟩ := IOm.bind_ok h
      obtain ⟨a, w2, h3, h4⟩ := IOm.bind_ok h2
      simp only [IOm.lift, Prod.mk.injEq] at h3
      obtain ⟨h3, rfl⟩ := h3
      cases h4
      exact ⟨h3, .inr ⟨t, first, x, cmd, rfl, hx, rfl, h1⟩⟩

/-- An iteration makes the output directory of a target, or part of the way to it, at most – also when it fails. -/
theorem iterateIO_fs (inp : Inp) (s : FState) (pl : Plan) (w : World) :
    (iterateIO o y llvm k ets inp s pl w).2.fs = w.fs ∨
    ∃ x ∈ ets, ∃ out, outputDirFromTarget y.ctx x.1.name x.2 = .ok out ∧
      DirExt out w.fs (iterateIO o y llvm k ets inp s pl w).2.fs := by
  have lifted : ∀ {α β} (x : Out α) (g : α → β) (w : World),
      ((IOm.lift x >>= fun a => (pure (g a) : IOm β)) pl w).2 = w := by
    intro α β x g w
    cases x <;> rfl
  unfold iterateIO
  rcases hs : starting k inp s with _ | ⟨t, first⟩ <;> simp only
  · left; rw [lifted]
  · rcases hx : ets[t]? with _ | x <;> simp only
    · left; rfl
    · rw [IOm.bind_run]
      have key : ∀ w', (fuzzCommandIO y.checks o y.ctx llvm ⟨!o.noUi, k.sufficient, first⟩ x.1 x.2 pl w).2 = w' →
          w'.fs = w.fs ∨ ∃ x ∈ ets, ∃ out, outputDirFromTarget y.ctx x.1.name x.2 = .ok out ∧ DirExt out w.fs w'.fs := by
        rintro w' rfl
        rcases fuzzCommandIO_fs y.checks o y.ctx llvm ⟨!o.noUi, k.sufficient, first⟩ x.1 x.2 pl w with h | ⟨out, h1, h2⟩
        · left; rw [h]
        · right
          refine ⟨x, List.mem_of_getElem? hx, out, h1, ?_⟩
          rw [h2]; exact createDirAll_ext _ _ _
      rcases hf : fuzzCommandIO y.checks o y.ctx llvm ⟨!o.noUi, k.sufficient, first⟩ x.1 x.2 pl w with ⟨r, w1⟩
      have := key w1 (by rw [hf])
      cases r with
      | ok cmd => simp only [lifted]; exact this
      | _ => exact this

/-! ## The loop -/

/-- The loop with its commands and files is the loop. -/
theorem Spec.LoopReach.reach {s w l} (h : LoopReach fz o y llvm k ets w₀ s w l) : Reach k s := by
  induction h with
  | init => exact .init
  | fuzzers _ _ ih => exact ih
  | quiet _ h ih => exact .step ih (iterateIO_ok h).1
  | started _ h ih => exact .step ih (iterateIO_ok h).1

/-- The commands are those of the starts. -/
theorem Spec.LoopReach.commands {s w l} (h : LoopReach fz o y llvm k ets w₀ s w l) :
    List.Forall₂ (fun (a : Nat × Bool) (c : Cmd × FS) => ∃ x, ets[a.1]? = some x ∧
      fuzzCommand y.checks o y.ctx llvm ⟨!o.noUi, k.sufficient, a.2⟩ x.1 x.2 = .ok c.1) (s.log.filterMap startOf) l := by
  induction h with
  | init => exact .nil
  | fuzzers _ _ ih => exact ih
  | quiet _ h ih =>
    obtain ⟨h1, ⟨h2, -, -⟩ | ⟨_, _, _, _, -, -, hc, -⟩⟩ := iterateIO_ok h
    · rw [starting_log h1, h2]; simpa using ih
    · cases hc
  | started _ h ih =>
    obtain ⟨h1, ⟨-, hc, -⟩ | ⟨t, first, x, cmd, h2, hx, hc, hf⟩⟩ := iterateIO_ok h
    · cases hc
    · cases hc
      rw [starting_log h1, h2]
      refine List.rel_append ih (.cons ⟨x, hx, ?_⟩ .nil)
      exact fuzzCommandIO_ok (by rw [hf])

/-! ## Helpers -/

theorem forall₂_at {α β} {R : α → β → Prop} : ∀ {as : List α} {pre : List β} {b : β} {post : List β},
    List.Forall₂ R as (pre ++ b :: post) →
    ∃ as1 a as2, as = as1 ++ a :: as2 ∧ List.Forall₂ R as1 pre ∧ R a b ∧ List.Forall₂ R as2 post
  | _, [], _, _, .cons h t => ⟨[], _, _, rfl, .nil, h, t⟩
  | _, _ :: _, _, _, .cons h t => by
    obtain ⟨as1, a, as2, rfl, h1, h2, h3⟩ := forall₂_at t
    exact ⟨_ :: as1, a, as2, rfl, .cons h h1, h2, h3⟩

theorem filterMap_startOf_split {log : List LogEv} : ∀ {A : List (Nat × Bool)} {t : Nat} {f : Bool} {B : List (Nat × Bool)},
    log.filterMap startOf = A ++ (t, f) :: B →
    ∃ pre sl post, log = pre ++ .start t sl f :: post ∧ pre.filterMap startOf = A := by
  induction log with
  | nil => intro A t f B h; simp at h
  | cons e log ih =>
    intro A t f B h
    have other : startOf e = none → ∃ pre sl post, e :: log = pre ++ .start t sl f :: post ∧ pre.filterMap startOf = A := by
      intro he
      rw [List.filterMap_cons, he] at h
      obtain ⟨pre, sl, post, rfl, h2⟩ := ih h
      exact ⟨e :: pre, sl, post, rfl, by rw [List.filterMap_cons, he]; exact h2⟩
    cases e with
    | start t' sl' f' =>
      simp only [List.filterMap_cons, startOf] at h
      cases A with
      | nil =>
        simp only [List.nil_append, List.cons.injEq, Prod.mk.injEq] at h
        obtain ⟨⟨rfl, rfl⟩, -⟩ := h
        exact ⟨[], sl', log, rfl, rfl⟩
      | cons a A =>
        simp only [List.cons_append, List.cons.injEq] at h
        obtain ⟨rfl, h⟩ := h
        obtain ⟨pre, sl, post, rfl, h2⟩ := ih h
        exact ⟨_ :: pre, sl, post, rfl, by simp [startOf, h2]⟩
    | _ => exact other rfl

theorem starts_startOf (t : Nat) (l : List LogEv) : starts t l = 0 ↔ ∀ a ∈ l.filterMap startOf, a.1 ≠ t := by
  induction l with
  | nil => simp [starts]
  | cons e l ih =>
    have ih' : List.countP (isStart t) l = 0 ↔ ∀ a ∈ l.filterMap startOf, a.1 ≠ t := ih
    cases e <;> simp only [starts, List.countP_cons, isStart, List.filterMap_cons, startOf, List.mem_cons,
      forall_eq_or_imp, Bool.false_eq_true, if_false, Nat.add_zero, ih']
    rename_i t' _ _
    by_cases h : t' = t
    · simp [h]
    · simp [h, ih']

theorem forall₂_meets {α β} {R : α → β → Prop} {as : List α} {bs : List β} (h : List.Forall₂ R as bs) :
    ∀ a ∈ as, ∃ b ∈ bs, R a b := by
  induction h with
  | nil => simp
  | cons h _ ih =>
    intro a ha
    rcases List.mem_cons.mp ha with rfl | ha
    · exact ⟨_, List.mem_cons_self, h⟩
    · obtain ⟨b, hb, hr⟩ := ih a ha
      exact ⟨b, List.mem_cons_of_mem _ hb, hr⟩

theorem forall₂_met {α β} {R : α → β → Prop} {as : List α} {bs : List β} (h : List.Forall₂ R as bs) :
    ∀ b ∈ bs, ∃ a ∈ as, R a b := by
  induction h with
  | nil => simp
  | cons h _ ih =>
    intro b hb
    rcases List.mem_cons.mp hb with rfl | hb
    · exact ⟨_, List.mem_cons_self, h⟩
    · obtain ⟨a, ha, hr⟩ := ih b hb
      exact ⟨a, List.mem_cons_of_mem _ ha, hr⟩

theorem fuzzCommand_runs {checks : Bool} {c : Ctx} {cfg : Config} {x : Exe × Str} {cmd : Cmd}
    (h : fuzzCommand checks o c llvm cfg x.1 x.2 = .ok cmd) : RunsTarget cmd x := by
  obtain ⟨corpus, out, t, -, -, -, -, -, ha, -⟩ := fuzzCommand_ok h
  unfold RunsTarget
  rw [ha, ← List.append_assoc]
  exact List.suffix_append _ _

/-- A command runs one target. -/
theorem Spec.RunsTarget.unique {c : Cmd} {x x' : Exe × Str} (h : RunsTarget c x) (h' : RunsTarget c x') :
    x.1.path = x'.1.path ∧ x.2 = x'.2 := by
  obtain ⟨a, ha⟩ := h
  obtain ⟨b, hb⟩ := h'
  have e := List.append_inj' (ha.trans hb.symm) rfl
  simp only [List.cons.injEq, true_and, and_true] at e
  exact ⟨e.2.1, List.append_cancel_right e.2.2⟩

/-! ## C107 -/

/-- **C107 (commands).** Each fuzzer that the loop starts is for one of the targets, and gets the target's output directory. It reads
the target's corpus if it is the first one for the target and `--resume` is not given; otherwise it goes on where the one before
it ended. -/
theorem C107_commands {s w l} (h : LoopReach fz o y llvm k ets w₀ s w l)
    (hd : (ets.map fun x => (x.1.path, x.2)).Nodup) (pre post : List (Cmd × FS)) (c : Cmd) (F : FS)
    (hl : l = pre ++ (c, F) :: post) :
    ∃ x ∈ ets, ∃ corpus out input rest, corpusDirFromTarget y.ctx x.1.name x.2 = .ok corpus ∧
      outputDirFromTarget y.ctx x.1.name x.2 = .ok out ∧ c.program = c%"cargo" ∧ RunsTarget c x ∧
      c.args = [c%"afl", c%"fuzz", c%"-c-", c%"-i", input, c%"-o", pathStr out] ++ rest ∧
      ((o.resume = false ∧ ∀ d ∈ pre, ¬ RunsTarget d.1 x) → input = pathStr corpus) ∧
      (¬ (o.resume = false ∧ ∀ d ∈ pre, ¬ RunsTarget d.1 x) → input = c%"-") := by
  have hc := h.commands
  rw [hl] at hc
  obtain ⟨A, ⟨t, f⟩, B, hA, hpre, ⟨x, hx, hcmd⟩, -⟩ := forall₂_at hc
  obtain ⟨lpre, sl, lpost, hlog, hAl⟩ := filterMap_startOf_split hA
  have hg := h.reach.inv.good.at lpre _ lpost hlog
  have hruns := fuzzCommand_runs hcmd
  obtain ⟨corpus, out, tm, h1, h2, -, h4, -, ha, -⟩ := fuzzCommand_ok hcmd
  have hf : f = true ↔ ∀ d ∈ pre, ¬ RunsTarget d.1 x := by
    rw [hg.2.2.2.2.1, starts_startOf, hAl]
    constructor
    · intro hno d hdm hr
      obtain ⟨a, ham, x', hx', hcd⟩ := forall₂_met hpre d hdm
      obtain ⟨e1, e2⟩ := (fuzzCommand_runs hcd).unique hr
      refine hno a ham ?_
      have hi : (ets.map fun x => (x.1.path, x.2))[a.1]? = (ets.map fun x => (x.1.path, x.2))[t]? := by
        rw [List.getElem?_map, List.getElem?_map, hx, hx']; simp [e1, e2]
      have hlt : a.1 < (ets.map fun x => (x.1.path, x.2)).length := by
        rw [List.length_map]; exact (List.getElem?_eq_some_iff.mp hx').1
      exact (List.getElem?_inj hlt hd).mp hi
    · intro hno a ham hat
      obtain ⟨d, hdm, x', hx', hcd⟩ := forall₂_meets hpre a ham
      rw [hat, hx] at hx'
      cases hx'
      exact hno d hdm (fuzzCommand_runs hcd)
  refine ⟨x, List.mem_of_getElem? hx, corpus, out, (if o.resume || !f then c%"-" else pathStr corpus),
    [c%"-M", c%"default"] ++ timeBoundArgs o ⟨!o.noUi, k.sufficient, f⟩ ++ tm ++ o.zzargs ++
      [c%"--", x.1.path, c%"--exact", x.2 ++ entrySuffix], h1, h2, h4, hruns, ha.trans ?_, ?_, ?_⟩
  · simp only [List.append_assoc, List.cons_append, List.nil_append]
  · rintro ⟨hr, hno⟩
    rw [hr, hf.mpr hno]; rfl
  · intro hno
    have : (o.resume || !f) = true := by
      cases hr : o.resume with
      | true => rfl
      | false =>
        cases f with
        | false => rfl
        | true => exact absurd ⟨hr, hf.mp rfl⟩ hno
    rw [if_pos this]

/-- Everything that holds at the beginning and is kept by the fuzzers and by making directories on the way to output directories
holds always, and whenever a fuzzer is started. -/
theorem Spec.LoopReach.keeps {P : FS → Prop} (h0 : P w₀.fs) (hfz : ∀ F G, fz F G → P F → P G)
    (hdir : ∀ F G, P F → ∀ x ∈ ets, ∀ out, outputDirFromTarget y.ctx x.1.name x.2 = .ok out → DirExt out F G → P G)
    {s w l} (h : LoopReach fz o y llvm k ets w₀ s w l) : P w.fs ∧ ∀ d ∈ l, P d.2 := by
  have step : ∀ {inp s w r w'}, P w.fs → iterateIO o y llvm k ets inp s y.plan w = (r, w') → P w'.fs := by
    intro inp s w r w' hp he
    have := iterateIO_fs (o := o) (y := y) (llvm := llvm) (k := k) (ets := ets) inp s y.plan w
    rw [he] at this
    rcases this with this | ⟨x, hx, out, h1, h2⟩
    · rw [this]; exact hp
    · exact hdir _ _ hp x hx out h1 h2
  induction h with
  | init => exact ⟨h0, by simp⟩
  | fuzzers _ hf ih => exact ⟨hfz _ _ hf ih.1, ih.2⟩
  | quiet _ he ih => exact ⟨step ih.1 he, ih.2⟩
  | started _ he ih =>
    have := step ih.1 he
    refine ⟨this, fun d hd => ?_⟩
    rcases List.mem_append.mp hd with hd | hd
    · exact ih.2 d hd
    · rw [List.mem_singleton] at hd; subst hd; exact this

/-- **C107 (frame).** A path that the fuzzers leave alone is as it was at the beginning, unless it was missing, leads to a
target's output directory, and is a directory now. This holds also if disk operations fail. -/
theorem C107_frame {s w l} (h : LoopReach fz o y llvm k ets w₀ s w l) (p : Path) (hp : ∀ F G, fz F G → G p = F p) (F : FS)
    (hF : F = w.fs ∨ ∃ c, (c, F) ∈ l) :
    F p = w₀.fs p ∨ (w₀.fs p = none ∧ F p = some .dir ∧
      ∃ x ∈ ets, ∃ out, outputDirFromTarget y.ctx x.1.name x.2 = .ok out ∧ p <+: out) := by
  have := h.keeps (P := fun F => F p = w₀.fs p ∨ (w₀.fs p = none ∧ F p = some .dir ∧
      ∃ x ∈ ets, ∃ out, outputDirFromTarget y.ctx x.1.name x.2 = .ok out ∧ p <+: out)) (Or.inl rfl)
    (fun F G hf h => by rw [hp F G hf]; exact h)
    (fun F G h x hx out ho he => by
      rcases he p with he | ⟨he1, he2, he3⟩
      · rw [he]; exact h
      · rcases h with h | ⟨h, h', -⟩
        · exact .inr ⟨h ▸ he1, he2, x, hx, out, ho, he3⟩
        · rw [h'] at he1; cases he1)
  rcases hF with rfl | ⟨c, hc⟩
  · exact this.1
  · exact this.2 _ hc

/-- If nothing is in the way, the directory is there afterwards. -/
theorem createDirAll_there {out : Path} {pl : Plan} {w : World} (hpl : pl w.tick = .ok) (hcr : Creatable w.fs out) :
    createDirAll out pl w = (.ok (), ⟨(mkdirs out.ancestors w.fs).1, w.tick + 1⟩) ∧
      (createDirAll out pl w).2.fs.isDir out = true := by
  obtain ⟨h1, h2, -⟩ := mkdirs_creatable out.ancestors w.fs (fun p hp b => hcr p b (ancestors_prefix out p hp))
  rcases hm : mkdirs out.ancestors w.fs with ⟨fs', b⟩
  rw [hm] at h1 h2
  simp only at h1 h2
  subst h1
  have e : createDirAll out pl w = (.ok (), ⟨fs', w.tick + 1⟩) := by
    simp [createDirAll, IOm.prim, hpl, hm]
  refine ⟨e, ?_⟩
  rw [e]
  unfold FS.isDir
  by_cases he : out = []
  · simp [he]
  · simp [h2 out (ancestors_self he)]

/-- **C107 (output directory).** Without I/O errors, the directory that a fuzzer is told to write to exists when the fuzzer is
started, if no file is in the way at the beginning and fuzzers put none there. -/
theorem C107_output {s w l} (hy : Reliable y) (h : LoopReach fz o y llvm k ets w₀ s w l)
    (hcr : ∀ x ∈ ets, ∀ out, outputDirFromTarget y.ctx x.1.name x.2 = .ok out → Creatable w₀.fs out)
    (hfz : ∀ F G, fz F G → ∀ x ∈ ets, ∀ out, outputDirFromTarget y.ctx x.1.name x.2 = .ok out →
      Creatable F out → Creatable G out) (c : Cmd) (F : FS) (hc : (c, F) ∈ l) :
    ∃ x ∈ ets, ∃ out, outputDirFromTarget y.ctx x.1.name x.2 = .ok out ∧ RunsTarget c x ∧
      [c%"-o", pathStr out] <:+: c.args ∧ F.isDir out = true := by
  have keeps := fun {s w l} (h : LoopReach fz o y llvm k ets w₀ s w l) => h.keeps
    (P := fun F => ∀ x ∈ ets, ∀ out, outputDirFromTarget y.ctx x.1.name x.2 = .ok out → Creatable F out) hcr
    (fun F G hf h x hx out ho => hfz F G hf x hx out ho (h x hx out ho))
    (fun F G h x hx out ho he x' hx' out' ho' q b hq hG => by
      rcases he q with he | ⟨-, he, -⟩
      · rw [he] at hG; exact h x' hx' out' ho' q b hq hG
      · rw [he] at hG; cases hG)
  induction h with
  | init => cases hc
  | fuzzers _ _ ih => exact ih hc
  | quiet _ _ ih => exact ih hc
  | started h he ih =>
    rcases List.mem_append.mp hc with hc | hc
    · exact ih hc
    rw [List.mem_singleton, Prod.mk.injEq] at hc
    obtain ⟨rfl, rfl⟩ := hc
    obtain ⟨-, ⟨-, hn, -⟩ | ⟨t, first, x, cmd, -, hx, hn, hf⟩⟩ := iterateIO_ok he
    · cases hn
    cases hn
    have hx := List.mem_of_getElem? hx
    have hcmd := fuzzCommandIO_ok (congrArg Prod.fst hf)
    obtain ⟨corpus, out, tm, -, ho, -, -, -, ha, -⟩ := fuzzCommand_ok hcmd
    refine ⟨x, hx, out, ho, fuzzCommand_runs hcmd, ?_, ?_⟩
    · rw [ha]
      refine ⟨[c%"afl", c%"fuzz", c%"-c-", c%"-i", if o.resume || !first then c%"-" else pathStr corpus],
        [c%"-M", c%"default"] ++ timeBoundArgs o ⟨!o.noUi, k.sufficient, first⟩ ++ tm ++ o.zzargs ++
          [c%"--", x.1.path, c%"--exact", x.2 ++ entrySuffix], ?_⟩
      simp only [List.append_assoc, List.cons_append, List.nil_append]
    · rename_i w1 _ _ _ _ _
      have := fuzzCommandIO_state (checks := y.checks) (o := o) (llvm := llvm) (cfg := ⟨!o.noUi, k.sufficient, first⟩) y.plan w1 ho
      rw [hf] at this
      simp only at this
      rw [this]
      exact (createDirAll_there (hy _) ((keeps h).1 x hx out ho)).2

/-- **C107 (corpus).** When the loop is entered after missing corpora were generated, then every fuzzer that is told to read a
corpus finds it – if generation runs and fuzzers remove nothing. -/
theorem C107_corpus (hy : Reliable y) (ha : OnlyAdds y) (st : RSt) (hok : (autoGenerateCorpora y llvm ets st).1 = .ok ())
    (hw : w₀.fs = (autoGenerateCorpora y llvm ets st).2.world.fs)
    (hfz : ∀ F G, fz F G → ∀ p, F p ≠ none → G p ≠ none)
    (hcd : ∀ e t, (e, t) ∈ ets → ∃ d, corpusDirFromTarget y.ctx e.name t = .ok d)
    {s w l} (h : LoopReach fz o y llvm k ets w₀ s w l) (c : Cmd) (F : FS) (hc : (c, F) ∈ l) :
    ∃ x ∈ ets, ∃ corpus, RunsTarget c x ∧ corpusDirFromTarget y.ctx x.1.name x.2 = .ok corpus ∧ F corpus ≠ none ∧
      (inputOption c.args = some (pathStr corpus) ∨ inputOption c.args = some c%"-") := by
  obtain ⟨⟨t, f⟩, -, x, hx, hcmd⟩ := forall₂_met h.commands _ hc
  have hx := List.mem_of_getElem? hx
  obtain ⟨corpus, out, tm, h1, -, -, -, -, ha', -⟩ := fuzzCommand_ok hcmd
  refine ⟨x, hx, corpus, fuzzCommand_runs hcmd, h1, ?_, ?_⟩
  · refine (h.keeps (P := fun F => F corpus ≠ none) ?_ (fun F G hf h => hfz F G hf _ h) ?_).2 _ hc
    · rw [hw]
      exact C21_all_there y hy ha llvm ets st hok x.1 x.2 corpus hx hcd h1
    · intro F G h x hx out ho he
      rcases he corpus with he | ⟨he, -, -⟩
      · rw [he]; exact h
      · exact absurd he h
  · rw [ha']
    cases o.resume <;> cases f <;> simp [inputOption]

/-- What an iteration is going to start is the fuzzer of a target. -/
theorem starting_lt {inp : Inp} {s : FState} {t : Nat} {first : Bool} (h : starting k inp s = some (t, first)) : t < k.n := by
  unfold starting at h
  split at h
  · split at h
    · cases h
    · next hn =>
      have h0 : 0 < k.n := by
        apply Nat.pos_of_ne_zero
        intro h0
        simp [h0] at hn
      split at h
      · simp only at h
        split at h
        · simp only [Option.some.injEq, Prod.mk.injEq] at h
          rw [← h.1]
          exact Nat.mod_lt _ h0
        · cases h
      · cases h
  · cases h

/-- Building the command of a fuzzer does not fail. -/
def Buildable (o : Opts) (y : Sys) (llvm : List (Str × Str)) (k : FCfg) (ets : List (Exe × Str)) : Prop :=
  ∀ x ∈ ets, ∀ first, ∃ cmd, fuzzCommand y.checks o y.ctx llvm ⟨!o.noUi, k.sufficient, first⟩ x.1 x.2 = .ok cmd

theorem fuzzCommandIO_reliable (hy : Reliable y) {cfg : Config} {x : Exe × Str} {cmd : Cmd}
    (h : fuzzCommand y.checks o y.ctx llvm cfg x.1 x.2 = .ok cmd) (w : World) :
    (fuzzCommandIO y.checks o y.ctx llvm cfg x.1 x.2 y.plan w).1 = .ok cmd := by
  obtain ⟨corpus, out, tm, -, ho, -⟩ := fuzzCommand_ok h
  unfold fuzzCommandIO
  rw [ho]
  have hi : ∃ w', IOm.ignore (createDirAll out) y.plan w = (.ok (), w') := by
    unfold IOm.ignore createDirAll IOm.prim
    rw [hy]
    rcases hm : mkdirs out.ancestors w.fs with ⟨fs', b⟩
    cases b <;> simp only [hm] <;> exact ⟨_, rfl⟩
  obtain ⟨w', hi⟩ := hi
  simp only [Bind.bind, IOm.bind, IOm.lift, hi, h]

/-- **C107 (outcome).** Without I/O errors, an iteration ends as its decisions say, whatever is on the disk: a directory that
cannot be made does not stop the loop. -/
theorem C107_outcome (hy : Reliable y) (hk : k.n = ets.length) (hb : Buildable o y llvm k ets) (inp : Inp) (s : FState) (w : World) :
    ((iterateIO o y llvm k ets inp s y.plan w).1 >>= fun p => .ok p.1) = iterate k inp s := by
  have lifted : ∀ (x : Out Next) (c : Option Cmd) (w : World),
      (((IOm.lift x >>= fun a => (pure (a, c) : IOm (Next × Option Cmd))) y.plan w).1 >>= fun p => .ok p.1) = x := by
    intro x c w
    cases x <;> rfl
  unfold iterateIO
  rcases hs : starting k inp s with _ | ⟨t, first⟩ <;> simp only
  · exact lifted _ _ _
  · have hlt := starting_lt hs
    rw [hk] at hlt
    rw [List.getElem?_eq_getElem hlt]
    simp only
    obtain ⟨cmd, hcmd⟩ := hb ets[t] (List.getElem_mem hlt) first
    have := fuzzCommandIO_reliable hy hcmd w
    rw [IOm.bind_run]
    rcases hf : fuzzCommandIO y.checks o y.ctx llvm ⟨!o.noUi, k.sufficient, first⟩ ets[t].1 ets[t].2 y.plan w with ⟨r, w1⟩
    rw [hf] at this
    simp only at this
    subst this
    exact lifted _ _ _

/-- **C107 (refinement).** The states of the loop with its commands and files are those of the loop of `Verif.Model.Fuzz`. -/
theorem C107_refines (hy : Reliable y) (hk : k.n = ets.length) (hb : Buildable o y llvm k ets) (s : FState) :
    (∃ w l, LoopReach fz o y llvm k ets w₀ s w l) ↔ Reach k s := by
  constructor
  · rintro ⟨w, l, h⟩; exact h.reach
  · intro h
    induction h with
    | init => exact ⟨_, _, .init⟩
    | @step s s' inp _ hi ih =>
      obtain ⟨w, l, h⟩ := ih
      have := C107_outcome hy hk hb inp s w
      rw [hi] at this
      rcases hr : iterateIO o y llvm k ets inp s y.plan w with ⟨r, w'⟩
      rw [hr] at this
      cases r with
      | ok p =>
        obtain ⟨n, c⟩ := p
        simp only [Out.ok_bind, Out.ok.injEq] at this
        subst this
        cases c with
        | none => exact ⟨_, _, .quiet h hr⟩
        | some c => exact ⟨_, _, .started h hr⟩
      | _ => cases this

end

/-! ## A case -/

namespace LoopDemo

/-- The loop on a list of inputs. Before each iteration the fuzzers change the files. -/
def go (o : Opts) (y : Sys) (k : FCfg) (ets : List (Exe × Str)) :
    List (FS → FS) → List Inp → FState → World → List (Cmd × FS) → Option (FState × World × List (Cmd × FS))
  | g :: gs, i :: is, s, w, l =>
    match iterateIO o y [] k ets i s y.plan ⟨g w.fs, w.tick⟩ with
    | (.ok (.cont s', none), w') => go o y k ets gs is s' w' l
    | (.ok (.cont s', some c), w') => go o y k ets gs is s' w' (l ++ [(c, w'.fs)])
    | _ => none
  | _, _, s, w, l => some (s, w, l)

theorem go_reach {fz : FS → FS → Prop} {o : Opts} {y : Sys} {k : FCfg} {ets : List (Exe × Str)} {w₀ : World} :
    ∀ (gs : List (FS → FS)) (is : List Inp) (s : FState) (w : World) (l : List (Cmd × FS)) (r : FState × World × List (Cmd × FS)),
      (∀ g ∈ gs, ∀ F, fz F (g F)) → LoopReach fz o y [] k ets w₀ s w l → go o y k ets gs is s w l = some r →
      LoopReach fz o y [] k ets w₀ r.1 r.2.1 r.2.2
  | [], _, s, w, l, r, _, h, he => by unfold go at he; cases he; exact h
  | _ :: _, [], s, w, l, r, _, h, he => by unfold go at he; cases he; exact h
  | g :: gs, i :: is, s, w, l, r, hg, h, he => by
    unfold go at he
    have h1 := LoopReach.fuzzers h (hg g (by simp) w.fs)
    have hg' : ∀ g' ∈ gs, ∀ F, fz F (g' F) := fun g' hm => hg g' (List.mem_cons_of_mem _ hm)
    split at he
    · next s' w' hi => exact go_reach gs is s' w' l r hg' (.quiet h1 hi) he
    · next s' c w' hi => exact go_reach gs is s' w' _ r hg' (.started h1 hi) he
    · cases he

open Demo

def o : Opts := { cpus := some 1, slice := 1200, noUi := true }

def ets : List (Exe × Str) := [(exe, c%"a"), (exe, c%"b")]

def k : FCfg := ⟨[c%"a", c%"b"], 1, true, false, List.length⟩

/-- Both targets have a corpus. -/
def files : FS := fun p => if p = corpus c%"b" then some .dir else fs p

def world : World := ⟨files, 0⟩

def out (t : Str) : Path := [c%"t", c%"afl", c%"output", c%"p::" ++ t]

/-- Fuzzers write below their output directories. -/
def fz : FS → FS → Prop := fun F G => ∀ p, ¬ (out c%"a" <+: p ∧ p ≠ out c%"a") → ¬ (out c%"b" <+: p ∧ p ≠ out c%"b") → G p = F p

/-- A fuzzer writes a file. -/
def writes : FS → FS := fun F => F.set (out c%"a" ++ [c%"f"]) (some (.file [7]))

/-- Each fuzzer runs for its slice. -/
def inps : List Inp :=
  [quiet, evs [endEv 0 (limitLine ++ abortedLine) true], quiet, evs [endEv 1 (limitLine ++ abortedLine) true], quiet]

theorem run_is : (go o sys k ets [id, writes, id, id, id] inps (FState.init k) world []).map (fun r => r.2.2.map fun d =>
      (inputOption d.1.args, d.2 (out c%"a"), d.2 (out c%"b"), d.2 (out c%"a" ++ [c%"f"]))) =
    some [(some c%"/t/corpus/p::a", some .dir, none, none), (some c%"/t/corpus/p::b", some .dir, some .dir, some (.file [7])),
      (some c%"-", some .dir, some .dir, some (.file [7]))] := by decide +kernel

theorem writes_fz (F : FS) : fz F (writes F) := by
  intro p h _
  unfold writes FS.set
  split
  · next hp => exact absurd ⟨hp ▸ List.prefix_append _ _, by rw [hp]; decide⟩ h
  · rfl

/-- The loop starts a fuzzer for `a`, one for `b` and another one for `a`, which goes on where the first one ended. -/
theorem reached : ∃ s w l, LoopReach fz o sys [] k ets world s w l ∧
    l.map (fun d => inputOption d.1.args) = [some c%"/t/corpus/p::a", some c%"/t/corpus/p::b", some c%"-"] := by
  obtain ⟨r, h1, h2⟩ := Option.map_eq_some_iff.mp run_is
  refine ⟨r.1, r.2.1, r.2.2, go_reach (fz := fz) _ _ _ _ _ r ?_ .init h1, ?_⟩
  · intro g hg F
    simp only [List.mem_cons, List.not_mem_nil, or_false] at hg
    rcases hg with rfl | rfl | rfl | rfl | rfl
    · exact fun _ _ _ => rfl
    · exact writes_fz F
    all_goals exact fun _ _ _ => rfl
  · have := congrArg (List.map Prod.fst) h2
    rw [List.map_map] at this
    exact this

/-- The hypotheses about targets, disk, commands and generation. -/
example : (ets.map fun x => (x.1.path, x.2)).Nodup ∧ Reliable sys ∧ k.n = ets.length ∧ OnlyAdds sys ∧
    (autoGenerateCorpora sys [] ets ⟨world, []⟩).1 = .ok () ∧
    (∀ x ∈ ets, outputDirFromTarget sys.ctx x.1.name x.2 = .ok (out x.2)) :=
  ⟨by decide, fun _ => rfl, rfl, fun _ _ _ _ h => h, by decide +kernel, by decide +kernel⟩

example : Buildable o sys [] k ets := by
  intro x hx first
  simp only [ets, List.mem_cons, List.not_mem_nil, or_false] at hx
  rcases hx with rfl | rfl <;> exact ⟨_, rfl⟩

/-- No file is in the way, and fuzzers put none there. -/
example : (∀ x ∈ ets, Creatable world.fs (out x.2)) ∧ ∀ F G, fz F G → ∀ x ∈ ets, Creatable F (out x.2) → Creatable G (out x.2) := by
  have notBelow : ∀ t u q, q <+: out u → ¬ (out t <+: q ∧ q ≠ out t) := by
    rintro t u q hq ⟨h1, h2⟩
    have e1 : (out t).length = (out u).length := rfl
    have := h1.length_le
    have := hq.length_le
    exact h2 (h1.eq_of_length (by omega)).symm
  constructor
  · intro x _ q b hq hf
    have hlen := hq.length_le
    have : world.fs q = none ∨ world.fs q = some .dir ∨ ∃ n, q = corpus c%"a" ++ [n] := by
      unfold world files fs
      simp only
      split
      · exact .inr (.inl rfl)
      · split
        · exact .inr (.inl rfl)
        · split
          · next h => exact .inr (.inr ⟨_, h⟩)
          · split
            · next h => exact .inr (.inr ⟨_, h⟩)
            · exact .inl rfl
    rcases this with h | h | ⟨n, rfl⟩
    · rw [h] at hf; cases hf
    · rw [h] at hf; cases hf
    · obtain ⟨r, hr⟩ := hq
      simp [corpus, out] at hr
  · intro F G h x _ hF q b hq
    rw [h q (notBelow _ _ q hq) (notBelow _ _ q hq)]
    exact hF q b hq

end LoopDemo

end TF
