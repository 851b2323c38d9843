import Verif.Model.Storage
import Verif.Lemmas.Fs
import Verif.Spec.Storage
import Verif.Spec.Selection

/-! Lemmas about consolidation and reset. -/

namespace TF

open Spec

theorem IOm.bind_assoc {α β γ} (x : IOm α) (f : α → IOm β) (g : β → IOm γ) :
    (x >>= f) >>= g = x >>= fun a => f a >>= g := by
  funext pl w
  simp only [IOm.bind_run]
  rcases x pl w with ⟨o, w1⟩
  cases o <;> rfl

theorem IOm.pure_bind {α β} (a : α) (f : α → IOm β) : (pure a : IOm α) >>= f = f a := rfl

theorem IOm.lift_ok_bind {α β} (a : α) (f : α → IOm β) : IOm.lift (.ok a) >>= f = f a := rfl

/-! ### Paths -/

theorem prefix_comparable {p q r : Path} (h1 : p <+: r) (h2 : q <+: r) : p <+: q ∨ q <+: p := by
  rcases Nat.le_total p.length q.length with h | h
  · exact Or.inl (List.prefix_of_prefix_length_le h1 h2 h)
  · exact Or.inr (List.prefix_of_prefix_length_le h2 h1 h)

theorem apart_below {p q x : Path} (h : Apart p q) (hx : q <+: x) : Apart p x := by
  constructor
  · intro hp
    rcases prefix_comparable hp hx with h' | h'
    · exact h.1 h'
    · exact h.2 h'
  · intro hp
    exact h.2 (hx.trans hp)

/-! ### Frame of recording into corpora -/

/-- `fs'` differs from `fs` only below the directories in `C`, apart from new directories above them. -/
def FrameC (C : Path → Prop) (fs fs' : FS) : Prop :=
  ∀ q, (∀ c, C c → ¬ c <+: q) → fs' q = fs q ∨ (fs q = none ∧ fs' q = some .dir ∧ ∃ c, C c ∧ q <+: c)

theorem FrameC.refl (C : Path → Prop) (fs : FS) : FrameC C fs fs := fun _ _ => Or.inl rfl

theorem FrameC.trans {C : Path → Prop} {a b c : FS} (h1 : FrameC C a b) (h2 : FrameC C b c) :
    FrameC C a c := by
  intro q hq
  rcases h1 q hq with h | ⟨h, h', h''⟩
  · rcases h2 q hq with k | ⟨k, k', k''⟩
    · exact Or.inl (k.trans h)
    · exact Or.inr ⟨h ▸ k, k', k''⟩
  · rcases h2 q hq with k | ⟨k, k', k''⟩
    · exact Or.inr ⟨h, k.trans h', h''⟩
    · rw [h'] at k; cases k

theorem FrameC.mono {C D : Path → Prop} {a b : FS} (h : FrameC C a b) (hCD : ∀ c, C c → D c) :
    FrameC D a b := by
  intro q hq
  rcases h q (fun c hc => hq c (hCD c hc)) with h | ⟨h1, h2, c, hc, h3⟩
  · exact Or.inl h
  · exact Or.inr ⟨h1, h2, c, hCD c hc, h3⟩

theorem FrameC.below {C : Path → Prop} {a b : FS} (h : FrameC C a b) {out q : Path}
    (hap : ∀ c, C c → Apart c out) (hq : out <+: q) : b q = a q := by
  rcases h q (fun c hc => (apart_below (hap c hc) hq).1) with h | ⟨-, -, c, hc, h⟩
  · exact h
  · exact absurd h (apart_below (hap c hc) hq).2

theorem writeData_frame (dir : Path) (data : Bytes) (pl : Plan) (w : World) :
    FrameC (· = dir) w.fs (writeData dir data pl w).2.fs := by
  obtain ⟨fs1, hext, hfs⟩ := writeData_cases dir data pl w
  intro q hq
  have hne : q ≠ dataPath dir data := by
    intro e
    exact hq dir rfl (e ▸ List.prefix_append _ _)
  have h1 : (writeData dir data pl w).2.fs q = fs1 q := by
    rcases hfs with h | ⟨k, h⟩
    · rw [h]
    · simp [h, FS.set, hne]
  rw [h1]
  rcases hext q with h | ⟨h, h', h''⟩
  · exact Or.inl h
  · exact Or.inr ⟨h, h', dir, rfl, h''⟩

theorem readFile_fs (p : Path) (pl : Plan) (w : World) : (readFile p pl w).2.fs = w.fs := by
  unfold readFile IOm.prim
  cases pl w.tick with
  | ok =>
    simp only
    cases h : w.fs p with
    | none => rfl
    | some n => cases n <;> rfl
  | err q => rfl
  | crash q => rfl

theorem readFile_ok {p : Path} {pl : Plan} {w w' : World} {d : Bytes}
    (h : readFile p pl w = (.ok d, w')) : HasFile w.fs p d ∧ w'.fs = w.fs := by
  have h2 := readFile_fs p pl w
  rw [h] at h2
  refine ⟨?_, h2⟩
  unfold readFile IOm.prim at h
  cases hp : pl w.tick with
  | ok =>
    rw [hp] at h
    simp only at h
    cases hf : w.fs p with
    | none => rw [hf] at h; simp at h
    | some n =>
      rw [hf] at h
      cases n with
      | dir => simp at h
      | file b =>
        simp only [Prod.mk.injEq, Out.ok.injEq] at h
        rw [HasFile, hf, h.1]
  | err q => rw [hp] at h; simp at h
  | crash q => rw [hp] at h; simp at h

theorem readDir_fs (ls : Lister) (p : Path) (pl : Plan) (w : World) : (readDir ls p pl w).2.fs = w.fs := by
  unfold readDir IOm.prim
  cases pl w.tick with
  | ok => simp only; split <;> (try rfl); next h => split at h <;> simp_all
  | err q => rfl
  | crash q => rfl

theorem readDir_ok {ls : Lister} {p : Path} {pl : Plan} {w w' : World} {l : List Str}
    (h : readDir ls p pl w = (.ok l, w')) : l = ls w.fs p ∧ w'.fs = w.fs := by
  have h2 := readDir_fs ls p pl w
  rw [h] at h2
  refine ⟨?_, h2⟩
  unfold readDir IOm.prim at h
  cases hp : pl w.tick with
  | ok =>
    rw [hp] at h
    simp only at h
    by_cases hd : w.fs.isDir p = true
    · simp only [hd, if_true, Prod.mk.injEq, Out.ok.injEq] at h
      exact h.1.symm
    · simp [hd] at h
  | err q => rw [hp] at h; simp at h
  | crash q => rw [hp] at h; simp at h

/-- Composition of frames along `>>=`, whatever the outcome. -/
theorem frame_bind {α β} {C : Path → Prop} {x : IOm α} {f : α → IOm β} {pl : Plan} {w : World}
    (hx : FrameC C w.fs (x pl w).2.fs)
    (hf : ∀ a w1, x pl w = (.ok a, w1) → FrameC C w1.fs (f a pl w1).2.fs) :
    FrameC C w.fs ((x >>= f) pl w).2.fs := by
  rcases IOm.bind_cases x f pl w with ⟨a, w1, h1, h2⟩ | ⟨-, h2, -⟩
  · rw [h2]
    rw [h1] at hx
    exact hx.trans (hf a w1 h1)
  · rw [h2]; exact hx

theorem frame_lift {α} {C : Path → Prop} (x : Out α) (pl : Plan) (w : World) :
    FrameC C w.fs ((IOm.lift x) pl w).2.fs := FrameC.refl _ _

theorem consolidateEntries_frame (corpus dir : Path) (ns : List Str) (pl : Plan) (w : World) :
    FrameC (· = corpus) w.fs (consolidateEntries corpus dir ns pl w).2.fs := by
  induction ns generalizing w with
  | nil => exact FrameC.refl _ _
  | cons n ns ih =>
    unfold consolidateEntries
    split
    · exact ih w
    · refine frame_bind (by rw [readFile_fs]; exact FrameC.refl _ _) (fun a w1 _ => ?_)
      exact frame_bind (writeData_frame _ _ _ _) (fun _ w2 _ => ih w2)

theorem consolidateDir_frame (ls : Lister) (corpus dir : Path) (pl : Plan) (w : World) :
    FrameC (· = corpus) w.fs (consolidateDir ls corpus dir pl w).2.fs := by
  unfold consolidateDir
  exact frame_bind (by rw [readDir_fs]; exact FrameC.refl _ _)
    (fun _ w1 _ => consolidateEntries_frame _ _ _ _ _)

/-! ### What successful consolidation writes -/

/-- `fs'` is `fs` after writing the listed data into the listed directories. -/
def RecRel (ws : List (Path × Bytes)) (fs fs' : FS) : Prop :=
  ∀ q, (∃ x ∈ ws, q = x.1 ++ [fileName x.2] ∧ HasFile fs' q x.2) ∨
    ((∀ x ∈ ws, q ≠ x.1 ++ [fileName x.2]) ∧
      (fs' q = fs q ∨ (fs q = none ∧ fs' q = some .dir ∧ ∃ x ∈ ws, q <+: x.1)))

theorem RecRel.nil (fs : FS) : RecRel [] fs fs := fun _ => Or.inr ⟨by simp, Or.inl rfl⟩

theorem RecRel.trans {ws1 ws2 : List (Path × Bytes)} {a b c : FS} (h1 : RecRel ws1 a b)
    (h2 : RecRel ws2 b c) : RecRel (ws1 ++ ws2) a c := by
  intro q
  rcases h2 q with ⟨x, hx, hq, hf⟩ | ⟨hno2, hc⟩
  · exact Or.inl ⟨x, List.mem_append_right _ hx, hq, hf⟩
  · rcases h1 q with ⟨x, hx, hq, hf⟩ | ⟨hno1, hb⟩
    · refine Or.inl ⟨x, List.mem_append_left _ hx, hq, ?_⟩
      rcases hc with hc | ⟨hn, -, -⟩
      · unfold HasFile at hf ⊢; rw [hc, hf]
      · unfold HasFile at hf; rw [hn] at hf; cases hf
    · refine Or.inr ⟨?_, ?_⟩
      · intro x hx
        rcases List.mem_append.mp hx with hx | hx
        · exact hno1 x hx
        · exact hno2 x hx
      · rcases hc with hc | ⟨hn, hd, x, hx, hp⟩
        · rcases hb with hb | ⟨hn, hd, x, hx, hp⟩
          · exact Or.inl (hc.trans hb)
          · exact Or.inr ⟨hn, hc.trans hd, x, List.mem_append_left _ hx, hp⟩
        · rcases hb with hb | ⟨_, hd', _⟩
          · exact Or.inr ⟨hb ▸ hn, hd, x, List.mem_append_right _ hx, hp⟩
          · rw [hd'] at hn; cases hn

theorem writeData_rec {dir : Path} {data : Bytes} {pl : Plan} {w w' : World}
    (h : writeData dir data pl w = (.ok (), w')) : RecRel [(dir, data)] w.fs w'.fs := by
  obtain ⟨fs1, hext, hfs⟩ := writeData_ok h
  intro q
  by_cases hq : q = dir ++ [fileName data]
  · exact Or.inl ⟨(dir, data), by simp, hq, by simp [HasFile, hfs, FS.set, dataPath, hq]⟩
  · refine Or.inr ⟨by simpa using hq, ?_⟩
    have : w'.fs q = fs1 q := by simp [hfs, FS.set, dataPath, hq]
    rw [this]
    rcases hext q with h | ⟨h, h', h''⟩
    · exact Or.inl h
    · exact Or.inr ⟨h, h', (dir, data), by simp, h''⟩

/-- Below a directory apart from the corpora nothing changes. -/
theorem hasFile_frame {C : Path → Prop} {a b : FS} (h : FrameC C a b) {out q : Path} {d : Bytes}
    (hap : ∀ c, C c → Apart c out) (hq : out <+: q) : HasFile b q d ↔ HasFile a q d := by
  unfold HasFile; rw [h.below hap hq]

theorem consolidateEntries_ok {corpus dir : Path} (hap : Apart corpus dir) {ns : List Str} {pl : Plan}
    {w w' : World} (h : consolidateEntries corpus dir ns pl w = (.ok (), w')) :
    ∃ ds : List Bytes, RecRel (ds.map fun d => (corpus, d)) w.fs w'.fs ∧
      (∀ n ∈ ns, skipName n = false → ∃ b ∈ ds, HasFile w.fs (dir ++ [n]) b) ∧
      (∀ b ∈ ds, ∃ n ∈ ns, skipName n = false ∧ HasFile w.fs (dir ++ [n]) b) := by
  induction ns generalizing w with
  | nil =>
    simp only [consolidateEntries, IOm.pure_run, Prod.mk.injEq] at h
    rw [← h.2]
    exact ⟨[], RecRel.nil _, by simp, by simp⟩
  | cons n ns ih =>
    unfold consolidateEntries at h
    split at h
    · next hs =>
      obtain ⟨ds, h1, h2, h3⟩ := ih h
      refine ⟨ds, h1, ?_, ?_⟩
      · intro m hm hms
        rcases List.mem_cons.mp hm with rfl | hm
        · rw [hs] at hms; cases hms
        · exact h2 m hm hms
      · intro b hb
        obtain ⟨m, hm, hms, hf⟩ := h3 b hb
        exact ⟨m, List.mem_cons_of_mem _ hm, hms, hf⟩
    · next hs =>
      obtain ⟨data, w1, h1, h2⟩ := IOm.bind_ok h
      obtain ⟨u, w2, h3, h4⟩ := IOm.bind_ok h2
      obtain ⟨hfile, hw1⟩ := readFile_ok h1
      have hrec := writeData_rec h3
      rw [hw1] at hrec
      have hframe : FrameC (· = corpus) w.fs w2.fs := by
        have := writeData_frame corpus data pl w1
        rw [h3, hw1] at this
        exact this
      have hap' : ∀ c, c = corpus → Apart c dir := fun c hc => hc ▸ hap
      obtain ⟨ds, k1, k2, k3⟩ := ih h4
      refine ⟨data :: ds, hrec.trans k1, ?_, ?_⟩
      · intro m hm hms
        rcases List.mem_cons.mp hm with rfl | hm
        · exact ⟨data, List.mem_cons_self, hfile⟩
        · obtain ⟨b, hb, hf⟩ := k2 m hm hms
          exact ⟨b, List.mem_cons_of_mem _ hb,
            (hasFile_frame hframe hap' (List.prefix_append _ _)).mp hf⟩
      · intro b hb
        rcases List.mem_cons.mp hb with rfl | hb
        · exact ⟨n, List.mem_cons_self, by simpa using hs, hfile⟩
        · obtain ⟨m, hm, hms, hf⟩ := k3 b hb
          exact ⟨m, List.mem_cons_of_mem _ hm, hms,
            (hasFile_frame hframe hap' (List.prefix_append _ _)).mp hf⟩

theorem consolidateDir_ok {ls : Lister} (hls : GoodLister ls) {corpus dir : Path} (hap : Apart corpus dir)
    {pl : Plan} {w w' : World} (hfin : FiniteDir w.fs dir)
    (h : consolidateDir ls corpus dir pl w = (.ok (), w')) :
    ∃ ds : List Bytes, RecRel (ds.map fun d => (corpus, d)) w.fs w'.fs ∧
      ∀ b, b ∈ ds ↔ ∃ n, skipName n = false ∧ HasFile w.fs (dir ++ [n]) b := by
  unfold consolidateDir at h
  obtain ⟨ns, w1, h1, h2⟩ := IOm.bind_ok h
  obtain ⟨hns, hw1⟩ := readDir_ok h1
  have hcor := (hls _ _ hfin).2
  obtain ⟨ds, k1, k2, k3⟩ := consolidateEntries_ok hap h2
  rw [hw1] at k1 k2 k3
  refine ⟨ds, k1, ?_⟩
  intro b
  constructor
  · intro hb
    obtain ⟨n, -, hs, hf⟩ := k3 b hb
    exact ⟨n, hs, hf⟩
  · rintro ⟨n, hs, hf⟩
    have hn : n ∈ ns := by
      rw [hns, hcor n]
      unfold HasFile at hf
      simp [hf]
    obtain ⟨b', hb', hf'⟩ := k2 n hn hs
    unfold HasFile at hf hf'
    rw [hf] at hf'
    simp only [Option.some.injEq, Node.file.injEq] at hf'
    exact hf' ▸ hb'

theorem skipName_false (n : Str) : skipName n = false ↔ n ≠ c%"README.txt" ∧ n ≠ c%".state" := by
  simp [skipName]

theorem findingDirs {c : Ctx} {k t : Str} {out : Path} (h : outputDirFromTarget c k t = .ok out) :
    crashesDirFromTarget c k t = .ok (out ++ [c%"default", c%"crashes"]) ∧
    hangsDirFromTarget c k t = .ok (out ++ [c%"default", c%"hangs"]) ∧
    queueDirFromTarget c k t = .ok (out ++ [c%"default", c%"queue"]) := by
  simp only [crashesDirFromTarget, hangsDirFromTarget, queueDirFromTarget, h, Out.ok_bind]
  exact ⟨rfl, rfl, rfl⟩

theorem FiniteDir.frame {C : Path → Prop} {a b : FS} (h : FrameC C a b) {out d : Path}
    (hap : ∀ c, C c → Apart c out) (hd : out <+: d) (hf : FiniteDir a d) : FiniteDir b d := by
  obtain ⟨l, hl⟩ := hf
  refine ⟨l, fun n => ?_⟩
  rw [hl n, h.below hap (hd.trans (List.prefix_append _ _))]

theorem IsFinding.frame {C : Path → Prop} {a b : FS} (h : FrameC C a b) {out : Path}
    (hap : ∀ c, C c → Apart c out) (p : Path) (d : Bytes) : IsFinding b out p d ↔ IsFinding a out p d := by
  unfold IsFinding
  constructor <;>
  · rintro ⟨sub, name, h1, h2, h3, h4, h5⟩
    refine ⟨sub, name, h1, h2, h3, h4, ?_⟩
    have hp : out <+: p := h4 ▸ List.prefix_append _ _
    first
      | exact (hasFile_frame h hap hp).mp h5
      | exact (hasFile_frame h hap hp).mpr h5

theorem consolidateTarget_frame {c : Ctx} {k t : Str} {corp out : Path} (ls : Lister)
    (hC : corpusDirFromTarget c k t = .ok corp) (hO : outputDirFromTarget c k t = .ok out)
    (pl : Plan) (w : World) : FrameC (· = corp) w.fs (consolidateTarget c ls k t pl w).2.fs := by
  obtain ⟨h1, h2, h3⟩ := findingDirs hO
  unfold consolidateTarget
  rw [hC, h1, h2, h3]
  simp only [IOm.lift_ok_bind]
  exact frame_bind (consolidateDir_frame _ _ _ _ _) fun _ w1 _ =>
    frame_bind (consolidateDir_frame _ _ _ _ _) fun _ w2 _ => consolidateDir_frame _ _ _ _ _

theorem consolidateTarget_ok {c : Ctx} {k t : Str} {corp out : Path} {ls : Lister} (hls : GoodLister ls)
    (hC : corpusDirFromTarget c k t = .ok corp) (hO : outputDirFromTarget c k t = .ok out)
    (hap : Apart corp out) {pl : Plan} {w w' : World}
    (hfin : ∀ sub ∈ [c%"crashes", c%"hangs", c%"queue"], FiniteDir w.fs (out ++ [c%"default", sub]))
    (h : consolidateTarget c ls k t pl w = (.ok (), w')) :
    ∃ ds : List Bytes, RecRel (ds.map fun d => (corp, d)) w.fs w'.fs ∧
      ∀ b, b ∈ ds ↔ ∃ p, IsFinding w.fs out p b := by
  obtain ⟨e1, e2, e3⟩ := findingDirs hO
  unfold consolidateTarget at h
  rw [hC, e1, e2, e3] at h
  simp only [IOm.lift_ok_bind] at h
  obtain ⟨_, w1, h1, h⟩ := IOm.bind_ok h
  obtain ⟨_, w2, h2, h3⟩ := IOm.bind_ok h
  have hap' : ∀ x, x = corp → Apart x out := fun x hx => hx ▸ hap
  have f1 : FrameC (· = corp) w.fs w1.fs := by
    have := consolidateDir_frame ls corp (out ++ [c%"default", c%"crashes"]) pl w
    rw [h1] at this; exact this
  have f2 : FrameC (· = corp) w1.fs w2.fs := by
    have := consolidateDir_frame ls corp (out ++ [c%"default", c%"hangs"]) pl w1
    rw [h2] at this; exact this
  have f12 := f1.trans f2
  have hsub : ∀ sub, out <+: out ++ [c%"default", sub] := fun sub => List.prefix_append _ _
  obtain ⟨d1, r1, m1⟩ := consolidateDir_ok hls (apart_below hap (hsub _)) (hfin _ (by simp)) h1
  obtain ⟨d2, r2, m2⟩ := consolidateDir_ok hls (apart_below hap (hsub _))
    (FiniteDir.frame f1 hap' (hsub _) (hfin _ (by simp))) h2
  obtain ⟨d3, r3, m3⟩ := consolidateDir_ok hls (apart_below hap (hsub _))
    (FiniteDir.frame f12 hap' (hsub _) (hfin _ (by simp))) h3
  refine ⟨d1 ++ (d2 ++ d3), ?_, ?_⟩
  · rw [List.map_append, List.map_append]
    exact r1.trans (r2.trans r3)
  · intro b
    have key : ∀ sub, sub ∈ [c%"crashes", c%"hangs", c%"queue"] →
        ((∃ n, skipName n = false ∧ HasFile w.fs (out ++ [c%"default", sub] ++ [n]) b) →
          ∃ p, IsFinding w.fs out p b) := by
      rintro sub hs ⟨n, hn, hf⟩
      rw [skipName_false] at hn
      exact ⟨_, sub, n, hs, hn.1, hn.2, rfl, by rw [List.append_assoc] at hf; exact hf⟩
    rw [List.mem_append, List.mem_append, m1, m2, m3]
    constructor
    · rintro (h | h | h)
      · exact key _ (by simp) h
      · obtain ⟨n, hn, hf⟩ := h
        rw [hasFile_frame f1 hap' (hsub _ |>.trans (List.prefix_append _ _))] at hf
        exact key _ (by simp) ⟨n, hn, hf⟩
      · obtain ⟨n, hn, hf⟩ := h
        rw [hasFile_frame f12 hap' (hsub _ |>.trans (List.prefix_append _ _))] at hf
        exact key _ (by simp) ⟨n, hn, hf⟩
    · rintro ⟨p, sub, n, hs, n1, n2, hp, hf⟩
      have hn := (skipName_false n).mpr ⟨n1, n2⟩
      have hp' : p = out ++ [c%"default", sub] ++ [n] := by rw [hp]; simp
      rw [hp'] at hf
      simp only [List.mem_cons, List.not_mem_nil, or_false] at hs
      rcases hs with rfl | rfl | rfl
      · exact Or.inl ⟨n, hn, hf⟩
      · refine Or.inr (Or.inl ⟨n, hn, ?_⟩)
        rw [hasFile_frame f1 hap' (hsub _ |>.trans (List.prefix_append _ _))]; exact hf
      · refine Or.inr (Or.inr ⟨n, hn, ?_⟩)
        rw [hasFile_frame f12 hap' (hsub _ |>.trans (List.prefix_append _ _))]; exact hf

/-! ### All targets -/

/-- Consolidation of pairs, without the assertions. -/
def consolidatePairs (c : Ctx) (ls : Lister) : List (Exe × Str) → IOm Unit
  | [] => pure ()
  | x :: xs => do
    consolidateTarget c ls x.1.name x.2
    consolidatePairs c ls xs

def resetPairs (c : Ctx) : List (Exe × Str) → IOm Unit
  | [] => pure ()
  | x :: xs => do
    resetTarget c x.1.name x.2
    resetPairs c xs

theorem consolidatePairs_append (c : Ctx) (ls : Lister) (a b : List (Exe × Str)) :
    consolidatePairs c ls (a ++ b) = consolidatePairs c ls a >>= fun _ => consolidatePairs c ls b := by
  induction a with
  | nil => rfl
  | cons x xs ih => simp only [List.cons_append, consolidatePairs, ih, IOm.bind_assoc]

theorem resetPairs_append (c : Ctx) (a b : List (Exe × Str)) :
    resetPairs c (a ++ b) = resetPairs c a >>= fun _ => resetPairs c b := by
  induction a with
  | nil => rfl
  | cons x xs ih => simp only [List.cons_append, resetPairs, ih, IOm.bind_assoc]

theorem consolidateTargets_eq (c : Ctx) (ls : Lister) (e : Exe) (ts : List Str) :
    consolidateTargets c ls e.name ts = consolidatePairs c ls (ts.map fun t => (e, t)) := by
  induction ts with
  | nil => rfl
  | cons t ts ih => simp only [consolidateTargets, List.map_cons, consolidatePairs, ih]

theorem resetTargets_eq (c : Ctx) (e : Exe) (ts : List Str) :
    resetTargets c e.name ts = resetPairs c (ts.map fun t => (e, t)) := by
  induction ts with
  | nil => rfl
  | cons t ts ih => simp only [resetTargets, List.map_cons, resetPairs, ih]

theorem single_iff (ets : List (Exe × List Str)) :
    Single ets ↔ ets.length = 1 ∧ ∀ x ∈ ets, x.2.length = 1 := by
  constructor
  · rintro ⟨e, t, rfl⟩; simp
  · rintro ⟨h1, h2⟩
    match ets, h1 with
    | [(e, ts)], _ =>
      have := h2 (e, ts) (by simp)
      match ts, this with
      | [t], _ => exact ⟨e, t, rfl⟩

theorem consolidateLoop_eq (o : Opts) (c : Ctx) (ls : Lister) (ets : List (Exe × List Str))
    (h : o.consolidateAll = true ∨ ∀ x ∈ ets, x.2.length = 1) :
    consolidateLoop o c ls ets = consolidatePairs c ls (pairs ets) := by
  induction ets with
  | nil => rfl
  | cons x xs ih =>
    obtain ⟨e, ts⟩ := x
    have ha : (o.consolidateAll || ts.length == 1) = true := by
      rcases h with h | h
      · simp [h]
      · have := h (e, ts) (by simp); simp_all
    have ih' := ih (h.imp id fun h x hx => h x (List.mem_cons_of_mem _ hx))
    simp only [consolidateLoop, assert, ha, if_true, IOm.lift_ok_bind, ih', consolidateTargets_eq]
    rw [← consolidatePairs_append]
    rfl

theorem resetLoop_eq (o : Opts) (c : Ctx) (ets : List (Exe × List Str))
    (h : o.resetAll = true ∨ ∀ x ∈ ets, x.2.length = 1) :
    resetLoop o c ets = resetPairs c (pairs ets) := by
  induction ets with
  | nil => rfl
  | cons x xs ih =>
    obtain ⟨e, ts⟩ := x
    have ha : (o.resetAll || ts.length == 1) = true := by
      rcases h with h | h
      · simp [h]
      · have := h (e, ts) (by simp); simp_all
    have ih' := ih (h.imp id fun h x hx => h x (List.mem_cons_of_mem _ hx))
    simp only [resetLoop, assert, ha, if_true, IOm.lift_ok_bind, ih', resetTargets_eq]
    rw [← resetPairs_append]
    rfl

theorem consolidate_eq (o : Opts) (c : Ctx) (ls : Lister) (ets : List (Exe × List Str))
    (h : o.consolidateAll = true ∨ Single ets) :
    consolidate o c ls ets = consolidatePairs c ls (pairs ets) := by
  have ha : (o.consolidateAll || ets.length == 1) = true := by
    rcases h with h | h
    · simp [h]
    · simp [((single_iff ets).mp h).1]
  unfold consolidate
  simp only [assert, ha, if_true, IOm.lift_ok_bind]
  exact consolidateLoop_eq o c ls ets (h.imp id fun h => ((single_iff ets).mp h).2)

theorem reset_eq (o : Opts) (c : Ctx) (ets : List (Exe × List Str))
    (h : o.resetAll = true ∨ Single ets) :
    reset o c ets = resetPairs c (pairs ets) := by
  have ha : (o.resetAll || ets.length == 1) = true := by
    rcases h with h | h
    · simp [h]
    · simp [((single_iff ets).mp h).1]
  unfold reset
  simp only [assert, ha, if_true, IOm.lift_ok_bind]
  exact resetLoop_eq o c ets (h.imp id fun h => ((single_iff ets).mp h).2)

/-- Otherwise an assertion fails before anything is done. -/
theorem consolidate_panic (o : Opts) (c : Ctx) (ls : Lister) (ets : List (Exe × List Str))
    (ho : o.consolidateAll = false) (h : ¬ Single ets) (pl : Plan) (w : World) :
    consolidate o c ls ets pl w = (.panic, w) := by
  unfold consolidate assert
  by_cases hl : ets.length = 1
  · match ets, hl with
    | [(e, ts)], _ =>
      have hts : ts.length ≠ 1 := by
        intro h1
        exact h ((single_iff _).mpr ⟨rfl, by simpa using h1⟩)
      simp [ho, IOm.bind_run, consolidateLoop, assert, hts]
  · simp [ho, hl, IOm.bind_run]

theorem reset_panic (o : Opts) (c : Ctx) (ets : List (Exe × List Str))
    (ho : o.resetAll = false) (h : ¬ Single ets) (pl : Plan) (w : World) :
    reset o c ets pl w = (.panic, w) := by
  unfold reset assert
  by_cases hl : ets.length = 1
  · match ets, hl with
    | [(e, ts)], _ =>
      have hts : ts.length ≠ 1 := by
        intro h1
        exact h ((single_iff _).mpr ⟨rfl, by simpa using h1⟩)
      simp [ho, IOm.bind_run, resetLoop, assert, hts]
  · simp [ho, hl, IOm.bind_run]

/-! ### Frames and results for all pairs -/

/-- The corpora of the selected pairs. -/
def CorpusOf (ps : List (Exe × Str)) (corp : Exe × Str → Path) : Path → Prop :=
  fun q => ∃ x ∈ ps, q = corp x

theorem consolidatePairs_frame {c : Ctx} (ls : Lister) {ps : List (Exe × Str)} {corp out : Exe × Str → Path}
    (hC : ∀ x ∈ ps, corpusDirFromTarget c x.1.name x.2 = .ok (corp x))
    (hO : ∀ x ∈ ps, outputDirFromTarget c x.1.name x.2 = .ok (out x))
    (pl : Plan) (w : World) :
    FrameC (CorpusOf ps corp) w.fs (consolidatePairs c ls ps pl w).2.fs := by
  induction ps generalizing w with
  | nil => exact FrameC.refl _ _
  | cons x xs ih =>
    unfold consolidatePairs
    refine frame_bind ?_ fun _ w1 _ => ?_
    · refine (consolidateTarget_frame ls (hC x List.mem_cons_self) (hO x List.mem_cons_self) pl w).mono ?_
      rintro q rfl
      exact ⟨x, List.mem_cons_self, rfl⟩
    · refine (ih (fun y hy => hC y (List.mem_cons_of_mem _ hy))
        (fun y hy => hO y (List.mem_cons_of_mem _ hy)) w1).mono ?_
      rintro q ⟨y, hy, rfl⟩
      exact ⟨y, List.mem_cons_of_mem _ hy, rfl⟩

theorem consolidatePairs_ok {c : Ctx} {ls : Lister} (hls : GoodLister ls) {ps : List (Exe × Str)}
    {corp out : Exe × Str → Path}
    (hC : ∀ x ∈ ps, corpusDirFromTarget c x.1.name x.2 = .ok (corp x))
    (hO : ∀ x ∈ ps, outputDirFromTarget c x.1.name x.2 = .ok (out x))
    (hap : ∀ x ∈ ps, ∀ y ∈ ps, Apart (corp x) (out y))
    {pl : Plan} {w w' : World}
    (hfin : ∀ x ∈ ps, ∀ sub ∈ [c%"crashes", c%"hangs", c%"queue"],
      FiniteDir w.fs (out x ++ [c%"default", sub]))
    (h : consolidatePairs c ls ps pl w = (.ok (), w')) :
    ∃ ws : List (Path × Bytes), RecRel ws w.fs w'.fs ∧
      ∀ y, y ∈ ws ↔ ∃ x ∈ ps, y.1 = corp x ∧ ∃ p, IsFinding w.fs (out x) p y.2 := by
  induction ps generalizing w with
  | nil =>
    simp only [consolidatePairs, IOm.pure_run, Prod.mk.injEq] at h
    rw [← h.2]
    exact ⟨[], RecRel.nil _, by simp⟩
  | cons x xs ih =>
    unfold consolidatePairs at h
    obtain ⟨_, w1, h1, h2⟩ := IOm.bind_ok h
    have hx : x ∈ x :: xs := List.mem_cons_self
    have hm : ∀ y ∈ xs, y ∈ x :: xs := fun y hy => List.mem_cons_of_mem _ hy
    obtain ⟨ds, r1, m1⟩ := consolidateTarget_ok hls (hC x hx) (hO x hx) (hap x hx x hx)
      (hfin x hx) h1
    have f1 : FrameC (· = corp x) w.fs w1.fs := by
      have := consolidateTarget_frame ls (hC x hx) (hO x hx) pl w
      rw [h1] at this; exact this
    have hap' : ∀ y ∈ xs, ∀ q, q = corp x → Apart q (out y) := fun y hy q hq => hq ▸ hap x hx y (hm y hy)
    obtain ⟨ws, r2, m2⟩ := ih (fun y hy => hC y (hm y hy)) (fun y hy => hO y (hm y hy))
      (fun y hy z hz => hap y (hm y hy) z (hm z hz))
      (fun y hy sub hs => FiniteDir.frame f1 (hap' y hy) (List.prefix_append _ _) (hfin y (hm y hy) sub hs)) h2
    refine ⟨ds.map (fun d => (corp x, d)) ++ ws, r1.trans r2, ?_⟩
    intro y
    rw [List.mem_append, m2]
    constructor
    · rintro (hy | ⟨z, hz, h3, p, h4⟩)
      · rw [List.mem_map] at hy
        obtain ⟨d, hd, rfl⟩ := hy
        exact ⟨x, hx, rfl, (m1 d).mp hd⟩
      · exact ⟨z, hm z hz, h3, p, (IsFinding.frame f1 (hap' z hz) p _).mp h4⟩
    · rintro ⟨z, hz, h3, p, h4⟩
      rcases List.mem_cons.mp hz with rfl | hz
      · left
        rw [List.mem_map]
        exact ⟨y.2, (m1 _).mpr ⟨p, h4⟩, by rw [← h3]⟩
      · exact Or.inr ⟨z, hz, h3, p, (IsFinding.frame f1 (hap' z hz) p _).mpr h4⟩

/-! ### Reset -/

theorem pathExists_fs (p : Path) (pl : Plan) (w : World) : (pathExists p pl w).2.fs = w.fs := by
  unfold pathExists
  cases pl w.tick <;> rfl

theorem removeDirAll_frame (p : Path) (pl : Plan) (w : World) (q : Path) (h : ¬ p <+: q) :
    (removeDirAll p pl w).2.fs q = w.fs q := by
  have hq : p.isPrefixOf q = false := by
    cases hh : p.isPrefixOf q with
    | false => rfl
    | true => exact absurd (List.isPrefixOf_iff_prefix.mp hh) h
  unfold removeDirAll IOm.prim
  cases pl w.tick with
  | ok =>
    simp only
    by_cases hd : (w.fs p == some Node.dir) = true
    · simp [hd, FS.removeTree, hq]
    · simp [hd]
  | err x => (simp; exact fun i _ hi => absurd (hi.trans (List.take_prefix i q)) h)
  | crash x => (simp; exact fun i _ hi => absurd (hi.trans (List.take_prefix i q)) h)

theorem resetTarget_frame {c : Ctx} {k t : Str} {out : Path} (hO : outputDirFromTarget c k t = .ok out)
    (pl : Plan) (w : World) (q : Path) (h : ¬ out <+: q) : (resetTarget c k t pl w).2.fs q = w.fs q := by
  unfold resetTarget
  rw [hO, IOm.lift_ok_bind]
  rcases IOm.bind_cases (pathExists out) (fun ex => if !ex then pure () else removeDirAll out) pl w with
    ⟨a, w1, h1, h2⟩ | ⟨-, h2, -⟩
  · rw [h2]
    have hw := pathExists_fs out pl w
    rw [h1] at hw
    cases a
    · simp [← hw]
    · simp only [Bool.not_true, Bool.false_eq_true, if_false]
      rw [removeDirAll_frame out pl w1 q h, hw]
  · rw [h2, pathExists_fs]

theorem resetPairs_frame {c : Ctx} {ps : List (Exe × Str)} {out : Exe × Str → Path}
    (hO : ∀ x ∈ ps, outputDirFromTarget c x.1.name x.2 = .ok (out x))
    (pl : Plan) (w : World) (q : Path) (h : ∀ x ∈ ps, ¬ out x <+: q) :
    (resetPairs c ps pl w).2.fs q = w.fs q := by
  induction ps generalizing w with
  | nil => rfl
  | cons x xs ih =>
    unfold resetPairs
    have h1 := resetTarget_frame (hO x List.mem_cons_self) pl w q (h x List.mem_cons_self)
    rcases IOm.bind_cases (resetTarget c x.1.name x.2) (fun _ => resetPairs c xs) pl w with
      ⟨a, w1, k1, k2⟩ | ⟨-, k2, -⟩
    · rw [k2]
      rw [k1] at h1
      rw [ih (fun y hy => hO y (List.mem_cons_of_mem _ hy)) w1
        (fun y hy => h y (List.mem_cons_of_mem _ hy)), h1]
    · rw [k2]; exact h1

/-- Every node that exists has all its ancestors. -/
theorem wellFormed_ancestor {fs : FS} (hwf : WellFormed fs) {p q : Path} (hp : p <+: q) (hne : p ≠ [])
    (hq : fs q ≠ none) : fs p ≠ none := by
  obtain ⟨r, rfl⟩ := hp
  induction r using List.reverseRecOn with
  | nil => simpa using hq
  | append_singleton r x ih =>
    rw [← List.append_assoc] at hq
    rcases hwf _ _ hq with h | h
    · exact absurd (List.append_eq_nil_iff.mp h).1 hne
    · exact ih (by rw [h]; simp)

/-- Nothing exists below `out` unless `out` itself exists. -/
def Rooted (fs : FS) (out : Path) : Prop := ∀ q, out <+: q → fs q ≠ none → fs out ≠ none

theorem WellFormed.rooted {fs : FS} (h : WellFormed fs) {out : Path} (hne : out ≠ []) : Rooted fs out :=
  fun _ hq hn => wellFormed_ancestor h hq hne hn

theorem Rooted.frame {C : Path → Prop} {a b : FS} (h : FrameC C a b) {out : Path}
    (hap : ∀ c, C c → Apart c out) (hr : Rooted a out) : Rooted b out := by
  intro q hq hn
  rw [h.below hap hq] at hn
  rw [h.below hap (List.prefix_refl _)]
  exact hr q hq hn

theorem resetTarget_ok {c : Ctx} {k t : Str} {out : Path} (hO : outputDirFromTarget c k t = .ok out)
    {pl : Plan} (hpl : NoIoErrors pl) {w w' : World} (hwf : Rooted w.fs out)
    (h : resetTarget c k t pl w = (.ok (), w')) :
    w'.fs = w.fs.removeTree out := by
  unfold resetTarget at h
  rw [hO, IOm.lift_ok_bind] at h
  obtain ⟨ex, w1, h1, h2⟩ := IOm.bind_ok h
  have hfs := pathExists_fs out pl w
  rw [h1] at hfs
  have hex : ex = w.fs.exists out := by
    unfold pathExists at h1
    cases hp : pl w.tick with
    | ok => rw [hp] at h1; simp only [Prod.mk.injEq, Out.ok.injEq] at h1; exact h1.1.symm
    | err q => exact absurd hp (hpl _ q)
    | crash q => rw [hp] at h1; simp at h1
  cases ex with
  | false =>
    simp only [Bool.not_false, if_true, IOm.pure_run, Prod.mk.injEq] at h2
    rw [← h2.2, hfs]
    funext q
    unfold FS.removeTree
    split
    · next hq =>
      by_contra hcon
      have := hwf q (List.isPrefixOf_iff_prefix.mp hq) hcon
      unfold FS.exists at hex
      cases hh : w.fs out with
      | none => exact this hh
      | some n => rw [hh] at hex; simp at hex
    · rfl
  | true =>
    simp only [Bool.not_true, Bool.false_eq_true, if_false] at h2
    unfold removeDirAll IOm.prim at h2
    cases hp : pl w1.tick with
    | ok =>
      rw [hp] at h2
      simp only at h2
      by_cases hd : (w1.fs out == some Node.dir) = true
      · simp only [hd, if_true, Prod.mk.injEq] at h2
        rw [← h2.2, ← hfs]
      · simp [hd] at h2
    | err q => exact absurd hp (hpl _ q)
    | crash q => rw [hp] at h2; simp at h2

theorem rooted_removeTree {fs : FS} {out : Path} (h : Rooted fs out) (p : Path) :
    Rooted (fs.removeTree p) out := by
  intro q hq hn
  unfold FS.removeTree at hn ⊢
  split at hn
  · exact absurd rfl hn
  · next hp =>
    have : ¬ p.isPrefixOf out = true := by
      intro hh
      apply hp
      rw [List.isPrefixOf_iff_prefix] at hh ⊢
      exact hh.trans hq
    rw [if_neg this]
    exact h q hq hn

theorem resetPairs_ok {c : Ctx} {ps : List (Exe × Str)} {out : Exe × Str → Path}
    (hO : ∀ x ∈ ps, outputDirFromTarget c x.1.name x.2 = .ok (out x))
    {pl : Plan} (hpl : NoIoErrors pl) {w w' : World} (hwf : ∀ x ∈ ps, Rooted w.fs (out x))
    (h : resetPairs c ps pl w = (.ok (), w')) (x : Exe × Str) (hx : x ∈ ps) (q : Path) (hq : out x <+: q) :
    w'.fs q = none := by
  induction ps generalizing w with
  | nil => cases hx
  | cons y ys ih =>
    unfold resetPairs at h
    obtain ⟨_, w1, h1, h2⟩ := IOm.bind_ok h
    have e1 := resetTarget_ok (hO y List.mem_cons_self) hpl (hwf y List.mem_cons_self) h1
    have hwf1 : ∀ x ∈ ys, Rooted w1.fs (out x) :=
      fun z hz => e1 ▸ rooted_removeTree (hwf z (List.mem_cons_of_mem _ hz)) _
    have hO' : ∀ x ∈ ys, outputDirFromTarget c x.1.name x.2 = .ok (out x) :=
      fun z hz => hO z (List.mem_cons_of_mem _ hz)
    by_cases hxs : x ∈ ys
    · exact ih hO' hwf1 h2 hxs
    · have hxy : x = y := by
        rcases List.mem_cons.mp hx with h | h
        · exact h
        · exact absurd h hxs
      subst hxy
      by_cases hcov : ∃ z ∈ ys, out z <+: q
      · obtain ⟨z, hz, hzq⟩ := hcov
        -- covered again by a later target: also removed
        have aux : ∀ (zs : List (Exe × Str)) (v v' : World),
            (∀ z ∈ zs, outputDirFromTarget c z.1.name z.2 = .ok (out z)) → (∀ z ∈ zs, Rooted v.fs (out z)) →
            v.fs q = none → resetPairs c zs pl v = (.ok (), v') → v'.fs q = none := by
          intro zs
          induction zs with
          | nil =>
            intro v v' _ _ hv hr
            simp only [resetPairs, IOm.pure_run, Prod.mk.injEq] at hr
            rw [← hr.2]; exact hv
          | cons a as iha =>
            intro v v' hO2 hwf2 hv hr
            unfold resetPairs at hr
            obtain ⟨_, v1, hr1, hr2⟩ := IOm.bind_ok hr
            have e2 := resetTarget_ok (hO2 a List.mem_cons_self) hpl (hwf2 a List.mem_cons_self) hr1
            refine iha v1 v' (fun z hz => hO2 z (List.mem_cons_of_mem _ hz))
              (fun z hz => e2 ▸ rooted_removeTree (hwf2 z (List.mem_cons_of_mem _ hz)) _) ?_ hr2
            rw [e2]
            unfold FS.removeTree
            split
            · rfl
            · exact hv
        refine aux ys w1 w' hO' hwf1 ?_ h2
        rw [e1]
        unfold FS.removeTree
        rw [if_pos (List.isPrefixOf_iff_prefix.mpr hq)]
      · have := resetPairs_frame hO' pl w1 q (fun z hz hzq => hcov ⟨z, hz, hzq⟩)
        rw [h2] at this
        rw [this, e1]
        unfold FS.removeTree
        rw [if_pos (List.isPrefixOf_iff_prefix.mpr hq)]

end TF
