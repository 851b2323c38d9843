import Verif.Props.Tree

/-!
# An interrupted consolidation or reset can be repeated: C28, C29 and C30
-/

namespace TF

open Spec

/-! ## What an interrupted consolidation leaves -/

/-- `fs'` differs from `fs` at the paths `F`, and by new directories. -/
def Touched (F : Path → Prop) (fs fs' : FS) : Prop := ∀ q, F q ∨ fs' q = fs q ∨ (fs q = none ∧ fs' q = some .dir)

theorem Touched.trans {F : Path → Prop} {a b c : FS} (h1 : Touched F a b) (h2 : Touched F b c) : Touched F a c := by
  intro q
  rcases h1 q with h | h | ⟨h, h'⟩
  · exact .inl h
  · rcases h2 q with k | k | ⟨k, k'⟩
    · exact .inl k
    · exact .inr (.inl (k.trans h))
    · exact .inr (.inr ⟨h ▸ k, k'⟩)
  · rcases h2 q with k | k | ⟨k, k'⟩
    · exact .inl k
    · exact .inr (.inr ⟨h, k.trans h'⟩)
    · rw [h'] at k; cases k

theorem writeData_touched {F : Path → Prop} {dir : Path} {data : Bytes} (h : F (dataPath dir data)) (pl : Plan) (w : World) :
    Touched F w.fs (writeData dir data pl w).2.fs := by
  obtain ⟨fs1, hext, hfs⟩ := writeData_cases dir data pl w
  intro q
  by_cases hq : q = dataPath dir data
  · exact .inl (hq ▸ h)
  · have h1 : (writeData dir data pl w).2.fs q = fs1 q := by
      rcases hfs with h | ⟨k, h⟩
      · rw [h]
      · simp [h, FS.set, hq]
    rw [h1]
    rcases hext q with h | ⟨h, h', -⟩
    · exact .inr (.inl h)
    · exact .inr (.inr ⟨h, h'⟩)

theorem consolidateEntries_inv {P : FS → Prop} {pl : Plan} (corpus dir : Path)
    (hw : ∀ (w : World) d n, P w.fs → HasFile w.fs (dir ++ [n]) d → skipName n = false → P (writeData corpus d pl w).2.fs)
    (ns : List Str) : Keeps P pl (consolidateEntries corpus dir ns) := by
  induction ns with
  | nil => exact Keeps.pure _
  | cons n ns ih =>
    unfold consolidateEntries
    split
    · exact ih
    · next hs =>
      intro w h
      rcases IOm.bind_cases (readFile (dir ++ [n])) (fun d => writeData corpus d >>= fun _ => consolidateEntries corpus dir ns) pl w
        with ⟨d, w1, h1, h2⟩ | ⟨-, h2, -⟩
      · have := readFile_ok h1
        have h3 := hw w1 d n (this.2 ▸ h) (this.2 ▸ this.1) (by simpa using hs)
        have h2 := congrArg (fun r => r.2.fs) h2
        refine (congrArg P h2).mpr ?_
        rcases IOm.bind_cases (writeData corpus d) (fun _ => consolidateEntries corpus dir ns) pl w1
          with ⟨_, w2, k1, k2⟩ | ⟨-, k2, -⟩
        · rw [k1] at h3
          exact (congrArg (fun r => P r.2.fs) k2).mpr (ih w2 h3)
        · exact (congrArg (fun r => P r.fs) k2).mpr h3
      · refine (congrArg (fun r => P r.fs) h2).mpr ?_
        rw [readFile_fs]
        exact h

theorem consolidatePairs_inv {P : FS → Prop} {pl : Plan} {c : Ctx} (ls : Lister) {corp out : Exe × Str → Path} :
    ∀ {ps : List (Exe × Str)}, (∀ x ∈ ps, corpusDirFromTarget c x.1.name x.2 = .ok (corp x)) →
      (∀ x ∈ ps, outputDirFromTarget c x.1.name x.2 = .ok (out x)) →
      (∀ x ∈ ps, ∀ sub ∈ [c%"crashes", c%"hangs", c%"queue"], ∀ (w : World) d n, P w.fs →
        HasFile w.fs (out x ++ [c%"default", sub] ++ [n]) d → skipName n = false → P (writeData (corp x) d pl w).2.fs) →
      Keeps P pl (consolidatePairs c ls ps)
  | [], _, _, _ => Keeps.pure _
  | x :: xs, hC, hO, hw => by
    have hm : ∀ y ∈ xs, y ∈ x :: xs := fun y hy => List.mem_cons_of_mem _ hy
    have hx : x ∈ x :: xs := List.mem_cons_self
    have hd : ∀ sub ∈ [c%"crashes", c%"hangs", c%"queue"],
        Keeps P pl (consolidateDir ls (corp x) (out x ++ [c%"default", sub])) := fun sub hs =>
      (readDir_keeps pl ls _).bind fun _ => consolidateEntries_inv _ _ (hw x hx sub hs) _
    refine Keeps.bind ?_ fun _ => consolidatePairs_inv ls (fun y hy => hC y (hm y hy)) (fun y hy => hO y (hm y hy))
      fun y hy => hw y (hm y hy)
    obtain ⟨h1, h2, h3⟩ := findingDirs (hO x hx)
    unfold consolidateTarget
    rw [hC x hx, h1, h2, h3]
    simp only [IOm.lift_ok_bind]
    exact (hd _ (by simp)).bind fun _ => (hd _ (by simp)).bind fun _ => hd _ (by simp)

/-- The place of a finding in its corpus. -/
def FindingPlace (c : Ctx) (root : Path) (ets : List (Exe × List Str)) (fs : FS) (q : Path) (b : Bytes) : Prop :=
  ∃ x p, FindingOf c ets fs x p b ∧ q = corpPath c root x ++ [fileName b]

theorem consolidate_touched (o : Opts) {c : Ctx} (ls : Lister) {root : Path} {ets} (h : ValidSel c root ets) (pl : Plan) (w : World) :
    (∀ q, InOutput c ets q → (consolidate o c ls ets pl w).2.fs q = w.fs q) ∧
      Touched (fun q => ∃ b, FindingPlace c root ets w.fs q b) w.fs (consolidate o c ls ets pl w).2.fs := by
  have hbelow : ∀ x ∈ pairs ets, ∀ (dir : Path) d (w1 : World) q, dir = corpPath c root x → InOutput c ets q →
      (writeData dir d pl w1).2.fs q = w1.fs q := by
    rintro x hx _ d w1 q rfl hq
    obtain ⟨y, hy, hyq⟩ := (inOutput_iff h q).mp hq
    exact (writeData_frame _ d pl w1).below (by rintro _ rfl; exact h.apart x hx y hy) hyq
  by_cases hs : o.consolidateAll = true ∨ Single ets
  · rw [consolidate_eq o c ls ets hs]
    refine consolidatePairs_inv (pl := pl) (P := fun fs => (∀ q, InOutput c ets q → fs q = w.fs q) ∧
      Touched (fun q => ∃ b, FindingPlace c root ets w.fs q b) w.fs fs) ls h.corp h.out ?_ w ⟨fun _ _ => rfl, fun _ => .inr (.inl rfl)⟩
    intro x hx sub hsub w1 d n hP hf hn
    refine ⟨fun q hq => (hbelow x hx _ d w1 q rfl hq).trans (hP.1 q hq), hP.2.trans (writeData_touched ?_ pl w1)⟩
    have hin : InOutput c ets (outPath c root x ++ [c%"default", sub] ++ [n]) :=
      (inOutput_iff h _).mpr ⟨x, hx, (List.prefix_append _ _).trans (List.prefix_append _ _)⟩
    rw [skipName_false] at hn
    refine ⟨d, x, _, (findingOf_iff h _ _ _ _).mpr ⟨hx, sub, n, hsub, hn.1, hn.2, rfl, ?_⟩, rfl⟩
    unfold HasFile at hf
    rw [hP.1 _ hin] at hf
    unfold HasFile
    simpa using hf
  · rw [not_or] at hs
    rw [consolidate_panic o c ls ets (by simpa using hs.1) hs.2]
    exact ⟨fun _ _ => rfl, fun _ => .inr (.inl rfl)⟩

/-! ## Resetting only removes -/

theorem removeDirAll_less (pl : Plan) (p : Path) (fs0 : FS) :
    Keeps (fun fs => ∀ q, fs q = fs0 q ∨ fs q = none) pl (removeDirAll p) := by
  refine Keeps.prim (fun fs a fs' h hf => ?_) fun x fs h q => ?_
  · split at hf
    · cases hf
      intro q
      unfold FS.removeTree
      split
      · exact .inr rfl
      · exact h q
    · cases hf
  · show (if _ then _ else _) = _ ∨ (if _ then _ else _) = _
    split
    · exact .inr rfl
    · exact h q

theorem resetTarget_less (pl : Plan) (c : Ctx) (k t : Str) (fs0 : FS) :
    Keeps (fun fs => ∀ q, fs q = fs0 q ∨ fs q = none) pl (resetTarget c k t) := by
  refine Keeps.bind (Keeps.lift _) fun out => (pathExists_keeps pl out).bind fun ex => ?_
  split
  · exact Keeps.pure _
  · exact removeDirAll_less pl out fs0

theorem resetTargets_less (pl : Plan) (c : Ctx) (k : Str) (fs0 : FS) :
    ∀ ts, Keeps (fun fs => ∀ q, fs q = fs0 q ∨ fs q = none) pl (resetTargets c k ts)
  | [] => Keeps.pure _
  | _ :: ts => (resetTarget_less pl c k _ fs0).bind fun _ => resetTargets_less pl c k fs0 ts

theorem resetLoop_less (pl : Plan) (o : Opts) (c : Ctx) (fs0 : FS) :
    ∀ ets, Keeps (fun fs => ∀ q, fs q = fs0 q ∨ fs q = none) pl (resetLoop o c ets)
  | [] => Keeps.pure _
  | (_, _) :: r => Keeps.bind (Keeps.lift _) fun _ => (resetTargets_less pl c _ fs0 _).bind fun _ => resetLoop_less pl o c fs0 r

/-- However a reset ends, what is left is as it was. -/
theorem reset_less (o : Opts) (c : Ctx) (ets) (pl : Plan) (w : World) (q : Path) :
    (reset o c ets pl w).2.fs q = w.fs q ∨ (reset o c ets pl w).2.fs q = none :=
  (Keeps.bind (P := fun fs => ∀ q, fs q = w.fs q ∨ fs q = none) (Keeps.lift _) fun _ => resetLoop_less pl o c w.fs ets) w
    (fun _ => .inl rfl) q

/-- **C28 (left over).** However a reset ends, it has only removed: what is left of the output directories is as it was, and with
everything that is left its directory is left too. -/
theorem C28_only_removes (o : Opts) (c : Ctx) (ets : List (Exe × List Str)) (pl : Plan) (w : World) (hwf : WellFormed w.fs) :
    (∀ q, (reset o c ets pl w).2.fs q = w.fs q ∨ (reset o c ets pl w).2.fs q = none) ∧
      WellFormed (reset o c ets pl w).2.fs :=
  ⟨reset_less o c ets pl w, reset_tree pl o c ets w hwf⟩

/-- **C28 (again).** However a reset was interrupted, a second one that succeeds leaves what one uninterrupted reset leaves: not a
file or directory more or less. -/
theorem C28_rerun (o o' : Opts) (c : Ctx) (root : Path) (ets : List (Exe × List Str)) (hsel : ValidSel c root ets)
    (pl pl' pl'' : Plan) (hpl' : NoIoErrors pl') (hpl'' : NoIoErrors pl'') (w w1 w2 : World) (hwf : WellFormed w.fs) (t : Nat)
    (h1 : reset o' c ets pl' ⟨(reset o c ets pl w).2.fs, t⟩ = (.ok (), w1)) (h2 : reset o c ets pl'' w = (.ok (), w2)) :
    w1.fs = w2.fs := by
  funext q
  have a := C28_reset_removes o' c root ets hsel pl' hpl' ⟨_, t⟩ w1 (C28_only_removes o c ets pl w hwf).2 h1 q
  have b := C28_reset_removes o c root ets hsel pl'' hpl'' w w2 hwf h2 q
  by_cases hq : InOutput c ets q
  · rw [a.1 hq, b.1 hq]
  · rw [a.2 hq, b.2 hq, reset_frame o hsel pl w q hq]

/-! ## Consolidating again -/

/-- **C29 (exactly).** The files after a successful consolidation: the findings, in their corpora; and all others that were outside
of the output directories, except where a finding has taken their place. -/
theorem C29_files (o : Opts) (ho : Consolidating o) (c : Ctx) (ls : Lister) (hls : GoodLister ls)
    (root : Path) (ets : List (Exe × List Str)) (hsel : ValidSel c root ets) (pl : Plan)
    (hpl : NoIoErrors pl) (w w' : World) (hwf : WellFormed w.fs) (hfin : FiniteFindings c ets w.fs)
    (hnc : NoCollisions c ets w.fs) (hok : storage o c ls ets pl w = (.ok (), w')) (q : Path) (b : Bytes) :
    HasFile w'.fs q b ↔ FindingPlace c root ets w.fs q b ∨
      (HasFile w.fs q b ∧ ¬ InOutput c ets q ∧ ∀ b', ¬ FindingPlace c root ets w.fs q b') := by
  obtain ⟨h1, h2, h3, h4, -⟩ := C29_consolidate o ho c ls hls root ets hsel pl hpl w w' hwf hfin hnc hok
  have h1' : ∀ b, FindingPlace c root ets w.fs q b → HasFile w'.fs q b := by
    rintro b ⟨x, p, hf, rfl⟩
    exact h1 x p b _ hf (hsel.corp x hf.1)
  constructor
  · intro h
    by_cases hb : ∃ b', FindingPlace c root ets w.fs q b'
    · obtain ⟨b', hb'⟩ := hb
      have := h1' b' hb'
      unfold HasFile at this h
      rw [h] at this
      cases this
      exact .inl hb'
    · rcases h4 q b h with hq | ⟨x, p, corp, hf, hc, rfl⟩
      · refine .inr ⟨hq, fun hin => ?_, not_exists.mp hb⟩
        unfold HasFile at h
        rw [h2 q hin] at h
        cases h
      · have hc : corpusDirFromTarget c x.1.name x.2 = .ok corp := hc
        rw [hsel.corp x hf.1] at hc
        cases hc
        exact .inl ⟨x, p, hf, rfl⟩
  · rintro (h | ⟨h, hno, hb⟩)
    · exact h1' b h
    · refine h3 q b h hno fun x p b' corp hf hc he => absurd ⟨x, p, hf, ?_⟩ (hb b')
      have hc : corpusDirFromTarget c x.1.name x.2 = .ok corp := hc
      rw [hsel.corp x hf.1] at hc
      cases hc
      exact he

/-- What is known after a consolidation, however it ended. -/
theorem storage_left {o : Opts} (ho : Consolidating o) {c : Ctx} (ls : Lister) {root : Path} {ets} (hsel : ValidSel c root ets)
    (pl : Plan) (w : World) :
    (∀ q, InOutput c ets q → (storage o c ls ets pl w).2.fs q = w.fs q ∨ (storage o c ls ets pl w).2.fs q = none) ∧
      ∀ q, ¬ InOutput c ets q → (∃ b, FindingPlace c root ets w.fs q b) ∨
        ∀ b, HasFile (storage o c ls ets pl w).2.fs q b ↔ HasFile w.fs q b := by
  rw [storage_eq ho]
  have ht := consolidate_touched o ls hsel pl w
  have key : ∀ q, (∃ b, FindingPlace c root ets w.fs q b) ∨
      ∀ b, HasFile (consolidate o c ls ets pl w).2.fs q b ↔ HasFile w.fs q b := by
    intro q
    rcases ht.2 q with h | h | ⟨h, h'⟩
    · exact .inl h
    · exact .inr fun b => by unfold HasFile; rw [h]
    · exact .inr fun b => by unfold HasFile; rw [h, h']; simp
  rcases IOm.bind_cases (consolidate o c ls ets) (fun _ => reset o c ets) pl w with ⟨_, w1, h1, h2⟩ | ⟨-, h2, -⟩
  · have e : w1 = (consolidate o c ls ets pl w).2 := by rw [h1]
    rw [h2]
    refine ⟨fun q hq => ?_, fun q hq => ?_⟩
    · rw [← ht.1 q hq, ← e]
      exact reset_less o c ets pl w1 q
    · rcases key q with h | h
      · exact .inl h
      · refine .inr fun b => ?_
        rw [← h b]
        unfold HasFile
        rw [reset_frame o hsel pl w1 q hq, e]
  · rw [h2]
    exact ⟨fun q hq => .inl (ht.1 q hq), fun q _ => key q⟩

/-- **C30 (again).** However a consolidation was interrupted, a second one that succeeds leaves the same files as one that was not
interrupted; the same holds for a reset, if the copying had been finished. -/
theorem C30_rerun (o : Opts) (ho : Consolidating o) (c : Ctx) (ls ls' ls'' : Lister) (hls : GoodLister ls) (hls' : GoodLister ls')
    (hls'' : GoodLister ls'') (root : Path) (ets : List (Exe × List Str)) (hsel : ValidSel c root ets) (pl pl' pl'' : Plan)
    (hpl' : NoIoErrors pl') (hpl'' : NoIoErrors pl'') (w w1 w2 : World) (hwf : WellFormed w.fs)
    (hfin : FiniteFindings c ets w.fs) (hnc : NoCollisions c ets w.fs) (t : Nat)
    (h2 : storage o c ls'' ets pl'' w = (.ok (), w2)) :
    (storage o c ls' ets pl' ⟨(storage o c ls ets pl w).2.fs, t⟩ = (.ok (), w1) → SameFiles w1.fs w2.fs) ∧
    (∀ o', reset o' c ets pl' ⟨(storage o c ls ets pl w).2.fs, t⟩ = (.ok (), w1) →
      (∃ wc, consolidate o c ls ets pl w = (.ok (), wc)) → SameFiles w1.fs w2.fs) := by
  obtain ⟨hl1, hl2⟩ := storage_left ho ls hsel pl w
  have hl3 := C30_no_input_lost o ho c ls hls root ets hsel pl w hfin hnc
  have hwf' := C29_tree o c ls ets pl w hwf
  have hkeep := C29_files o ho c ls'' hls'' root ets hsel pl'' hpl'' w w2 hwf hfin hnc h2
  have hcorp : ∀ q b, FindingPlace c root ets w.fs q b → ¬ InOutput c ets q := by
    rintro q b ⟨x, p, hf, rfl⟩ hin
    obtain ⟨y, hy, hyq⟩ := (inOutput_iff hsel _).mp hin
    exact (apart_below (hsel.apart x hf.1 y hy) hyq).1 (List.prefix_append _ _)
  have hone : ∀ q b b', FindingPlace c root ets w.fs q b → FindingPlace c root ets w.fs q b' → b = b' := by
    rintro q b b' ⟨x, p, hf, rfl⟩ ⟨x', p', hf', he⟩
    have := (List.append_inj' he rfl).2
    exact hnc x p b x' p' b' hf hf' (by simpa using this)
  generalize hw1 : (storage o c ls ets pl w).2.fs = fs1 at *
  have hsub : ∀ x p b, FindingOf c ets fs1 x p b → FindingOf c ets w.fs x p b := by
    intro x p b hf
    obtain ⟨hx, sub, name, e1, e2, e3, e4, e5⟩ := (findingOf_iff hsel _ _ _ _).mp hf
    refine (findingOf_iff hsel _ _ _ _).mpr ⟨hx, sub, name, e1, e2, e3, e4, ?_⟩
    unfold HasFile at e5 ⊢
    rcases hl1 p ((inOutput_iff hsel p).mpr ⟨x, hx, e4 ▸ List.prefix_append _ _⟩) with h | h
    · rw [← h]; exact e5
    · rw [h] at e5; cases e5
  have hsubp : ∀ q b, FindingPlace c root ets fs1 q b → FindingPlace c root ets w.fs q b :=
    fun q b ⟨x, p, hf, he⟩ => ⟨x, p, hsub x p b hf, he⟩
  constructor
  · intro h1
    have hfin1 : FiniteFindings c ets fs1 := by
      intro x hx out hout sub hs
      obtain ⟨l, hl⟩ := hfin x hx out hout sub hs
      refine ⟨l.filter fun n => (fs1 (out ++ [c%"default", sub] ++ [n])).isSome, fun n => ?_⟩
      simp only [List.mem_filter, hl, and_iff_right_iff_imp]
      intro hn
      have hout : outputDirFromTarget c x.1.name x.2 = .ok out := hout
      rw [hsel.out x hx] at hout
      cases hout
      rcases hl1 (outPath c root x ++ [c%"default", sub] ++ [n])
        ((inOutput_iff hsel _).mpr ⟨x, hx, (List.prefix_append _ _).trans (List.prefix_append _ _)⟩) with h | h
      · rw [← h]; exact hn
      · rw [h] at hn; cases hn
    have hnc1 : NoCollisions c ets fs1 := fun x p b x' p' b' hf hf' => hnc x p b x' p' b' (hsub x p b hf) (hsub x' p' b' hf')
    have hk1 := C29_files o ho c ls' hls' root ets hsel pl' hpl' ⟨fs1, t⟩ w1 hwf' hfin1 hnc1 h1
    intro q b
    rw [hk1, hkeep]
    simp only
    by_cases hF : ∃ b', FindingPlace c root ets w.fs q b'
    · obtain ⟨b', hb'⟩ := hF
      -- the finding is still there, or in its place
      have hthere : FindingPlace c root ets fs1 q b' ∨ HasFile fs1 q b' := by
        obtain ⟨x, p, hf, rfl⟩ := hb'
        rcases hl3 with hl3 | hl3
        · left
          obtain ⟨hx, sub, name, e1, e2, e3, e4, -⟩ := (findingOf_iff hsel _ _ _ _).mp hf
          exact ⟨x, p, (findingOf_iff hsel _ _ _ _).mpr ⟨hx, sub, name, e1, e2, e3, e4, hl3 x p b' hf⟩, rfl⟩
        · exact .inr (hl3 x p b' _ hf (hsel.corp x hf.1))
      constructor
      · rintro (h | ⟨h, -, hno⟩)
        · exact .inl (hsubp q b h)
        · rcases hthere with k | k
          · exact absurd k (hno b')
          · unfold HasFile at h k
            rw [h] at k
            cases k
            exact .inl hb'
      · rintro (h | ⟨-, -, h⟩)
        · have := hone q b b' h hb'
          subst this
          rcases hthere with k | k
          · exact .inl k
          · by_cases hk : ∃ b'', FindingPlace c root ets fs1 q b''
            · obtain ⟨b'', hk⟩ := hk
              have := hone q b'' b (hsubp q b'' hk) h
              exact .inl (this ▸ hk)
            · exact .inr ⟨k, hcorp q b h, not_exists.mp hk⟩
        · exact absurd hb' (h b')
    · have hF' : ∀ b', ¬ FindingPlace c root ets fs1 q b' := fun b' h => hF ⟨b', hsubp q b' h⟩
      constructor
      · rintro (h | ⟨h, hin, -⟩)
        · exact absurd h (hF' b)
        · rcases hl2 q hin with k | k
          · exact absurd k hF
          · exact .inr ⟨(k b).mp h, hin, not_exists.mp hF⟩
      · rintro (h | ⟨h, hin, -⟩)
        · exact absurd ⟨b, h⟩ hF
        · rcases hl2 q hin with k | k
          · exact absurd k hF
          · exact .inr ⟨(k b).mpr h, hin, hF'⟩
  · rintro o' h1 ⟨wc, hcok⟩ q b
    have hr := C28_reset_removes o' c root ets hsel pl' hpl' ⟨fs1, t⟩ w1 hwf' h1 q
    have hplace : ∀ b', FindingPlace c root ets w.fs q b' → HasFile fs1 q b' := by
      rintro b' ⟨x, p, hf, rfl⟩
      rw [← hw1, storage_eq ho]
      obtain ⟨ws, hrr, hws⟩ := consolidate_result hls hsel hfin hcok
      have h3 := findings_in_corpus hsel hnc hrr hws hf
      rcases IOm.bind_cases (consolidate o c ls ets) (fun _ => reset o c ets) pl w with ⟨_, w1, k1, k2⟩ | ⟨h, -, -⟩
      · rw [hcok] at k1
        cases k1
        rw [k2]
        unfold HasFile
        rw [reset_frame o hsel pl wc _ (hcorp _ b' ⟨x, p, hf, rfl⟩)]
        exact h3
      · rw [hcok] at h
        exact absurd rfl (h () wc)
    rw [hkeep]
    by_cases hin : InOutput c ets q
    · constructor
      · intro h
        unfold HasFile at h
        rw [hr.1 hin] at h
        cases h
      · rintro (h | ⟨-, h, -⟩)
        · exact absurd hin (hcorp q b h)
        · exact absurd hin h
    · have : HasFile w1.fs q b ↔ HasFile fs1 q b := by unfold HasFile; rw [hr.2 hin]
      rw [this]
      by_cases hF : ∃ b', FindingPlace c root ets w.fs q b'
      · obtain ⟨b', hb'⟩ := hF
        have h4 := hplace b' hb'
        constructor
        · intro h
          unfold HasFile at h h4
          rw [h] at h4
          cases h4
          exact .inl hb'
        · rintro (h | ⟨-, -, h⟩)
          · exact hplace b h
          · exact absurd hb' (h b')
      · rcases hl2 q hin with k | k
        · exact absurd k hF
        · rw [k b]
          exact ⟨fun h => .inr ⟨h, hin, not_exists.mp hF⟩, fun h => h.elim (fun h => absurd ⟨b, h⟩ hF) (·.1)⟩

/-- **C30 (limit).** Once removal has begun, consolidating again may not succeed: it fails if one of the three directories is gone.
(By `C30_rerun`, resetting then does what is left to do.) -/
theorem C30_stuck (o : Opts) (ho : Consolidating o) (c : Ctx) (ls : Lister) (root : Path) (ets : List (Exe × List Str))
    (hsel : ValidSel c root ets) (x : Exe × Str) (hx : x ∈ pairs ets) (sub : Str) (hs : sub ∈ [c%"crashes", c%"hangs", c%"queue"])
    (w : World) (hgone : w.fs (outPath c root x ++ [c%"default", sub]) = none) (pl : Plan) (w' : World) :
    storage o c ls ets pl w ≠ (.ok (), w') := by
  rw [storage_eq ho]
  intro hok
  obtain ⟨_, w1, h1, -⟩ := IOm.bind_ok hok
  have hs' : o.consolidateAll = true ∨ Single ets := by
    by_contra hs
    rw [not_or] at hs
    rw [consolidate_panic o c ls ets (by simpa using hs.1) hs.2] at h1
    cases h1
  rw [consolidate_eq o c ls ets hs'] at h1
  have key : ∀ (ps : List (Exe × Str)) (w w1 : World), (∀ y ∈ ps, y ∈ pairs ets) → x ∈ ps →
      w.fs (outPath c root x ++ [c%"default", sub]) = none → consolidatePairs c ls ps pl w ≠ (.ok (), w1) := by
    intro ps
    induction ps with
    | nil => intro w w1 _ h; cases h
    | cons y ys ih =>
      intro w w1 hsub hmem hg hr
      have hy := hsub y List.mem_cons_self
      have hap : ∀ q, q = corpPath c root y → Apart q (outPath c root x) := fun q hq => hq ▸ hsel.apart y hy x hx
      unfold consolidatePairs at hr
      obtain ⟨_, w2, k1, k2⟩ := IOm.bind_ok hr
      have f := consolidateTarget_frame ls (hsel.corp y hy) (hsel.out y hy) pl w
      rw [k1] at f
      have hg2 : w2.fs (outPath c root x ++ [c%"default", sub]) = none :=
        (f.below hap (List.prefix_append _ _)).trans hg
      rcases List.mem_cons.mp hmem with rfl | hmem
      · obtain ⟨e1, e2, e3⟩ := findingDirs (hsel.out x hx)
        unfold consolidateTarget at k1
        rw [hsel.corp x hx, e1, e2, e3] at k1
        simp only [IOm.lift_ok_bind] at k1
        obtain ⟨_, wa, a1, a2⟩ := IOm.bind_ok k1
        obtain ⟨_, wb, b1, b2⟩ := IOm.bind_ok a2
        have fa := consolidateDir_frame ls (corpPath c root x) (outPath c root x ++ [c%"default", c%"crashes"]) pl w
        rw [a1] at fa
        have fb := consolidateDir_frame ls (corpPath c root x) (outPath c root x ++ [c%"default", c%"hangs"]) pl wa
        rw [b1] at fb
        have hdir : ∀ (w w1 : World) d, w.fs d = none → d ≠ [] → consolidateDir ls (corpPath c root x) d pl w ≠ (.ok (), w1) := by
          intro w w1 d hd hne h
          unfold consolidateDir at h
          obtain ⟨l, w3, h3, -⟩ := IOm.bind_ok h
          have hi : w.fs.isDir d = false := by
            unfold FS.isDir
            rw [hd]
            cases d with
            | nil => exact absurd rfl hne
            | cons _ _ => rfl
          unfold readDir IOm.prim at h3
          simp only [hi] at h3
          split at h3 <;> cases h3
        have ga := (fa.below hap (List.prefix_append _ [c%"default", sub])).trans hg
        have gb := (fb.below hap (List.prefix_append _ [c%"default", sub])).trans ga
        simp only [List.mem_cons, List.not_mem_nil, or_false] at hs
        rcases hs with rfl | rfl | rfl
        · exact hdir w wa _ hg (by simp) a1
        · exact hdir wa wb _ ga (by simp) b1
        · exact hdir wb w2 _ gb (by simp) b2
      · exact ih w2 w1 (fun y hy => hsub y (List.mem_cons_of_mem _ hy)) hmem hg2 k2
  exact key _ w w1 (fun _ h => h) hx hgone h1

/-! ## Cases -/

/-- The process dies while the output directory of the example is removed, when the crashes are gone. -/
def rmPlan : Plan := fun n => if n = 1 then .crash ⟨0, fun p => p == exOut ++ [c%"default", c%"crashes"]⟩ else .ok

/-- What is left then: the hangs, but not the crashes nor what was among them. A second reset succeeds. -/
example : let w1 := (reset {} exCtx exEts rmPlan ⟨exFs, 0⟩).2
    (reset {} exCtx exEts rmPlan ⟨exFs, 0⟩).1 = .crash ∧
    w1.fs (exOut ++ [c%"default", c%"crashes"]) = none ∧ w1.fs (exOut ++ [c%"default", c%"crashes", c%"id:0"]) = none ∧
    w1.fs (exOut ++ [c%"default", c%"hangs", c%"id:0"]) = some (.file [3]) ∧
    (reset {} exCtx exEts Plan.clean ⟨w1.fs, 0⟩).1 = .ok () ∧ (reset {} exCtx exEts Plan.clean ⟨exFs, 0⟩).1 = .ok () := by
  decide +kernel

/-- So consolidating fails from there on. -/
example (ls : Lister) (pl : Plan) (w' : World) :
    storage { consolidate := true } exCtx ls exEts pl ⟨(reset {} exCtx exEts rmPlan ⟨exFs, 0⟩).2.fs, 0⟩ ≠ (.ok (), w') := by
  refine C30_stuck _ (.inr ⟨rfl, rfl⟩) exCtx ls [c%"t"] exEts exSel (⟨c%"/x", c%"my-crate", ⟨none, none⟩⟩, c%"m::t")
    (by simp [pairs, exEts]) c%"crashes" (by simp) _ ?_ pl w'
  decide +kernel

/-- A consolidation that dies when it lists the first directory, and one that is repeated and succeeds. -/
example : ∃ ls w1, GoodLister ls ∧
    (storage { consolidate := true } exCtx ls exEts (fun _ => .crash ⟨0, fun _ => false⟩) ⟨exFs, 0⟩).1 = .crash ∧
    storage { consolidate := true } exCtx ls exEts Plan.clean
      ⟨(storage { consolidate := true } exCtx ls exEts (fun _ => .crash ⟨0, fun _ => false⟩) ⟨exFs, 0⟩).2.fs, 0⟩ = (.ok (), w1) := by
  obtain ⟨ls, w', hls, -, -, -, -, -, -, -, h⟩ := ex_consolidates
  refine ⟨ls, w', hls, ?_⟩
  have : storage { consolidate := true } exCtx ls exEts (fun _ => .crash ⟨0, fun _ => false⟩) ⟨exFs, 0⟩ = (.crash, ⟨exFs, 1⟩) := by
    rfl
  rw [this]
  exact ⟨rfl, h⟩

end TF
