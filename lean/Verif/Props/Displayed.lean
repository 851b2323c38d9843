import Verif.Props.Replay
import Verif.Props.Instrument

/-! # Display of recorded instantiations: C57 -/

namespace TF

open Spec

/-- Showing files, without running anything, succeeds. -/
theorem entriesLoop_raw (lim : Nat) (y : Sys) (hy : Reliable y) (f : Flags) (hf : f.raw = true) (a : List Str) (e : Str) (fs : FS)
    (dir : Path) (ns : List Str) (hns : ∀ n ∈ ns, contents fs (dir ++ [n]) ≠ none) (se : Seen) (s : RSt)
    (hfs : s.world.fs = fs) : ∃ se', (entriesLoop lim y f a e dir ns se s).1 = .ok se' := by
  induction ns generalizing se s with
  | nil => exact ⟨se, rfl⟩
  | cons n ns ih =>
    have ih := fun se s hfs => ih (fun m hm => hns m (List.mem_cons_of_mem _ hm)) se s hfs
    have hn := hns n (by simp)
    have hn' : fs (dir ++ [n]) ≠ none := by
      intro h; apply hn; unfold contents; rw [h]
    unfold entriesLoop
    rw [Rm.bind_ok (openEntry_reliable hy _ s (by rw [hfs]; exact hn')), hfs]
    by_cases hsk : skipName n = true
    · simp only [hsk, if_true]
      exact ih se _ rfl
    · simp only [hsk, Bool.false_eq_true, if_false]
      cases hc : contents fs (dir ++ [n]) with
      | none => exact absurd hc hn
      | some d =>
        have : runEntry lim y f a e (dir ++ [n]) (some d) { s with world := ⟨fs, s.world.tick + 1⟩ } =
            (.ok (d, none), { s with world := ⟨fs, s.world.tick + 1⟩ }) := by
          unfold runEntry; rw [hf]; rfl
        rw [Rm.bind_ok this]
        obtain ⟨se1, v, g1, -⟩ := reportEntry_run f n d none se { s with world := ⟨fs, s.world.tick + 1⟩ }
        dsimp only
        rw [Rm.bind_ok g1]
        exact ih se1 _ rfl

/-- What is in the directory after recordings, if nothing was there before. -/
theorem recordAll_fresh (dir : Path) (ds : List Bytes) (pl : Plan) (w w' : World)
    (h : recordAll dir ds pl w = (.ok (), w')) (n : Str)
    (hw : w.fs (dir ++ [n]) = none ∨ (∃ d b, d ∈ ds ∧ n = fileName d ∧ HasFile w.fs (dir ++ [n]) b)) :
    w'.fs (dir ++ [n]) = none ∨ (∃ d b, d ∈ ds ∧ n = fileName d ∧ HasFile w'.fs (dir ++ [n]) b) := by
  suffices hg : ∀ all : List Bytes, (∀ d ∈ ds, d ∈ all) → ∀ w : World, recordAll dir ds pl w = (.ok (), w') →
      (w.fs (dir ++ [n]) = none ∨ (∃ d b, d ∈ all ∧ n = fileName d ∧ HasFile w.fs (dir ++ [n]) b)) →
      (w'.fs (dir ++ [n]) = none ∨ (∃ d b, d ∈ all ∧ n = fileName d ∧ HasFile w'.fs (dir ++ [n]) b)) from
    hg ds (fun _ h => h) w h hw
  clear h hw w
  intro all
  induction ds with
  | nil =>
    intro _ w h hw
    simp only [recordAll, IOm.pure_run, Prod.mk.injEq] at h
    rw [← h.2]; exact hw
  | cons d ds ih =>
    intro hall w h hw
    unfold recordAll at h
    obtain ⟨a, w1, h1, h2⟩ := IOm.bind_ok h
    refine ih (fun x hx => hall x (List.mem_cons_of_mem _ hx)) w1 h2 ?_
    obtain ⟨fs1, hext, hfs⟩ := writeData_ok h1
    by_cases hn : n = fileName d
    · subst hn
      exact Or.inr ⟨d, d, hall d (by simp), rfl, by simp [HasFile, hfs, FS.set, dataPath]⟩
    · have e : w1.fs (dir ++ [n]) = fs1 (dir ++ [n]) := by simp [hfs, FS.set, dataPath, hn]
      have e2 : fs1 (dir ++ [n]) = w.fs (dir ++ [n]) := by
        rcases hext (dir ++ [n]) with h | ⟨-, -, hp⟩
        · exact h
        · have := hp.length_le; simp only [List.length_append, List.length_singleton] at this; omega
      simp only [HasFile] at *
      rw [e, e2]; exact hw

theorem fileName_not_bookkeeping (d : Bytes) : ¬ Bookkeeping (fileName d) := by
  have hl : (fileName d).length = 40 := by simp [fileName, hexEncode_length, digest_length]
  rintro (h | h) <;> rw [h] at hl <;> exact absurd hl (by decide)

/-- **C57.** After calls with the instantiations `ts` have been recorded, displaying generic arguments succeeds, runs
nothing, and shows the text of each distinct instantiation exactly once and nothing else. `hinj`: no collision of SHA-1
among them. -/
theorem C57_shown (o : Opts) (ho : o.coverage.isSome ∨ o.display.isSome ∨ o.replay.isSome) (y : Sys) (hy : Reliable y)
    (exe : Exe) (target : Str) (ob : Object) (hob : TypeNames ob) (f : Flags) (dir : Path)
    (hd : flagsAndDir y.ctx ob exe.name target = .ok (f, dir)) (ts : List (List Str))
    (hinj : ∀ a ∈ ts, ∀ b ∈ ts, fileName (typeList a) = fileName (typeList b) → typeList a = typeList b)
    (pl : Plan) (w w' : World) (hnew : ∀ n, w.fs (dir ++ [n]) = none)
    (hrec : recordAll dir (ts.map typeList) pl w = (.ok (), w'))
    (s : RSt) (hs : s.world.fs = w'.fs) (hdir : s.world.fs dir = some .dir) (hl : y.lister.Correct s.world.fs dir) :
    (forEachEntry o y exe target f dir s).1 = .ok () ∧
    ∃ l, (forEachEntry o y exe target f dir s).2.acts = s.acts ++ l ∧ l.filterMap harnessOf = [] ∧
      ((l.filterMap reportOf).map Report.buffer).Nodup ∧
      (∀ b, b ∈ (l.filterMap reportOf).map Report.buffer ↔ ∃ t ∈ ts, b = typeList t) ∧
      ∀ r ∈ l.filterMap reportOf, r.verdict = .raw := by
  have hraw : f.raw = true := (C32_objects _ _ _ _ _ _ hd).2.mpr hob
  have hinj' : ∀ a ∈ ts.map typeList, ∀ b ∈ ts.map typeList, fileName a = fileName b → a = b := by
    intro a ha b hb
    obtain ⟨a, ha', rfl⟩ := List.mem_map.mp ha
    obtain ⟨b, hb', rfl⟩ := List.mem_map.mp hb
    exact hinj a ha' b hb'
  -- the files
  have hfile : ∀ n, s.world.fs (dir ++ [n]) ≠ none →
      ∃ t ∈ ts, n = fileName (typeList t) ∧ HasFile s.world.fs (dir ++ [n]) (typeList t) := by
    intro n hn
    rcases recordAll_fresh dir _ pl w w' hrec n (Or.inl (hnew n)) with h | ⟨d, b, h1, h2, h3⟩
    · rw [hs] at hn; exact absurd h hn
    · rw [C02_corpus_is_set dir _ hinj' pl w w' hrec] at h3
      rcases h3 with ⟨h3, h4⟩ | ⟨h3, -⟩
      · obtain ⟨t, ht, rfl⟩ := List.mem_map.mp h3
        have hnt : n = fileName (typeList t) := by simpa using h4
        refine ⟨t, ht, hnt, ?_⟩
        rw [hs, C02_corpus_is_set dir _ hinj' pl w w' hrec]
        exact Or.inl ⟨h3, h4⟩
      · rw [HasFile, hnew] at h3; cases h3
  have hthere : ∀ t ∈ ts, HasFile s.world.fs (dir ++ [fileName (typeList t)]) (typeList t) := by
    intro t ht
    rw [hs, C02_corpus_is_set dir _ hinj' pl w w' hrec]
    exact Or.inl ⟨List.mem_map.mpr ⟨t, ht, rfl⟩, rfl⟩
  obtain ⟨hnd, hmem, -, l, h1, -, -, h4, h5⟩ := C32_once o ho y hy exe target f dir s hdir hl (.inl hraw)
  have hok : (forEachEntry o y exe target f dir s).1 = .ok () := by
    unfold forEachEntry
    rw [Rm.bind_ok (pathExists_reliable hy dir s)]
    have hex : s.world.fs.exists dir = true := by simp [FS.exists, hdir]
    rw [hex]
    simp only [ensure, if_true]
    rw [Rm.lift_ok_bind, Rm.bind_ok (readDir_reliable hy dir { s with world := ⟨s.world.fs, s.world.tick + 1⟩ } hdir)]
    have hns : ∀ n ∈ y.lister s.world.fs dir, contents s.world.fs (dir ++ [n]) ≠ none := by
      intro n hn
      rw [hl.2 n, Option.isSome_iff_ne_none] at hn
      obtain ⟨t, -, -, ht⟩ := hfile n hn
      unfold contents; rw [ht]; simp
    have hne : ∀ n ∈ y.lister s.world.fs dir, s.world.fs (dir ++ [n]) ≠ none := by
      intro n hn; rw [hl.2 n, Option.isSome_iff_ne_none] at hn; exact hn
    obtain ⟨se, hse⟩ := entriesLoop_raw (timeLimit o) y hy f hraw (entryArgs target) exe.path s.world.fs dir _ hns {}
      { s with world := ⟨s.world.fs, s.world.tick + 1 + 1⟩ } rfl
    obtain ⟨-, l', -, -, -, -, k⟩ := entriesLoop_runs (timeLimit o) y hy f (entryArgs target) exe.path s.world.fs dir _ hne {} []
      ⟨by simp, by simp, by simp, by simp⟩ (.inl hraw) { s with world := ⟨s.world.fs, s.world.tick + 1 + 1⟩ } fun _ => rfl
    obtain ⟨-, -, m3⟩ := k se hse
    generalize hw : entriesLoop (timeLimit o) y f (entryArgs target) exe.path dir (y.lister s.world.fs dir) {}
      { s with world := ⟨s.world.fs, s.world.tick + 1 + 1⟩ } = z at hse
    obtain ⟨z1, z2⟩ := z
    simp only at hse
    subst hse
    rw [Rm.bind_ok hw]
    obtain ⟨notes, c1, -⟩ := closing_says o ho se _ m3 z2
    rw [c1]
  obtain ⟨g1, g2, -⟩ := h5 hok
  refine ⟨hok, l, h1, by rw [g1, hraw]; rfl, ?_, ?_, fun r hr => (h4 hraw r hr).2⟩
  · -- names are determined by contents
    rw [← g2] at hnd
    refine List.Nodup.map_on ?_ hnd.of_map
    intro r hr r' hr' hb
    have q := (h4 hraw r hr).1
    have q' := (h4 hraw r' hr').1
    have name : ∀ r : Report, contents s.world.fs (dir ++ [r.name]) = some r.buffer → r.name = fileName r.buffer := by
      intro r hc
      have : s.world.fs (dir ++ [r.name]) ≠ none := by intro h; unfold contents at hc; rw [h] at hc; cases hc
      obtain ⟨t, -, ht1, ht2⟩ := hfile _ this
      unfold contents at hc
      rw [ht2] at hc
      injection hc with hc
      rw [ht1, ← hc]
    have v := (h4 hraw r hr).2
    have v' := (h4 hraw r' hr').2
    have e1 := name r q
    have e2 := name r' q'
    cases r; cases r'
    simp only at e1 e2 hb v v'
    subst hb v v' e1 e2
    rfl
  · intro b
    rw [List.mem_map]
    constructor
    · rintro ⟨r, hr, rfl⟩
      have hc := (h4 hraw r hr).1
      have : s.world.fs (dir ++ [r.name]) ≠ none := by intro h; unfold contents at hc; rw [h] at hc; cases hc
      obtain ⟨t, ht, -, ht2⟩ := hfile _ this
      unfold contents at hc
      rw [ht2] at hc
      injection hc with hc
      exact ⟨t, ht, hc.symm⟩
    · rintro ⟨t, ht, rfl⟩
      have hf := hthere t ht
      have hin : fileName (typeList t) ∈ inputs y.lister s.world.fs dir := by
        rw [hmem]
        exact ⟨by rw [hf]; simp, fileName_not_bookkeeping _⟩
      rw [← g2, List.mem_map] at hin
      obtain ⟨r, hr, hrn⟩ := hin
      refine ⟨r, hr, ?_⟩
      have hc := (h4 hraw r hr).1
      unfold contents at hc
      rw [hrn, hf] at hc
      injection hc with hc
      exact hc.symm

/-- Two calls with the same instantiation, one with another. -/
example : [typeList [c%"u8", c%"Vec<u8>"], typeList [c%"u8", c%"Vec<u8>"], typeList []].map utf8Decode =
    [some c%"u8, Vec<u8>", some c%"u8, Vec<u8>", some []] := by decide +kernel

/-- `C57_shown` applies. -/
example (y : Sys) (exe : Exe) (hy : y.ctx = exCtx) (hn : exe.name = c%"k") : ∃ dir,
    TypeNames .genericArgs ∧ flagsAndDir y.ctx .genericArgs exe.name c%"t" = .ok (⟨true, true⟩, dir) ∧
    ∃ w w' : World, (∀ n, w.fs (dir ++ [n]) = none) ∧
      recordAll dir [typeList [c%"u8"], typeList [c%"u8"]] Plan.clean w = (.ok (), w') := by
  rw [hy, hn]
  refine ⟨[c%"t", c%"generic_args", c%"k::t"], by simp [TypeNames], by decide +kernel, ⟨fun _ => none, 0⟩, ?_⟩
  obtain ⟨w', hw'⟩ := recordAll_succeeds [c%"t", c%"generic_args", c%"k::t"] [typeList [c%"u8"], typeList [c%"u8"]]
    ⟨fun _ => none, 0⟩ (fun _ _ _ h => nomatch h) (fun _ h => nomatch h)
  exact ⟨w', fun _ => rfl, hw'⟩

end TF
