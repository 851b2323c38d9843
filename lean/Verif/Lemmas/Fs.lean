import Verif.Model.Runtime
import Verif.Lemmas.Str

/-! Lemmas about the file-system model and `write_data`. -/

namespace TF

@[simp] theorem IOm.pure_run {α} (a : α) (pl : Plan) (w : World) :
    (pure a : IOm α) pl w = (.ok a, w) := rfl

@[simp] theorem IOm.lift_run {α} (a : Out α) (pl : Plan) (w : World) :
    (IOm.lift a) pl w = (a, w) := rfl

theorem IOm.bind_run {α β} (x : IOm α) (f : α → IOm β) (pl : Plan) (w : World) :
    (x >>= f) pl w =
      match x pl w with
      | (.ok a, w') => f a pl w'
      | (.err e, w') => (.err e, w')
      | (.panic, w') => (.panic, w')
      | (.exit c, w') => (.exit c, w')
      | (.crash, w') => (.crash, w') := rfl

/-- If a sequence succeeded, its first part succeeded. -/
theorem IOm.bind_ok {α β} {x : IOm α} {f : α → IOm β} {pl : Plan} {w w' : World} {b : β}
    (h : (x >>= f) pl w = (.ok b, w')) :
    ∃ a w1, x pl w = (.ok a, w1) ∧ f a pl w1 = (.ok b, w') := by
  rw [IOm.bind_run] at h
  rcases hx : x pl w with ⟨o, w1⟩
  rw [hx] at h
  cases o with
  | ok a => exact ⟨a, w1, rfl, h⟩
  | err e => simp at h
  | panic => simp at h
  | exit c => simp at h
  | crash => simp at h

/-- A sequence either ran its second part, or ended with the state of the first. -/
theorem IOm.bind_cases {α β} (x : IOm α) (f : α → IOm β) (pl : Plan) (w : World) :
    (∃ a w1, x pl w = (.ok a, w1) ∧ (x >>= f) pl w = f a pl w1) ∨
    ((∀ a w1, x pl w ≠ (.ok a, w1)) ∧ ((x >>= f) pl w).2 = (x pl w).2 ∧
      ∀ b w1, (x >>= f) pl w ≠ (.ok b, w1)) := by
  rw [IOm.bind_run]
  rcases hx : x pl w with ⟨o, w1⟩
  cases o with
  | ok a => exact Or.inl ⟨a, w1, rfl, rfl⟩
  | err e => right; simp
  | panic => right; simp
  | exit c => right; simp
  | crash => right; simp

/-- `fs'` extends `fs` with directories at or above `dir` only. -/
def DirExt (dir : Path) (fs fs' : FS) : Prop :=
  ∀ q, fs' q = fs q ∨ (fs q = none ∧ fs' q = some .dir ∧ q <+: dir)

theorem DirExt.refl (dir : Path) (fs : FS) : DirExt dir fs fs := fun _ => Or.inl rfl

theorem DirExt.trans {dir : Path} {a b c : FS} (h1 : DirExt dir a b) (h2 : DirExt dir b c) :
    DirExt dir a c := by
  intro q
  rcases h1 q with h | ⟨h, h', h''⟩
  · rcases h2 q with k | ⟨k, k', k''⟩
    · exact Or.inl (k.trans h)
    · exact Or.inr ⟨h ▸ k, k', k''⟩
  · rcases h2 q with k | ⟨k, k', k''⟩
    · exact Or.inr ⟨h, k.trans h', h''⟩
    · rw [h'] at k; cases k

theorem mkdirs_ext (dir : Path) (ps : List Path) (hps : ∀ p ∈ ps, p <+: dir) (fs : FS) :
    DirExt dir fs (mkdirs ps fs).1 := by
  induction ps generalizing fs with
  | nil => exact DirExt.refl _ _
  | cons p ps ih =>
    unfold mkdirs
    have hps' : ∀ q ∈ ps, q <+: dir := fun q hq => hps q (List.mem_cons_of_mem _ hq)
    split
    · exact ih hps' fs
    · exact DirExt.refl _ _
    · next hnone =>
      refine DirExt.trans ?_ (ih hps' _)
      intro q
      by_cases hq : q = p
      · subst hq
        exact Or.inr ⟨hnone, by simp [FS.set], hps _ List.mem_cons_self⟩
      · exact Or.inl (by simp [FS.set, hq])

theorem ancestors_prefix (dir : Path) : ∀ p ∈ dir.ancestors, p <+: dir := by
  intro p hp
  unfold Path.ancestors at hp
  rw [List.mem_map] at hp
  obtain ⟨i, -, rfl⟩ := hp
  exact List.take_prefix _ _

theorem createDirAll_ext (dir : Path) (pl : Plan) (w : World) :
    DirExt dir w.fs (createDirAll dir pl w).2.fs := by
  unfold createDirAll IOm.prim
  cases pl w.tick with
  | ok =>
    simp only
    have := mkdirs_ext dir _ (ancestors_prefix dir) w.fs
    rcases hm : mkdirs dir.ancestors w.fs with ⟨fs', b⟩
    rw [hm] at this
    cases b
    · exact DirExt.refl _ _
    · exact this
  | err q =>
    exact mkdirs_ext dir _ (fun p hp => ancestors_prefix dir p (List.mem_of_mem_take hp)) w.fs
  | crash q =>
    exact mkdirs_ext dir _ (fun p hp => ancestors_prefix dir p (List.mem_of_mem_take hp)) w.fs

theorem ignore_state (x : IOm Unit) (pl : Plan) (w : World) :
    (IOm.ignore x pl w).2 = (x pl w).2 := by
  unfold IOm.ignore
  rcases x pl w with ⟨o, w1⟩
  cases o <;> rfl

theorem unwrap_state {α} (x : IOm α) (pl : Plan) (w : World) :
    (IOm.unwrap x pl w).2 = (x pl w).2 := by
  unfold IOm.unwrap
  rcases x pl w with ⟨o, w1⟩
  cases o <;> rfl

theorem unwrap_ok {α} {x : IOm α} {pl : Plan} {w w' : World} {a : α}
    (h : IOm.unwrap x pl w = (.ok a, w')) : x pl w = (.ok a, w') := by
  unfold IOm.unwrap at h
  rcases hx : x pl w with ⟨o, w1⟩
  rw [hx] at h
  cases o <;> simp_all

/-- What one `write` does to the file system, whatever its fate. -/
theorem writeFile_cases (p : Path) (data : Bytes) (pl : Plan) (w : World) :
    (writeFile p data pl w).2.fs = w.fs ∨
    ∃ k, (writeFile p data pl w).2.fs = w.fs.set p (some (.file (data.take k))) := by
  unfold writeFile IOm.prim
  cases pl w.tick with
  | ok =>
    simp only
    split
    · next h =>
      split at h
      · cases h
      · right
        refine ⟨data.length, ?_⟩
        simp only [Out.ok.injEq, Prod.mk.injEq] at h
        simp [← h.2]
    all_goals exact Or.inl rfl
  | err q =>
    simp only
    split
    · exact Or.inl rfl
    · cases q.steps with
      | zero => exact Or.inl rfl
      | succ k => exact Or.inr ⟨k, rfl⟩
  | crash q =>
    simp only
    split
    · exact Or.inl rfl
    · cases q.steps with
      | zero => exact Or.inl rfl
      | succ k => exact Or.inr ⟨k, rfl⟩

theorem writeFile_ok {p : Path} {data : Bytes} {pl : Plan} {w w' : World}
    (h : writeFile p data pl w = (.ok (), w')) : w'.fs = w.fs.set p (some (.file data)) := by
  unfold writeFile IOm.prim at h
  cases hp : pl w.tick with
  | ok =>
    rw [hp] at h
    simp only at h
    split at h
    · next hc =>
      split at hc
      · cases hc
      · simp only [Out.ok.injEq, Prod.mk.injEq] at hc
        simp only [Prod.mk.injEq] at h
        rw [← h.2, ← hc.2]
    all_goals simp at h
  | err q => rw [hp] at h; simp at h
  | crash q => rw [hp] at h; simp at h

/-- The file written by `write_data`. -/
def dataPath (dir : Path) (data : Bytes) : Path := dir ++ [fileName data]

theorem dataPath_not_prefix (dir : Path) (data : Bytes) : ¬ dataPath dir data <+: dir := by
  intro h
  have := h.length_le
  simp [dataPath] at this
  omega

/-- State after `write_data`: new directories above, then possibly (a prefix of) the data. -/
theorem writeData_cases (dir : Path) (data : Bytes) (pl : Plan) (w : World) :
    ∃ fs1, DirExt dir w.fs fs1 ∧
      ((writeData dir data pl w).2.fs = fs1 ∨
       ∃ k, (writeData dir data pl w).2.fs = fs1.set (dataPath dir data) (some (.file (data.take k)))) := by
  unfold writeData
  rcases IOm.bind_cases (IOm.ignore (createDirAll dir)) (fun _ => writeFile (dir ++ [fileName data]) data)
    pl w with ⟨a, w1, h1, h2⟩ | ⟨-, h2, -⟩
  · refine ⟨w1.fs, ?_, ?_⟩
    · have := createDirAll_ext dir pl w
      rw [← ignore_state, h1] at this
      exact this
    · rw [h2]
      exact writeFile_cases _ _ _ _
  · refine ⟨_, createDirAll_ext dir pl w, Or.inl ?_⟩
    rw [h2, ignore_state]

theorem writeData_ok {dir : Path} {data : Bytes} {pl : Plan} {w w' : World}
    (h : writeData dir data pl w = (.ok (), w')) :
    ∃ fs1, DirExt dir w.fs fs1 ∧ w'.fs = fs1.set (dataPath dir data) (some (.file data)) := by
  unfold writeData at h
  obtain ⟨a, w1, h1, h2⟩ := IOm.bind_ok h
  refine ⟨w1.fs, ?_, writeFile_ok h2⟩
  have := createDirAll_ext dir pl w
  rw [← ignore_state, h1] at this
  exact this

end TF
