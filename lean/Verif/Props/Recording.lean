import Verif.Lemmas.Fs
import Verif.Spec.Recording

/-!
# C01, C02, C04: recording
-/

namespace TF

open Spec

/-! ## Helpers -/

/-- A sequence of recordings into one directory; it ends at the first failure. -/
def recordAll (dir : Path) : List Bytes → IOm Unit
  | [] => pure ()
  | d :: ds => do
    writeData dir d
    recordAll dir ds

theorem hexVal_hexDigit (n : Nat) (h : n < 16) : hexVal (Sha1.hexDigit n) = some n := by
  have : ∀ m : Fin 16, hexVal (Sha1.hexDigit m.val) = some m.val := by decide
  exact this ⟨n, h⟩

theorem hexDecode_hexEncode (b : Bytes) : hexDecode (Sha1.hexEncode b) = some b := by
  induction b with
  | nil => rfl
  | cons x xs ih =>
    have hx : x.toNat < 256 := x.toNat_lt
    simp only [Sha1.hexEncode, hexDecode]
    rw [hexVal_hexDigit _ (by omega), hexVal_hexDigit _ (by omega), ih]
    simp only [Option.some.injEq, List.cons.injEq, and_true]
    have : 16 * (x.toNat / 16) + x.toNat % 16 = x.toNat := by omega
    rw [this]
    exact UInt8.ofNat_toNat

theorem hexEncode_length (b : Bytes) : (Sha1.hexEncode b).length = 2 * b.length := by
  induction b with
  | nil => rfl
  | cons x xs ih => simp only [Sha1.hexEncode, List.length_cons, ih]; omega

theorem digest_length (b : Bytes) : (Sha1.digest b).length = 20 := by
  simp [Sha1.digest, Sha1.wordBytes]

theorem hasFile_dirExt {dir : Path} {fs fs' : FS} (h : DirExt dir fs fs') (p : Path) (b : Bytes) :
    HasFile fs' p b ↔ HasFile fs p b := by
  unfold HasFile
  rcases h p with h | ⟨h1, h2, -⟩
  · rw [h]
  · simp [h1, h2]

theorem dataPath_inj {dir : Path} {a b : Bytes} : dataPath dir a = dataPath dir b ↔ fileName a = fileName b := by
  simp [dataPath]

/-- Complete description of the files after successful recordings. -/
theorem recordAll_files (dir : Path) (ds : List Bytes)
    (hinj : ∀ a ∈ ds, ∀ b ∈ ds, fileName a = fileName b → a = b)
    (pl : Plan) (w w' : World) (h : recordAll dir ds pl w = (.ok (), w')) (p : Path) (b : Bytes) :
    HasFile w'.fs p b ↔
      (∃ d ∈ ds, p = dir ++ [fileName d] ∧ b = d) ∨
      (HasFile w.fs p b ∧ ∀ d ∈ ds, p ≠ dir ++ [fileName d]) := by
  induction ds generalizing w with
  | nil =>
    simp only [recordAll, IOm.pure_run, Prod.mk.injEq] at h
    simp [← h.2]
  | cons d ds ih =>
    unfold recordAll at h
    obtain ⟨a, w1, h1, h2⟩ := IOm.bind_ok h
    obtain ⟨fs1, hext, hfs⟩ := writeData_ok h1
    have hinj' : ∀ a ∈ ds, ∀ b ∈ ds, fileName a = fileName b → a = b :=
      fun a ha b hb => hinj a (List.mem_cons_of_mem _ ha) b (List.mem_cons_of_mem _ hb)
    rw [ih hinj' w1 h2]
    have key : HasFile w1.fs p b ↔
        (p = dir ++ [fileName d] ∧ b = d) ∨ (p ≠ dir ++ [fileName d] ∧ HasFile w.fs p b) := by
      by_cases hp : p = dir ++ [fileName d]
      · simp [HasFile, hfs, FS.set, dataPath, hp, eq_comm]
      · rw [← hasFile_dirExt hext]
        simp [HasFile, hfs, FS.set, dataPath, hp]
    rw [key]
    constructor
    · rintro (⟨x, hx, h3, h4⟩ | ⟨⟨h3, h4⟩ | ⟨h3, h4⟩, h5⟩)
      · exact Or.inl ⟨x, List.mem_cons_of_mem _ hx, h3, h4⟩
      · exact Or.inl ⟨d, List.mem_cons_self, h3, h4⟩
      · refine Or.inr ⟨h4, ?_⟩
        intro x hx
        rcases List.mem_cons.mp hx with rfl | hx
        · exact h3
        · exact h5 x hx
    · rintro (⟨x, hx, h3, h4⟩ | ⟨h3, h4⟩)
      · rcases List.mem_cons.mp hx with rfl | hx
        · by_cases hex : ∃ y ∈ ds, p = dir ++ [fileName y]
          · obtain ⟨y, hy, hpy⟩ := hex
            have : fileName x = fileName y := by
              have := h3.symm.trans hpy
              simpa using this
            have hxy := hinj x List.mem_cons_self y (List.mem_cons_of_mem _ hy) this
            exact Or.inl ⟨y, hy, hpy, h4.trans hxy⟩
          · exact Or.inr ⟨Or.inl ⟨h3, h4⟩, fun y hy hpy => hex ⟨y, hy, hpy⟩⟩
        · exact Or.inl ⟨x, hx, h3, h4⟩
      · exact Or.inr ⟨Or.inr ⟨h4 d List.mem_cons_self, h3⟩,
          fun y hy => h4 y (List.mem_cons_of_mem _ hy)⟩

/-! ## C01 -/

/-- **C01.** If `write_data(dir, data)` succeeds – from any file system, whatever I/O errors were
swallowed on the way – then `dir` has a file with exactly the data, whose name is the 40-digit
lowercase hexadecimal SHA-1 of the data, and nothing else changed except that missing directories
above it were made. -/
theorem C01_record_stores_data (dir : Path) (data : Bytes) (pl : Plan) (w w' : World)
    (h : writeData dir data pl w = (.ok (), w')) :
    ∃ name : Str, HasFile w'.fs (dir ++ [name]) data ∧
      name.length = 40 ∧ hexDecode name = some (Sha1.digest data) ∧
      ChangesOnly (dir ++ [name]) w.fs w'.fs := by
  obtain ⟨fs1, hext, hfs⟩ := writeData_ok h
  refine ⟨fileName data, ?_, ?_, ?_, ?_⟩
  · simp [HasFile, hfs, FS.set, dataPath]
  · simp [fileName, hexEncode_length, digest_length]
  · rw [fileName]; exact hexDecode_hexEncode _
  · intro q hq
    have : w'.fs q = fs1 q := by simp [hfs, FS.set, dataPath, hq]
    rw [this]
    rcases hext q with h | ⟨h1, h2, h3⟩
    · exact Or.inl h
    · exact Or.inr ⟨h1, h2, h3.trans (List.prefix_append _ _)⟩

/-- Making directories succeeds if none of them is a file. -/
theorem mkdirs_creatable (ps : List Path) (fs : FS) (hps : ∀ p ∈ ps, ∀ b, fs p ≠ some (.file b)) :
    (mkdirs ps fs).2 = true ∧ (∀ p ∈ ps, (mkdirs ps fs).1 p = some .dir) ∧
      (∀ q, fs q = some .dir → (mkdirs ps fs).1 q = some .dir) := by
  induction ps generalizing fs with
  | nil => simp [mkdirs]
  | cons p ps ih =>
    unfold mkdirs
    have hps' : ∀ q ∈ ps, ∀ b, fs q ≠ some (.file b) := fun q hq => hps q (List.mem_cons_of_mem _ hq)
    split
    · next hd =>
      obtain ⟨h1, h2, h3⟩ := ih fs hps'
      refine ⟨h1, ?_, h3⟩
      intro q hq
      rcases List.mem_cons.mp hq with rfl | hq
      · exact h3 _ hd
      · exact h2 q hq
    · next b hf => exact absurd hf (hps p List.mem_cons_self b)
    · next hn =>
      have : ∀ q ∈ ps, ∀ b, (fs.set p (some .dir)) q ≠ some (.file b) := by
        intro q hq b
        by_cases hqp : q = p
        · simp [FS.set, hqp]
        · simpa [FS.set, hqp] using hps' q hq b
      obtain ⟨h1, h2, h3⟩ := ih _ this
      refine ⟨h1, ?_, ?_⟩
      · intro q hq
        rcases List.mem_cons.mp hq with rfl | hq
        · exact h3 _ (by simp [FS.set])
        · exact h2 q hq
      · intro q hq
        apply h3
        by_cases hqp : q = p
        · simp [FS.set, hqp]
        · simpa [FS.set, hqp] using hq

theorem ancestors_self {dir : Path} (h : dir ≠ []) : dir ∈ dir.ancestors := by
  unfold Path.ancestors
  rw [List.mem_map]
  have : 0 < dir.length := List.length_pos_iff.mpr h
  refine ⟨dir.length - 1, by simp; omega, ?_⟩
  rw [Nat.sub_add_cancel this, List.take_length]

/-- **C01 (success).** Without I/O errors recording succeeds whenever the directory can be made
(no file is in the way) and the name is not taken by a directory. -/
theorem C01_record_succeeds (dir : Path) (data : Bytes) (w : World) (hc : Creatable w.fs dir)
    (hd : ∀ name, w.fs (dir ++ [name]) ≠ some .dir) :
    ∃ w', writeData dir data Plan.clean w = (.ok (), w') := by
  obtain ⟨h1, h2, -⟩ := mkdirs_creatable dir.ancestors w.fs
    (fun p hp b => hc p b (ancestors_prefix dir p hp))
  have hext := mkdirs_ext dir _ (ancestors_prefix dir) w.fs
  rcases hm : mkdirs dir.ancestors w.fs with ⟨fs', b⟩
  rw [hm] at h1 h2 hext
  simp only at h1 h2 hext
  subst h1
  have hcreate : IOm.ignore (createDirAll dir) Plan.clean w = (.ok (), ⟨fs', w.tick + 1⟩) := by
    simp [IOm.ignore, createDirAll, IOm.prim, Plan.clean, hm]
  have hisdir : fs'.isDir dir = true := by
    unfold FS.isDir
    by_cases he : dir = []
    · simp [he]
    · simp [h2 dir (ancestors_self he)]
  have hnd : fs' (dir ++ [fileName data]) ≠ some .dir := by
    rcases hext (dir ++ [fileName data]) with h | ⟨-, -, h⟩
    · rw [h]; exact hd _
    · exact absurd h (dataPath_not_prefix dir data)
  refine ⟨⟨fs'.set (dir ++ [fileName data]) (some (.file data)), w.tick + 1 + 1⟩, ?_⟩
  unfold writeData
  rw [IOm.bind_run, hcreate]
  simp [writeFile, IOm.prim, Plan.clean, hnd, hisdir]

/-- Non-vacuity of C01: recording two bytes into a directory that does not exist yet. -/
example : ∃ w', writeData [c%"corpus", c%"t"] [1, 2] Plan.clean ⟨fun _ => none, 0⟩ = (.ok (), w') :=
  C01_record_succeeds _ _ _ (by intro q b _; simp) (by intro n; simp)

/-! ## C02 -/

/-- **C02.** After any sequence of successful recordings of inputs that do not collide under SHA-1, the
files are: one file per distinct input, named by its hash, plus all earlier files of other names. -/
theorem C02_corpus_is_set (dir : Path) (ds : List Bytes)
    (hinj : ∀ a ∈ ds, ∀ b ∈ ds, fileName a = fileName b → a = b)
    (pl : Plan) (w w' : World) (h : recordAll dir ds pl w = (.ok (), w')) (p : Path) (b : Bytes) :
    HasFile w'.fs p b ↔
      (b ∈ ds ∧ p = dir ++ [fileName b]) ∨
      (HasFile w.fs p b ∧ ∀ d ∈ ds, p ≠ dir ++ [fileName d]) := by
  rw [recordAll_files dir ds hinj pl w w' h]
  constructor
  · rintro (⟨d, hd, h1, h2⟩ | h)
    · subst h2; exact Or.inl ⟨hd, h1⟩
    · exact Or.inr h
  · rintro (⟨h1, h2⟩ | h)
    · exact Or.inl ⟨b, h1, h2, rfl⟩
    · exact Or.inr h

/-- **C02 (order and repetition).** Two sequences with the same set of inputs, started in the same file
system under possibly different I/O behaviour, leave the same files. -/
theorem C02_order_independent (dir : Path) (ds es : List Bytes) (hset : ∀ x, x ∈ ds ↔ x ∈ es)
    (hinj : ∀ a ∈ ds, ∀ b ∈ ds, fileName a = fileName b → a = b)
    (pl pl' : Plan) (w w1 w2 : World)
    (h1 : recordAll dir ds pl w = (.ok (), w1)) (h2 : recordAll dir es pl' w = (.ok (), w2)) :
    SameFiles w1.fs w2.fs := by
  intro p b
  have hinj' : ∀ a ∈ es, ∀ b ∈ es, fileName a = fileName b → a = b :=
    fun a ha b hb => hinj a ((hset a).mpr ha) b ((hset b).mpr hb)
  rw [C02_corpus_is_set dir ds hinj pl w w1 h1, C02_corpus_is_set dir es hinj' pl' w w2 h2]
  simp [hset]

/-- **C02 (idempotence).** Recording inputs that are already in the corpus changes no file. -/
theorem C02_idempotent (dir : Path) (ds : List Bytes) (pl : Plan) (w w' : World)
    (hin : ∀ d ∈ ds, HasFile w.fs (dir ++ [fileName d]) d)
    (h : recordAll dir ds pl w = (.ok (), w')) : SameFiles w.fs w'.fs := by
  have hinj : ∀ a ∈ ds, ∀ b ∈ ds, fileName a = fileName b → a = b := by
    intro a ha b hb hab
    have h1 := hin a ha
    have h2 := hin b hb
    rw [hab] at h1
    simp only [HasFile] at h1 h2
    rw [h1] at h2
    simpa using h2
  intro p b
  rw [C02_corpus_is_set dir ds hinj pl w w' h]
  constructor
  · intro hb
    by_cases hex : ∃ d ∈ ds, p = dir ++ [fileName d]
    · obtain ⟨d, hd, hp⟩ := hex
      have h1 := hin d hd
      rw [← hp] at h1
      simp only [HasFile] at h1 hb
      rw [h1] at hb
      simp only [Option.some.injEq, Node.file.injEq] at hb
      subst hb
      exact Or.inl ⟨hd, hp⟩
    · exact Or.inr ⟨hb, fun d hd hp => hex ⟨d, hd, hp⟩⟩
  · rintro (⟨h1, h2⟩ | ⟨h1, -⟩)
    · rw [h2]; exact hin b h1
    · exact h1

/-- Without I/O errors a whole sequence of recordings into a creatable directory succeeds. -/
theorem recordAll_succeeds (dir : Path) (ds : List Bytes) (w : World) (hc : Creatable w.fs dir)
    (hd : ∀ name, w.fs (dir ++ [name]) ≠ some .dir) :
    ∃ w', recordAll dir ds Plan.clean w = (.ok (), w') := by
  induction ds generalizing w with
  | nil => exact ⟨w, rfl⟩
  | cons d ds ih =>
    obtain ⟨w1, h1⟩ := C01_record_succeeds dir d w hc hd
    obtain ⟨fs1, hext, hfs⟩ := writeData_ok h1
    have hc' : Creatable w1.fs dir := by
      intro q b hq
      have hne : q ≠ dataPath dir d := fun e => dataPath_not_prefix dir d (e ▸ hq)
      have : w1.fs q = fs1 q := by simp [hfs, FS.set, hne]
      rw [this]
      rcases hext q with h | ⟨-, h, -⟩
      · rw [h]; exact hc q b hq
      · rw [h]; simp
    have hd' : ∀ name, w1.fs (dir ++ [name]) ≠ some .dir := by
      intro name
      rw [hfs]
      unfold FS.set
      split
      · simp
      · rcases hext (dir ++ [name]) with h | ⟨-, -, h⟩
        · rw [h]; exact hd name
        · have := h.length_le
          simp at this
          omega
    obtain ⟨w', h2⟩ := ih w1 hc' hd'
    refine ⟨w', ?_⟩
    unfold recordAll
    rw [IOm.bind_run, h1]
    exact h2

/-- Non-vacuity of C02: three recordings of two different inputs, in either order. -/
example : ∃ w1 w2,
    recordAll [c%"c"] [[1], [2], [1]] Plan.clean ⟨fun _ => none, 0⟩ = (.ok (), w1) ∧
    recordAll [c%"c"] [[2], [1]] Plan.clean ⟨fun _ => none, 0⟩ = (.ok (), w2) ∧
    fileName [1] ≠ fileName [2] ∧ SameFiles w1.fs w2.fs := by
  obtain ⟨w1, h1⟩ := recordAll_succeeds [c%"c"] [[1], [2], [1]] ⟨fun _ => none, 0⟩
    (by intro q b _; simp) (by intro n; simp)
  obtain ⟨w2, h2⟩ := recordAll_succeeds [c%"c"] [[2], [1]] ⟨fun _ => none, 0⟩
    (by intro q b _; simp) (by intro n; simp)
  have hne : fileName [1] ≠ fileName [2] := by decide +kernel
  refine ⟨w1, w2, h1, h2, hne, C02_order_independent _ _ _ (by intro x; simp; tauto) ?_ _ _ _ _ _ h1 h2⟩
  intro a ha b hb hab
  simp only [List.mem_cons, List.not_mem_nil, or_false] at ha hb
  rcases ha with rfl | rfl | rfl <;> rcases hb with rfl | rfl | rfl <;>
    first | rfl | exact absurd hab hne | exact absurd hab.symm hne

/-! ## C04 -/

/-- The state after recordings with arbitrary failures: all inputs before the failing one are
completely recorded; the one in flight holds a prefix of its data or what was there before. -/
theorem C04_interrupted (dir : Path) (ds : List Bytes)
    (hinj : ∀ a ∈ ds, ∀ b ∈ ds, fileName a = fileName b → a = b) (pl : Plan) (w : World)
    (hfail : (recordAll dir ds pl w).1 ≠ .ok ()) :
    ∃ done cur rest, ds = done ++ cur :: rest ∧
      -- inputs recorded before the interruption are complete, unless they are the one in flight
      (∀ d ∈ done, d ≠ cur → HasFile (recordAll dir ds pl w).2.fs (dir ++ [fileName d]) d) ∧
      -- the input in flight: some prefix of it, or untouched
      ((∃ k, HasFile (recordAll dir ds pl w).2.fs (dir ++ [fileName cur]) (cur.take k)) ∨
        (recordAll dir ds pl w).2.fs (dir ++ [fileName cur]) = w.fs (dir ++ [fileName cur])) ∧
      -- every other file is as before
      (∀ p b, (∀ d ∈ done, p ≠ dir ++ [fileName d]) → p ≠ dir ++ [fileName cur] →
        (HasFile (recordAll dir ds pl w).2.fs p b ↔ HasFile w.fs p b)) := by
  induction ds generalizing w with
  | nil => simp [recordAll] at hfail
  | cons d ds ih =>
    have hinj' : ∀ a ∈ ds, ∀ b ∈ ds, fileName a = fileName b → a = b :=
      fun a ha b hb => hinj a (List.mem_cons_of_mem _ ha) b (List.mem_cons_of_mem _ hb)
    rcases IOm.bind_cases (writeData dir d) (fun _ => recordAll dir ds) pl w with
      ⟨a, w1, h1, h2⟩ | ⟨hno, h2, -⟩
    · have hrun : recordAll dir (d :: ds) pl w = recordAll dir ds pl w1 := h2
      rw [hrun] at hfail ⊢
      obtain ⟨done, cur, rest, hds, hdone, hcur, hother⟩ := ih hinj' w1 hfail
      obtain ⟨fs1, hext, hfs⟩ := writeData_ok h1
      have hd1 : HasFile w1.fs (dir ++ [fileName d]) d := by simp [HasFile, hfs, FS.set, dataPath]
      have hne1 : ∀ p b, p ≠ dir ++ [fileName d] → (HasFile w1.fs p b ↔ HasFile w.fs p b) := by
        intro p b hp
        rw [← hasFile_dirExt hext]
        simp [HasFile, hfs, FS.set, dataPath, hp]
      have hcm : cur ∈ ds := by rw [hds]; simp
      refine ⟨d :: done, cur, rest, by simp [hds], ?_, ?_, ?_⟩
      · intro x hx hxc
        rcases List.mem_cons.mp hx with rfl | hx
        · by_cases hex : ∃ y ∈ done, fileName x = fileName y
          · obtain ⟨y, hy, hxy⟩ := hex
            have : x = y := hinj x List.mem_cons_self y
              (List.mem_cons_of_mem _ (by rw [hds]; simp [hy])) hxy
            exact hdone x (this ▸ hy) hxc
          · rw [hother]
            · exact hd1
            · intro y hy he
              exact hex ⟨y, hy, by simpa using he⟩
            · intro he
              exact hxc (hinj x List.mem_cons_self cur (List.mem_cons_of_mem _ hcm) (by simpa using he))
        · exact hdone x hx hxc
      · by_cases hdc : fileName cur = fileName d
        · have : cur = d := hinj cur (List.mem_cons_of_mem _ hcm) d List.mem_cons_self hdc
          subst this
          rcases hcur with h | h
          · exact Or.inl h
          · left
            refine ⟨cur.length, ?_⟩
            unfold HasFile at hd1 ⊢
            rw [h, hd1, List.take_length]
        · rcases hcur with h | h
          · exact Or.inl h
          · by_cases hf : ∃ b, HasFile w.fs (dir ++ [fileName cur]) b
            · right
              obtain ⟨b, hb⟩ := hf
              have hp : dir ++ [fileName cur] ≠ dir ++ [fileName d] := by simpa using hdc
              have := (hne1 _ b hp).mpr hb
              rw [h, this, hb]
            · right
              rw [h]
              have hp : dir ++ [fileName cur] ≠ dir ++ [fileName d] := by simpa using hdc
              have : w1.fs (dir ++ [fileName cur]) = fs1 (dir ++ [fileName cur]) := by
                simp [hfs, FS.set, dataPath, hdc]
              rw [this]
              rcases hext (dir ++ [fileName cur]) with h | ⟨-, -, h⟩
              · exact h
              · exact absurd h (dataPath_not_prefix dir cur)
      · intro p b hp1 hp2
        rw [hother p b (fun x hx => hp1 x (List.mem_cons_of_mem _ hx)) hp2]
        exact hne1 p b (hp1 d List.mem_cons_self)
    · have hrun : (recordAll dir (d :: ds) pl w).2 = (writeData dir d pl w).2 := h2
      rw [hrun]
      obtain ⟨fs1, hext, hfs⟩ := writeData_cases dir d pl w
      refine ⟨[], d, ds, rfl, by simp, ?_, ?_⟩
      · rcases hfs with h | ⟨k, h⟩
        · right
          rw [h]
          rcases hext (dir ++ [fileName d]) with h | ⟨-, -, h⟩
          · exact h
          · exact absurd h (dataPath_not_prefix dir d)
        · left
          exact ⟨k, by simp [HasFile, h, FS.set, dataPath]⟩
      · intro p b _ hp
        rw [← hasFile_dirExt hext]
        rcases hfs with h | ⟨k, h⟩
        · rw [h]
        · simp [HasFile, h, FS.set, dataPath, hp]

/-- Files not named after one of the inputs are the same before and after, whatever happened. -/
theorem recordAll_frame (dir : Path) (ds : List Bytes) (pl : Plan) (w : World) (p : Path) (b : Bytes)
    (hp : ∀ d ∈ ds, p ≠ dir ++ [fileName d]) :
    HasFile (recordAll dir ds pl w).2.fs p b ↔ HasFile w.fs p b := by
  induction ds generalizing w with
  | nil => simp [recordAll]
  | cons d ds ih =>
    have one : HasFile (writeData dir d pl w).2.fs p b ↔ HasFile w.fs p b := by
      obtain ⟨fs1, hext, hfs⟩ := writeData_cases dir d pl w
      rw [← hasFile_dirExt hext]
      rcases hfs with h | ⟨k, h⟩
      · rw [h]
      · simp [HasFile, h, FS.set, dataPath, hp d List.mem_cons_self]
    rcases IOm.bind_cases (writeData dir d) (fun _ => recordAll dir ds) pl w with
      ⟨a, w1, h1, h2⟩ | ⟨-, h2, -⟩
    · have hrun : recordAll dir (d :: ds) pl w = recordAll dir ds pl w1 := h2
      rw [hrun, ih w1 (fun x hx => hp x (List.mem_cons_of_mem _ hx))]
      rw [h1] at one
      exact one
    · have hrun : (recordAll dir (d :: ds) pl w).2 = (writeData dir d pl w).2 := h2
      rw [hrun]
      exact one

/-- **C04 (healing).** However the recordings `ds` were interrupted, recording them again to completion
leaves the same files as one uninterrupted run from the original file system. -/
theorem C04_rerun_heals (dir : Path) (ds : List Bytes)
    (hinj : ∀ a ∈ ds, ∀ b ∈ ds, fileName a = fileName b → a = b)
    (pl pl' pl'' : Plan) (w w1 w2 : World) (t : Nat)
    (h1 : recordAll dir ds pl' ⟨(recordAll dir ds pl w).2.fs, t⟩ = (.ok (), w1))
    (h2 : recordAll dir ds pl'' w = (.ok (), w2)) : SameFiles w1.fs w2.fs := by
  intro p b
  rw [C02_corpus_is_set dir ds hinj pl' _ w1 h1, C02_corpus_is_set dir ds hinj pl'' w w2 h2]
  constructor
  · rintro (h | ⟨h, h'⟩)
    · exact Or.inl h
    · exact Or.inr ⟨(recordAll_frame dir ds pl w p b h').mp h, h'⟩
  · rintro (h | ⟨h, h'⟩)
    · exact Or.inl h
    · exact Or.inr ⟨(recordAll_frame dir ds pl w p b h').mpr h, h'⟩

/-- Non-vacuity of C04: a crash after one byte of the second of two inputs (operation 3 is the second
`write`): the first is complete, the second is cut. -/
def crashPlan : Plan := fun n => if n = 3 then .crash ⟨2, fun _ => false⟩ else .ok

example : fileName [1, 2] ≠ fileName [3, 4] ∧
    (recordAll [['c']] [[1, 2], [3, 4]] crashPlan ⟨fun _ => none, 0⟩).1 = .crash ∧
    (recordAll [['c']] [[1, 2], [3, 4]] crashPlan ⟨fun _ => none, 0⟩).2.fs
      [['c'], fileName [1, 2]] = some (.file [1, 2]) ∧
    (recordAll [['c']] [[1, 2], [3, 4]] crashPlan ⟨fun _ => none, 0⟩).2.fs
      [['c'], fileName [3, 4]] = some (.file [3]) := by
  decide +kernel

end TF
