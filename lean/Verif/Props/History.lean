import Verif.Props.Storage
import Verif.Props.EndToEnd

/-!
# The life of an input, over any history: C84

A history is any sequence of: recordings by instrumented code, runs of `cargo test-fuzz` that consolidate or reset,
fuzzers that run, and anything else that leaves the artifact directories alone.
-/

namespace TF

open Spec

/-! ### Vocabulary -/

/-- Names as they arise from cargo and rustc. -/
def Spec.Named (k t : Str) : Prop := NoSlash k ∧ NoSlash t ∧ ':' ∉ k

/-- Targets that rustc does not tell apart: `-` and `_` in the name of the crate are the same. -/
def Spec.SameTarget (k t k' t' : Str) : Prop :=
  k.map (fun x => if x = '-' then '_' else x) = k'.map (fun x => if x = '-' then '_' else x) ∧ t = t'

/-- What happens to the files. -/
inductive Spec.Deed where
  /-- Instrumented code records something for a target. -/
  | record (krate target : Str) (kind : Kind) (data : Bytes) (pl : Plan)
  /-- `cargo test-fuzz` with --consolidate, --reset, etc. -/
  | storage (o : Opts) (ls : Lister) (ets : List (Exe × List Str)) (pl : Plan)
  /-- A fuzzer runs on a target. -/
  | fuzz (krate target : Str)
  /-- Anything that does not change the artifacts of targets. -/
  | other

/-- What each of them does. A fuzzer may do anything in the output directory of its target, except to remove or change
what it or an earlier one found. -/
def Spec.Deed.Does (c : Ctx) (root : Path) : Deed → TF.World → TF.World → Prop
  | .record k t kind data pl, w, w' => Named k t ∧ kind ≠ .output ∧
      ∃ dir, dirOf c k t kind = .ok dir ∧ w' = (writeData dir data pl w).2
  | .storage o ls ets pl, w, w' => ValidSel c root ets ∧ GoodLister ls ∧ FiniteFindings c ets w.fs ∧
      w' = (TF.storage o c ls ets pl w).2
  | .fuzz k t, w, w' => Named k t ∧ ∃ out, dirOf c k t .output = .ok out ∧
      (∀ q, ¬ Below out q → w'.fs q = w.fs q ∨ (w.fs q = none ∧ w'.fs q = some .dir ∧ q <+: out)) ∧
      ∀ p b, IsFinding w.fs out p b → IsFinding w'.fs out p b
  | .other, w, w' => ∀ k t kind dir q, Named k t → dirOf c k t kind = .ok dir → Below dir q → w'.fs q = w.fs q

/-- A history, with the state in which each deed was done. -/
inductive Spec.History (c : Ctx) (root : Path) : TF.World → List (TF.World × Deed) → TF.World → Prop
  | nil (w : TF.World) : History c root w [] w
  | cons {w w1 w' : TF.World} {d : Deed} {l : List (TF.World × Deed)} : d.Does c root w w1 → History c root w1 l w' →
      History c root w ((w, d) :: l) w'

/-- The input is in the corpus of the target, under its proper name. -/
def Spec.HasInput (c : Ctx) (k t : Str) (w : TF.World) (b : Bytes) : Prop :=
  ∃ corp n, dirOf c k t .corpus = .ok corp ∧ hexDecode n = some (Sha1.digest b) ∧ HasFile w.fs (corp ++ [n]) b

/-- The input is one of the findings for the target. -/
def Spec.Found (c : Ctx) (k t : Str) (w : TF.World) (b : Bytes) : Prop :=
  ∃ out p, dirOf c k t .output = .ok out ∧ IsFinding w.fs out p b

/-- The inputs do not collide under SHA-1. -/
def Spec.Collisionless (U : Bytes → Prop) : Prop := ∀ a b, U a → U b → Sha1.digest a = Sha1.digest b → a = b

/-- The findings of all selected targets are among `U`. -/
def Spec.Among (U : Bytes → Prop) (c : Ctx) (ets : List (Exe × List Str)) (w : TF.World) : Prop :=
  ∀ x p b, FindingOf c ets w.fs x p b → U b

/-- One of the selected targets is the given one. -/
def Spec.Selects (ets : List (Exe × List Str)) (k t : Str) : Prop := ∃ x ∈ pairs ets, SameTarget k t x.1.name x.2

/-- The deed does not throw away the input `b` of the target: if it records that very input, this is completed, and if it
resets the target, it consolidates it first. -/
def Spec.Deed.Spares (U : Bytes → Prop) (c : Ctx) (k t : Str) (b : Bytes) (w : TF.World) : Deed → Prop
  | .record k' t' kind data pl => SameTarget k t k' t' → kind = .corpus → U data ∧
      (data = b → ∃ dir w', dirOf c k t .corpus = .ok dir ∧ writeData dir data pl w = (.ok (), w'))
  | .storage o _ ets _ => Selects ets k t → Consolidating o ∧ Among U c ets w
  | _ => True

/-- The deed does not interrupt the writing of the input `b` to the corpus of the target. -/
def Spec.Deed.Completes (U : Bytes → Prop) (c : Ctx) (k t : Str) (b : Bytes) (w : TF.World) : Deed → Prop
  | .record k' t' kind data pl => SameTarget k t k' t' → kind = .corpus → U data ∧
      (data = b → ∃ dir w', dirOf c k t .corpus = .ok dir ∧ writeData dir data pl w = (.ok (), w'))
  | .storage o ls ets pl => Selects ets k t → Consolidating o → Among U c ets w ∧
      (Found c k t w b → ∃ w1, consolidate o c ls ets pl w = (.ok (), w1))
  | _ => True

/-! ### What a consolidation can touch, however it ends -/

/-- Except for new directories, the only files changed are those of `W`, which hold a part of what they should. -/
def Touch (W : Path → Bytes → Prop) (fs fs' : FS) : Prop :=
  ∀ q, fs' q = fs q ∨ (fs q = none ∧ fs' q = some .dir) ∨ ∃ d n, W q d ∧ fs' q = some (.file (d.take n))

theorem Touch.refl (W : Path → Bytes → Prop) (fs : FS) : Touch W fs fs := fun _ => .inl rfl

theorem Touch.trans {W : Path → Bytes → Prop} {a b c : FS} (h1 : Touch W a b) (h2 : Touch W b c) : Touch W a c := by
  intro q
  rcases h2 q with h | ⟨h, h'⟩ | h
  · rw [h]; exact h1 q
  · rcases h1 q with g | ⟨g, g'⟩ | ⟨d, n, -, g⟩
    · exact .inr (.inl ⟨g ▸ h, h'⟩)
    · rw [g'] at h; cases h
    · rw [g] at h; cases h
  · exact .inr (.inr h)

theorem writeData_touch {W : Path → Bytes → Prop} (dir : Path) (data : Bytes) (pl : Plan) (w : World)
    (h : W (dir ++ [fileName data]) data) : Touch W w.fs (writeData dir data pl w).2.fs := by
  obtain ⟨fs1, hext, hfs⟩ := writeData_cases dir data pl w
  intro q
  have h1 : fs1 q = w.fs q ∨ (w.fs q = none ∧ fs1 q = some .dir) := (hext q).imp id fun h => ⟨h.1, h.2.1⟩
  rcases hfs with hfs | ⟨k, hfs⟩
  · rw [hfs]
    exact h1.imp id .inl
  · rw [hfs]
    unfold FS.set
    split
    · next hq => exact .inr (.inr ⟨data, k, by rw [hq]; exact h, rfl⟩)
    · exact h1.imp id .inl

theorem touch_bind {α β} {W : Path → Bytes → Prop} {x : IOm α} {f : α → IOm β} {pl : Plan} {w : World}
    (hx : Touch W w.fs (x pl w).2.fs) (hf : ∀ a w1, x pl w = (.ok a, w1) → Touch W w1.fs (f a pl w1).2.fs) :
    Touch W w.fs ((x >>= f) pl w).2.fs := by
  rcases IOm.bind_cases x f pl w with ⟨a, w1, h1, h2⟩ | ⟨-, h2, -⟩
  · rw [h2]
    rw [h1] at hx
    exact hx.trans (hf a w1 h1)
  · rw [h2]; exact hx

theorem consolidateEntries_touch {W : Path → Bytes → Prop} {fs0 : FS} {corpus dir : Path} (hap : Apart corpus dir)
    (hW : ∀ n d, skipName n = false → HasFile fs0 (dir ++ [n]) d → W (corpus ++ [fileName d]) d) (ns : List Str)
    (pl : Plan) (w : World) (hw : ∀ q, dir <+: q → w.fs q = fs0 q) :
    Touch W w.fs (consolidateEntries corpus dir ns pl w).2.fs := by
  induction ns generalizing w with
  | nil => exact Touch.refl _ _
  | cons n ns ih =>
    unfold consolidateEntries
    split
    · exact ih w hw
    · next hs =>
      refine touch_bind (by rw [readFile_fs]; exact Touch.refl _ _) fun data w1 h1 => ?_
      obtain ⟨hfile, hw1⟩ := readFile_ok h1
      have hfile' : HasFile fs0 (dir ++ [n]) data := by
        unfold HasFile at hfile ⊢; rw [← hw _ (List.prefix_append _ _)]; exact hfile
      refine touch_bind (writeData_touch _ _ _ _ (hW n data (by simpa using hs) hfile')) fun _ w2 h2 => ih w2 ?_
      intro q hq
      have := writeData_frame corpus data pl w1
      rw [h2] at this
      rw [this.below (fun c hc => hc ▸ hap) hq, hw1]
      exact hw q hq

theorem consolidateTarget_touch {W : Path → Bytes → Prop} {fs0 : FS} {c : Ctx} {k t : Str} {corp out : Path} (ls : Lister)
    (hC : corpusDirFromTarget c k t = .ok corp) (hO : outputDirFromTarget c k t = .ok out) (hap : Apart corp out)
    (hW : ∀ p d, IsFinding fs0 out p d → W (corp ++ [fileName d]) d) (pl : Plan) (w : World)
    (hw : ∀ q, out <+: q → w.fs q = fs0 q) : Touch W w.fs (consolidateTarget c ls k t pl w).2.fs := by
  obtain ⟨h1, h2, h3⟩ := findingDirs hO
  have key : ∀ sub ∈ [c%"crashes", c%"hangs", c%"queue"], ∀ w : World, (∀ q, out <+: q → w.fs q = fs0 q) →
      Touch W w.fs (consolidateDir ls corp (out ++ [c%"default", sub]) pl w).2.fs := by
    intro sub hsub w hw
    refine touch_bind (by rw [readDir_fs]; exact Touch.refl _ _) fun ns w1 h1 => ?_
    refine consolidateEntries_touch (fs0 := fs0) (apart_below hap (List.prefix_append _ _)) (fun n d hn hf => ?_) _ _ _ ?_
    · have := (skipName_false n).mp hn
      refine hW _ d ⟨sub, n, hsub, this.1, this.2, rfl, ?_⟩
      simpa using hf
    · intro q hq
      rw [(readDir_ok h1).2]
      exact hw q ((List.prefix_append _ _).trans hq)
  have keep : ∀ dir (w : World), (∀ q, out <+: q → w.fs q = fs0 q) → ∀ w1 : World, ∀ a,
      consolidateDir ls corp dir pl w = (.ok a, w1) → ∀ q, out <+: q → w1.fs q = fs0 q := by
    intro dir w hw w1 a h q hq
    have := consolidateDir_frame ls corp dir pl w
    rw [h] at this
    rw [this.below (fun c hc => hc ▸ hap) hq]
    exact hw q hq
  unfold consolidateTarget
  rw [hC, h1, h2, h3]
  simp only [IOm.lift_ok_bind]
  refine touch_bind (key _ (by simp) w hw) fun _ w1 g1 => ?_
  have hw1 := keep _ w hw w1 _ g1
  refine touch_bind (key _ (by simp) w1 hw1) fun _ w2 g2 => ?_
  exact key _ (by simp) w2 (keep _ w1 hw1 w2 _ g2)

theorem consolidatePairs_touch {W : Path → Bytes → Prop} {fs0 : FS} {c : Ctx} (ls : Lister) {ps : List (Exe × Str)}
    {corp out : Exe × Str → Path} (hC : ∀ x ∈ ps, corpusDirFromTarget c x.1.name x.2 = .ok (corp x))
    (hO : ∀ x ∈ ps, outputDirFromTarget c x.1.name x.2 = .ok (out x))
    (hap : ∀ x ∈ ps, ∀ y ∈ ps, Apart (corp x) (out y))
    (hW : ∀ x ∈ ps, ∀ p d, IsFinding fs0 (out x) p d → W (corp x ++ [fileName d]) d) (pl : Plan) (w : World)
    (hw : ∀ x ∈ ps, ∀ q, out x <+: q → w.fs q = fs0 q) : Touch W w.fs (consolidatePairs c ls ps pl w).2.fs := by
  induction ps generalizing w with
  | nil => exact Touch.refl _ _
  | cons x xs ih =>
    refine touch_bind (consolidateTarget_touch ls (hC x (by simp)) (hO x (by simp)) (hap x (by simp) x (by simp))
      (hW x (by simp)) pl w (hw x (by simp))) fun _ w1 h1 => ?_
    refine ih (fun y hy => hC y (by simp [hy])) (fun y hy => hO y (by simp [hy]))
      (fun y hy z hz => hap y (by simp [hy]) z (by simp [hz])) (fun y hy => hW y (by simp [hy])) w1 fun y hy q hq => ?_
    have := consolidateTarget_frame ls (hC x (by simp)) (hO x (by simp)) pl w
    rw [h1] at this
    rw [this.below (fun c hc => hc ▸ hap x (by simp) y (by simp [hy])) hq]
    exact hw y (by simp [hy]) q hq

/-- The files in corpora that a consolidation of `ets` writes. -/
def Copies (c : Ctx) (root : Path) (ets : List (Exe × List Str)) (fs : FS) (q : Path) (d : Bytes) : Prop :=
  ∃ x ∈ pairs ets, q = corpPath c root x ++ [fileName d] ∧ ∃ p, IsFinding fs (outPath c root x) p d

theorem consolidate_touch (o : Opts) {c : Ctx} (ls : Lister) {root : Path} {ets} (h : ValidSel c root ets) (pl : Plan)
    (w : World) : Touch (Copies c root ets w.fs) w.fs (consolidate o c ls ets pl w).2.fs := by
  by_cases hs : o.consolidateAll = true ∨ Single ets
  · rw [consolidate_eq o c ls ets hs]
    exact consolidatePairs_touch (fs0 := w.fs) ls h.corp h.out h.apart (fun x hx p d hf => ⟨x, hx, rfl, p, hf⟩) pl w
      fun _ _ _ _ => rfl
  · rw [not_or] at hs
    rw [consolidate_panic o c ls ets (by simpa using hs.1) hs.2]
    exact Touch.refl _ _

/-! ### Directories of targets -/

theorem fileName_decode (b : Bytes) : hexDecode (fileName b) = some (Sha1.digest b) := by
  rw [fileName]; exact hexDecode_hexEncode _

theorem fileName_digest {a b : Bytes} (h : fileName a = fileName b) : Sha1.digest a = Sha1.digest b := by
  have h1 := fileName_decode a
  rw [h, fileName_decode b] at h1
  exact (Option.some.inj h1).symm

theorem named_sel {c : Ctx} {root : Path} {ets} (h : ValidSel c root ets) {x : Exe × Str} (hx : x ∈ pairs ets) :
    Named x.1.name x.2 := h.names x hx

theorem sameTarget_dirOf {c : Ctx} {root : Path} (hroot : targetDirectory c false false = .ok root) (hid : IdOk c)
    {k t k' t' : Str} (hn : Named k t) (hn' : Named k' t') (h : SameTarget k t k' t') (kind : Kind) :
    dirOf c k t kind = dirOf c k' t' kind := by
  rw [dirOf_eq c root k t kind hid hn.1 hn.2.1 hroot, dirOf_eq c root k' t' kind hid hn'.1 hn'.2.1 hroot]
  have : pathFromTarget k t = pathFromTarget k' t' := by
    unfold pathFromTarget
    rw [show replaceChar '-' '_' k = replaceChar '-' '_' k' from h.1, h.2]
  rw [this]

theorem dirs_apart {c : Ctx} {root : Path} (hroot : targetDirectory c false false = .ok root) (hid : IdOk c)
    {k t k' t' : Str} (hn : Named k t) (hn' : Named k' t') {kind kind' : Kind} {d d' : Path}
    (hd : dirOf c k t kind = .ok d) (hd' : dirOf c k' t' kind' = .ok d')
    (h : ¬ (kind = kind' ∧ SameTarget k t k' t')) : Apart d d' := by
  obtain ⟨p, p', h1, h2, h3⟩ := C06_directories_apart c c root hroot hroot hid hid k k' t t' kind kind' hn.1 hn'.1 hn.2.1
    hn'.2.1 hn.2.2 hn'.2.2 (by rintro ⟨g1, -, g2, g3⟩; exact h ⟨g1, g2, g3⟩)
  rw [hd] at h1; rw [hd'] at h2
  cases h1; cases h2
  exact h3

theorem SameTarget.symm {k t k' t' : Str} (h : SameTarget k t k' t') : SameTarget k' t' k t := ⟨h.1.symm, h.2.symm⟩

/-- Where the artifacts of a target are. -/
theorem target_dirs {c : Ctx} {root : Path} (hroot : targetDirectory c false false = .ok root) (hid : IdOk c) {k t : Str}
    (hn : Named k t) (kind : Kind) : ∃ d, dirOf c k t kind = .ok d :=
  ⟨_, dirOf_eq c root k t kind hid hn.1 hn.2.1 hroot⟩

/-! ### One deed -/

/-- Recording leaves everything below other directories alone. -/
theorem record_apart {dir X q : Path} (h : Apart dir X) (hq : Spec.Below X q) (data : Bytes) (pl : Plan) (w : World) :
    (writeData dir data pl w).2.fs q = w.fs q :=
  (writeData_frame dir data pl w).below (fun _ hc => hc ▸ h) hq

/-- What a deed can do to a file in the corpus of a target: nothing, or it writes (a part of) an input that is recorded or
consolidated and has that name. -/
theorem deed_corpus {c : Ctx} {root : Path} (hroot : targetDirectory c false false = .ok root) (hid : IdOk c)
    {k t : Str} (hn : Named k t) {corp : Path} (hcorp : dirOf c k t .corpus = .ok corp) {d : Deed} {w w' : World}
    (h : d.Does c root w w') {n : Str} :
    w'.fs (corp ++ [n]) = w.fs (corp ++ [n]) ∨ (w.fs (corp ++ [n]) = none ∧ w'.fs (corp ++ [n]) = some .dir) ∨
      ∃ data m, n = fileName data ∧ w'.fs (corp ++ [n]) = some (.file (data.take m)) ∧
        ((∃ k' t' pl, d = .record k' t' .corpus data pl ∧ SameTarget k t k' t') ∨
          ∃ o ls ets pl, d = .storage o ls ets pl ∧ Consolidating o ∧ Selects ets k t ∧ Found c k t w data) := by
  have hb : Spec.Below corp (corp ++ [n]) := List.prefix_append _ _
  cases d with
  | record k' t' kind data pl =>
    obtain ⟨hn', hk, dir, hdir, rfl⟩ := h
    by_cases hs : kind = .corpus ∧ SameTarget k' t' k t
    · obtain ⟨rfl, hs⟩ := hs
      rw [sameTarget_dirOf hroot hid hn' hn hs, hcorp] at hdir
      cases hdir
      have := writeData_touch (W := fun q d => q = corp ++ [fileName d] ∧ d = data) corp data pl w ⟨rfl, rfl⟩
      rcases this (corp ++ [n]) with h | h | ⟨d, m, ⟨h1, rfl⟩, h2⟩
      · exact .inl h
      · exact .inr (.inl h)
      · have := List.append_inj' h1 rfl
        simp only [List.cons.injEq, and_true] at this
        exact .inr (.inr ⟨d, m, this.2, h2, .inl ⟨k', t', pl, rfl, SameTarget.symm hs⟩⟩)
    · exact .inl (record_apart (dirs_apart hroot hid hn' hn hdir hcorp hs) hb _ _ _)
  | storage o ls ets pl =>
    obtain ⟨hsel, hls, hfin, rfl⟩ := h
    by_cases hsl : Selects ets k t
    · have hout : ¬ InOutput c ets (corp ++ [n]) := by
        rintro ⟨x, hx, out, ho, hq⟩
        have := dirs_apart hroot hid hn (named_sel hsel hx) hcorp ho (by rintro ⟨h, -⟩; cases h)
        exact (apart_below this hq).1 hb
      by_cases hc : Consolidating o
      · have hfin2 : (TF.storage o c ls ets pl w).2.fs (corp ++ [n]) = (consolidate o c ls ets pl w).2.fs (corp ++ [n]) := by
          rw [storage_eq hc]
          rcases IOm.bind_cases (consolidate o c ls ets) (fun _ => reset o c ets) pl w with ⟨a, w1, h1, h2⟩ | ⟨-, h2, -⟩
          · rw [h2, reset_frame o hsel pl w1 _ hout, h1]
          · rw [h2]
        rw [hfin2]
        rcases consolidate_touch o ls hsel pl w (corp ++ [n]) with h | h | ⟨d, m, ⟨x, hx, h1, p, hp⟩, h2⟩
        · exact .inl h
        · exact .inr (.inl h)
        · have he := List.append_inj' h1 rfl
          simp only [List.cons.injEq, and_true] at he
          have hst : SameTarget k t x.1.name x.2 := by
            by_contra hst
            have hcx : dirOf c x.1.name x.2 .corpus = .ok (corpPath c root x) := hsel.corp x hx
            have := dirs_apart hroot hid hn (named_sel hsel hx) hcorp hcx (by rintro ⟨-, h⟩; exact hst h)
            rw [← he.1] at this
            exact this.1 (List.prefix_refl _)
          refine .inr (.inr ⟨d, m, he.2, h2, .inr ⟨o, ls, ets, pl, rfl, hc, hsl, outPath c root x, p, ?_, hp⟩⟩)
          rw [sameTarget_dirOf hroot hid hn (named_sel hsel hx) hst]
          exact hsel.out x hx
      · have hst : TF.storage o c ls ets = reset o c ets := by
          unfold Consolidating at hc
          rw [not_or, not_and] at hc
          unfold TF.storage
          cases h1 : o.consolidateAll with
          | true => exact absurd h1 hc.1
          | false =>
            cases h2 : o.resetAll with
            | true => simp
            | false =>
              cases h3 : o.consolidate with
              | true => exact absurd h2 (hc.2 h3)
              | false => simp
        rw [hst, reset_frame o hsel pl w _ hout]
        exact .inl rfl
    · refine .inl (C29_other_targets_untouched o c ls root ets hsel pl w k t hn.1 hn.2.1 hn.2.2 ?_ .corpus corp _ hcorp hb)
      exact fun x hx hh => hsl ⟨x, hx, hh⟩
  | fuzz k' t' =>
    obtain ⟨hn', out, ho, h1, -⟩ := h
    have hap := dirs_apart hroot hid hn hn' hcorp ho (by rintro ⟨h, -⟩; cases h)
    rcases h1 (corp ++ [n]) (fun hq => (apart_below hap hq).1 hb) with h | ⟨-, -, h⟩
    · exact .inl h
    · exact absurd (hb.trans h) hap.1
  | other => exact .inl (h k t .corpus corp _ hn hcorp hb)

/-- Findings stay, unless the target is reset. -/
theorem deed_found {c : Ctx} {root : Path} (hroot : targetDirectory c false false = .ok root) (hid : IdOk c)
    {k t : Str} (hn : Named k t) {d : Deed} {w w' : World} (h : d.Does c root w w') {b : Bytes} (hf : Found c k t w b)
    (hd : ∀ o ls ets pl, d = .storage o ls ets pl → ¬ Selects ets k t) : Found c k t w' b := by
  obtain ⟨out, p, ho, sub, name, h1, h2, h3, rfl, h4⟩ := hf
  have hb : Spec.Below out (out ++ [c%"default", sub, name]) := List.prefix_append _ _
  have key : w'.fs (out ++ [c%"default", sub, name]) = w.fs (out ++ [c%"default", sub, name]) → Found c k t w' b := by
    intro he
    exact ⟨out, _, ho, sub, name, h1, h2, h3, rfl, by unfold HasFile; rw [he]; exact h4⟩
  cases d with
  | record k' t' kind data pl =>
    obtain ⟨hn', hk, dir, hdir, rfl⟩ := h
    exact key (record_apart (dirs_apart hroot hid hn' hn hdir ho (by rintro ⟨h, -⟩; exact hk h)) hb _ _ _)
  | storage o ls ets pl =>
    obtain ⟨hsel, hls, hfin, rfl⟩ := h
    refine key (C29_other_targets_untouched o c ls root ets hsel pl w k t hn.1 hn.2.1 hn.2.2 ?_ .output out _ ho hb)
    exact fun x hx hh => hd _ _ _ _ rfl ⟨x, hx, hh⟩
  | fuzz k' t' =>
    obtain ⟨hn', out', ho', g1, g2⟩ := h
    by_cases hs : SameTarget k t k' t'
    · rw [← sameTarget_dirOf hroot hid hn hn' hs, ho] at ho'
      cases ho'
      exact ⟨out, _, ho, g2 _ b ⟨sub, name, h1, h2, h3, rfl, h4⟩⟩
    · have hap := dirs_apart hroot hid hn hn' ho ho' (by rintro ⟨-, h⟩; exact hs h)
      rcases g1 _ (fun hq => (apart_below hap hq).1 hb) with h | ⟨-, -, h⟩
      · exact key h
      · exact absurd (hb.trans h) hap.1
  | other => exact key (h k t .output out _ hn ho hb)

theorem collisionless_sel {U : Bytes → Prop} (hU : Collisionless U) {c : Ctx} {ets} {w : World} (h : Among U c ets w) :
    NoCollisions c ets w.fs := by
  intro x p b x' p' b' hb hb' he
  exact hU _ _ (h x p b hb) (h x' p' b' hb') (fileName_digest he)

/-- The findings of a selected target. -/
theorem found_sel {c : Ctx} {root : Path} {ets} (hroot : targetDirectory c false false = .ok root) (hid : IdOk c)
    (hsel : ValidSel c root ets) {k t : Str} (hn : Named k t) {x : Exe × Str} (hx : x ∈ pairs ets)
    (hs : SameTarget k t x.1.name x.2) {w : World} {out p : Path} {b : Bytes} (ho : dirOf c k t .output = .ok out)
    (hf : IsFinding w.fs out p b) : FindingOf c ets w.fs x p b :=
  ⟨hx, out, by rw [← sameTarget_dirOf hroot hid hn (named_sel hsel hx) hs]; exact ho, hf⟩

/-- A consolidation keeps every input of the target. -/
theorem consolidation_keeps {U : Bytes → Prop} (hU : Collisionless U) {c : Ctx} {root : Path}
    (hroot : targetDirectory c false false = .ok root) (hid : IdOk c) {k t : Str} (hn : Named k t) {o : Opts} {ls : Lister}
    {ets} {pl : Plan} {w w' : World} (h : (Deed.storage o ls ets pl).Does c root w w') (hc : Consolidating o)
    (hs : Selects ets k t) (ha : Among U c ets w) {b : Bytes} (hf : Found c k t w b) :
    HasInput c k t w' b ∨ Found c k t w' b := by
  obtain ⟨hsel, hls, hfin, rfl⟩ := h
  obtain ⟨x, hx, hs⟩ := hs
  obtain ⟨out, p, ho, hf⟩ := hf
  have hfo := found_sel hroot hid hsel hn hx hs ho hf
  rcases C30_no_input_lost o hc c ls hls root ets hsel pl w hfin (collisionless_sel hU ha) with h | h
  · obtain ⟨sub, name, h1, h2, h3, rfl, -⟩ := hf
    exact .inr ⟨out, _, ho, sub, name, h1, h2, h3, rfl, h x _ b hfo⟩
  · obtain ⟨corp, hcorp⟩ := target_dirs hroot hid hn .corpus
    refine .inl ⟨corp, fileName b, hcorp, fileName_decode b, h x p b corp hfo ?_⟩
    rw [← sameTarget_dirOf hroot hid hn (named_sel hsel hx) hs]
    exact hcorp

/-- An input in the corpus stays there in a deed that does not interrupt writing it. -/
theorem deed_hasInput {U : Bytes → Prop} (hU : Collisionless U) {c : Ctx} {root : Path}
    (hroot : targetDirectory c false false = .ok root) (hid : IdOk c) {k t : Str} (hn : Named k t) {b : Bytes} (hb : U b)
    {d : Deed} {w w' : World} (h : d.Does c root w w') (hf : HasInput c k t w b)
    (hd : d.Completes U c k t b w) : HasInput c k t w' b := by
  obtain ⟨corp, n, hcorp, hnm, hfile⟩ := hf
  rcases deed_corpus hroot hid hn hcorp h (n := n) with h1 | ⟨h1, -⟩ | ⟨data, m, hdn, h1, h2⟩
  · exact ⟨corp, n, hcorp, hnm, by unfold HasFile; rw [h1]; exact hfile⟩
  · rw [hfile] at h1; cases h1
  · have hdig : Sha1.digest data = Sha1.digest b := by
      rw [hdn, fileName_decode] at hnm; exact Option.some.inj hnm
    rcases h2 with ⟨k', t', pl, rfl, hs⟩ | ⟨o, ls, ets, pl, rfl, hc, hs, hf⟩
    · obtain ⟨hu, hcmp⟩ := hd hs rfl
      have hdb := hU _ _ hu hb hdig
      obtain ⟨dir, w2, hdir, hok⟩ := hcmp hdb
      rw [hcorp] at hdir
      cases hdir
      obtain ⟨hn', -, dir', hdir', rfl⟩ := h
      rw [← sameTarget_dirOf hroot hid hn hn' hs, hcorp] at hdir'
      cases hdir'
      obtain ⟨fs1, -, hfs⟩ := writeData_ok hok
      refine ⟨corp, n, hcorp, hnm, ?_⟩
      unfold HasFile
      rw [hok, hfs, hdn, ← hdb]
      exact if_pos rfl
    · obtain ⟨ha, hcmp⟩ := hd hs hc
      obtain ⟨hsel, hls, hfin, rfl⟩ := h
      obtain ⟨x, hx, hs⟩ := hs
      obtain ⟨out, p, ho, hfd⟩ := hf
      have hfo := found_sel hroot hid hsel hn hx hs ho hfd
      have hdb := hU _ _ (ha _ _ _ hfo) hb hdig
      subst hdb
      obtain ⟨w1, hok⟩ := hcmp ⟨out, p, ho, hfd⟩
      obtain ⟨ws, hr, hws⟩ := consolidate_result hls hsel hfin hok
      have h3 := findings_in_corpus hsel (collisionless_sel hU ha) hr hws hfo
      have hcx : dirOf c x.1.name x.2 .corpus = .ok (corpPath c root x) := hsel.corp x hx
      rw [← sameTarget_dirOf hroot hid hn (named_sel hsel hx) hs, hcorp] at hcx
      cases hcx
      refine ⟨_, fileName data, hcorp, fileName_decode _, ?_⟩
      have hst : (TF.storage o c ls ets pl w).2 = (reset o c ets pl w1).2 := by
        rw [storage_eq hc, IOm.bind_run, hok]
      rw [hst]
      unfold HasFile
      rw [reset_frame o hsel pl w1]
      · exact h3
      · rintro ⟨y, hy, out', ho', hq⟩
        have := dirs_apart hroot hid hn (named_sel hsel hy) hcorp ho' (by rintro ⟨h, -⟩; cases h)
        exact (apart_below this hq).1 (List.prefix_append _ _)

/-! ## C84 -/

/-- Whatever happens – recordings that are interrupted, fuzzers, consolidations of any targets that fail or are
interrupted at any point, resets of other targets – an input that was recorded or found for a target is still there
afterwards, in its corpus or among its findings, unless the target is reset without being consolidated or the recording of
that very input is interrupted. -/
theorem C84_kept {U : Bytes → Prop} (hU : Collisionless U) {c : Ctx} {root : Path}
    (hroot : targetDirectory c false false = .ok root) (hid : IdOk c) {k t : Str} (hn : Named k t) {b : Bytes} (hb : U b)
    {w w' : World} {l : List (World × Deed)} (h : History c root w l w') (hl : ∀ x ∈ l, x.2.Spares U c k t b x.1)
    (hw : HasInput c k t w b ∨ Found c k t w b) : HasInput c k t w' b ∨ Found c k t w' b := by
  induction h with
  | nil w => exact hw
  | @cons w w1 w' d l hd hr ih =>
    refine ih (fun x hx => hl x (by simp [hx])) ?_
    have hsp := hl (w, d) (by simp)
    have found : Found c k t w b → HasInput c k t w1 b ∨ Found c k t w1 b := by
      intro hf
      by_cases hs : ∃ o ls ets pl, d = .storage o ls ets pl ∧ Selects ets k t
      · obtain ⟨o, ls, ets, pl, rfl, hs⟩ := hs
        obtain ⟨h1, h2⟩ := hsp hs
        exact consolidation_keeps hU hroot hid hn hd h1 hs h2 hf
      · exact .inr (deed_found hroot hid hn hd hf fun o ls ets pl he hs' => hs ⟨o, ls, ets, pl, he, hs'⟩)
    rcases hw with hi | hf
    · by_cases hcm : d.Completes U c k t b w
      · exact .inl (deed_hasInput hU hroot hid hn hb hd hi hcm)
      · cases d with
        | record => exact absurd hsp hcm
        | fuzz => exact absurd trivial hcm
        | other => exact absurd trivial hcm
        | storage o ls ets pl =>
          by_cases hf : Found c k t w b
          · exact found hf
          · exact absurd (fun hs _ => ⟨(hsp hs).2, fun h => absurd h hf⟩) hcm
    · exact found hf

/-- Once in the corpus, an input stays in the corpus for good, also if the target is reset, unless the writing of that very
input is interrupted (by which time it is being recorded again, or is still among the findings). -/
theorem C84_for_good {U : Bytes → Prop} (hU : Collisionless U) {c : Ctx} {root : Path}
    (hroot : targetDirectory c false false = .ok root) (hid : IdOk c) {k t : Str} (hn : Named k t) {b : Bytes} (hb : U b)
    {w w' : World} {l : List (World × Deed)} (h : History c root w l w') (hl : ∀ x ∈ l, x.2.Completes U c k t b x.1)
    (hw : HasInput c k t w b) : HasInput c k t w' b := by
  induction h with
  | nil w => exact hw
  | @cons w w1 w' d l hd hr ih =>
    exact ih (fun x hx => hl x (by simp [hx])) (deed_hasInput hU hroot hid hn hb hd hw (hl (w, d) (by simp)))

/-- A consolidation that succeeds brings every input of the target to its corpus. -/
theorem C84_consolidated {U : Bytes → Prop} (hU : Collisionless U) {c : Ctx} {root : Path}
    (hroot : targetDirectory c false false = .ok root) (hid : IdOk c) {k t : Str} (hn : Named k t) {b : Bytes} (hb : U b)
    {o : Opts} {ls : Lister} {ets} {pl : Plan} {w w' : World} (h : (Deed.storage o ls ets pl).Does c root w w')
    (hc : Consolidating o) (hs : Selects ets k t) (ha : Among U c ets w)
    (hok : TF.storage o c ls ets pl w = (.ok (), w')) (hw : HasInput c k t w b ∨ Found c k t w b) :
    HasInput c k t w' b := by
  have hcons : ∃ w1, consolidate o c ls ets pl w = (.ok (), w1) := by
    rw [storage_eq hc] at hok
    obtain ⟨_, w1, h1, -⟩ := IOm.bind_ok hok
    exact ⟨w1, h1⟩
  by_cases hi : HasInput c k t w b
  · exact deed_hasInput hU hroot hid hn hb h hi fun _ _ => ⟨ha, fun _ => hcons⟩
  · have hf := hw.resolve_left hi
    obtain ⟨hsel, hls, hfin, -⟩ := h
    obtain ⟨x, hx, hs⟩ := hs
    obtain ⟨out, p, ho, hfd⟩ := hf
    have hfo := found_sel hroot hid hsel hn hx hs ho hfd
    obtain ⟨w1, hok1⟩ := hcons
    obtain ⟨ws, hr, hws⟩ := consolidate_result hls hsel hfin hok1
    have h3 := findings_in_corpus hsel (collisionless_sel hU ha) hr hws hfo
    have hcx : dirOf c x.1.name x.2 .corpus = .ok (corpPath c root x) := hsel.corp x hx
    rw [← sameTarget_dirOf hroot hid hn (named_sel hsel hx) hs] at hcx
    refine ⟨_, fileName b, hcx, fileName_decode _, ?_⟩
    have hst : w' = (reset o c ets pl w1).2 := by
      rw [storage_eq hc, IOm.bind_run, hok1] at hok
      change reset o c ets pl w1 = _ at hok
      rw [hok]
    rw [hst]
    unfold HasFile
    rw [reset_frame o hsel pl w1]
    · exact h3
    · rintro ⟨y, hy, out', ho', hq⟩
      have := dirs_apart hroot hid hn (named_sel hsel hy) hcx ho' (by rintro ⟨h, -⟩; cases h)
      exact (apart_below this hq).1 (List.prefix_append _ _)

/-- Nothing else gets into a corpus: whatever file is in it at the end was there before, or holds (a part of) an input that
was recorded for the target or found for it and consolidated, under the name of that input. -/
theorem C84_origin {c : Ctx} {root : Path} (hroot : targetDirectory c false false = .ok root) (hid : IdOk c) {k t : Str}
    (hn : Named k t) {corp : Path} (hcorp : dirOf c k t .corpus = .ok corp) {w w' : World} {l : List (World × Deed)}
    (h : History c root w l w') {n : Str} {b : Bytes} (hf : HasFile w'.fs (corp ++ [n]) b) :
    HasFile w.fs (corp ++ [n]) b ∨ ∃ x ∈ l, ∃ data, hexDecode n = some (Sha1.digest data) ∧ b <+: data ∧
      ((∃ k' t' pl, x.2 = .record k' t' .corpus data pl ∧ SameTarget k t k' t') ∨
        ∃ o ls ets pl, x.2 = .storage o ls ets pl ∧ Consolidating o ∧ Selects ets k t ∧ Found c k t x.1 data) := by
  induction h with
  | nil w => exact .inl hf
  | @cons w w1 w' d l hd hr ih =>
    rcases ih hf with h1 | ⟨x, hx, h1⟩
    · rcases deed_corpus hroot hid hn hcorp hd (n := n) with h2 | ⟨-, h2⟩ | ⟨data, m, hdn, h2, h3⟩
      · exact .inl (by unfold HasFile; rw [← h2]; exact h1)
      · rw [h1] at h2; cases h2
      · rw [h1] at h2
        simp only [Option.some.injEq, Node.file.injEq] at h2
        refine .inr ⟨(w, d), by simp, data, ?_, ?_, h3⟩
        · rw [hdn]; exact fileName_decode _
        · rw [h2]; exact List.take_prefix _ _
    · exact .inr ⟨x, by simp [hx], h1⟩

/-! ### Examples -/

namespace HistoryDemo

def k : Str := c%"my-crate"
def t : Str := c%"m::t"

theorem named : Named k t := by unfold Named NoSlash; decide

/-- The inputs in question. -/
def U (b : Bytes) : Prop := b ∈ ([[1, 2], [3], [], [7], [9], [5, 6]] : List Bytes)

theorem noCollision : Collisionless U := by
  have : ∀ a ∈ ([[1, 2], [3], [], [7], [9], [5, 6]] : List Bytes), ∀ b ∈ ([[1, 2], [3], [], [7], [9], [5, 6]] : List Bytes),
      Sha1.digest a = Sha1.digest b → a = b := by decide +kernel
  exact fun a b ha hb h => this a ha b hb h

theorem among : Among U exCtx exEts ⟨exFs, 0⟩ := by
  intro x p b h
  have := exFindings x p b h
  simp only [U, List.mem_cons, List.not_mem_nil, or_false] at this ⊢
  tauto

theorem found : Found exCtx k t ⟨exFs, 0⟩ [1, 2] :=
  ⟨exOut, exOut ++ [c%"default", c%"crashes", c%"id:0"], by decide +kernel, c%"crashes", c%"id:0", by simp, by decide, by decide,
    rfl, by unfold HasFile; decide +kernel⟩

theorem finite : FiniteFindings exCtx exEts exFs := fun _ _ _ _ _ _ => finiteDir_lookup _ _

/-- The recording is interrupted before all is written. -/
def broken : Plan := fun _ => .err ⟨2, fun _ => false⟩

/-- The hypotheses of `C84_kept` and `C84_for_good` are met by a consolidation, after which the recording of
another input is interrupted. -/
example : ∃ ls w1 w2 l, History exCtx [c%"t"] ⟨exFs, 0⟩ l w2 ∧ l.map Prod.snd =
      [.storage { consolidate := true } ls exEts Plan.clean, .record k t .corpus [5, 6] broken, .other] ∧
    (∀ x ∈ l, x.2.Spares U exCtx k t [1, 2] x.1) ∧ (∀ x ∈ l, x.2.Completes U exCtx k t [1, 2] x.1) ∧
    Found exCtx k t ⟨exFs, 0⟩ [1, 2] ∧ HasInput exCtx k t w1 [1, 2] ∧ HasInput exCtx k t w2 [1, 2] := by
  obtain ⟨ls, w1, hls, hc, hsel, -, -, hfin, -, -, hok⟩ := ex_consolidates
  have hd1 : (Deed.storage { consolidate := true } ls exEts Plan.clean).Does exCtx [c%"t"] ⟨exFs, 0⟩ w1 :=
    ⟨hsel, hls, hfin, by rw [hok]⟩
  have hsl : Selects exEts k t := ⟨(⟨c%"/x", c%"my-crate", ⟨none, none⟩⟩, c%"m::t"), by simp [pairs, exEts], rfl, rfl⟩
  have hd2 : (Deed.record k t .corpus [5, 6] broken).Does exCtx [c%"t"] w1 (writeData exCorpus [5, 6] broken w1).2 :=
    ⟨named, by decide, exCorpus, by decide +kernel, rfl⟩
  have hd3 : Deed.other.Does exCtx [c%"t"] (writeData exCorpus [5, 6] broken w1).2 (writeData exCorpus [5, 6] broken w1).2 :=
    fun _ _ _ _ _ _ _ _ => rfl
  have hin : HasInput exCtx k t w1 [1, 2] :=
    C84_consolidated noCollision rfl hsel.id_ok named (by simp [U]) hd1 hc hsl among hok (.inr found)
  have hcons : ∃ w2, consolidate { consolidate := true } exCtx ls exEts Plan.clean ⟨exFs, 0⟩ = (.ok (), w2) := by
    rw [storage_eq hc] at hok
    obtain ⟨_, w1, h1, -⟩ := IOm.bind_ok hok
    exact ⟨w1, h1⟩
  have hh := History.cons hd1 (History.cons hd2 (History.cons hd3 (History.nil _)))
  have hcm : ∀ x ∈ [((⟨exFs, 0⟩ : TF.World), Deed.storage { consolidate := true } ls exEts Plan.clean),
      (w1, .record k t .corpus [5, 6] broken), ((writeData exCorpus [5, 6] broken w1).2, .other)],
      x.2.Completes U exCtx k t [1, 2] x.1 := by
    intro x hx
    simp only [List.mem_cons, List.not_mem_nil, or_false] at hx
    rcases hx with rfl | rfl | rfl
    · exact fun _ _ => ⟨among, fun _ => hcons⟩
    · exact fun _ _ => ⟨by simp [U], fun h => absurd h (by decide)⟩
    · trivial
  refine ⟨ls, w1, _, _, hh, rfl, ?_, hcm, found, hin, ?_⟩
  · intro x hx
    simp only [List.mem_cons, List.not_mem_nil, or_false] at hx
    rcases hx with rfl | rfl | rfl
    · exact fun _ => ⟨hc, among⟩
    · exact fun _ _ => ⟨by simp [U], fun h => absurd h (by decide)⟩
    · trivial
  · exact C84_for_good noCollision rfl hsel.id_ok named (by simp [U]) (History.cons hd2 (History.cons hd3 (History.nil _)))
      (fun x hx => hcm x (List.mem_cons_of_mem _ hx)) hin

/-- Resetting without consolidating loses it. -/
example : ∃ ls w', (Deed.storage { reset := true } ls exEts Plan.clean).Does exCtx [c%"t"] ⟨exFs, 0⟩ w' ∧
    Found exCtx k t ⟨exFs, 0⟩ [1, 2] ∧ ¬ Found exCtx k t w' [1, 2] ∧ ¬ HasInput exCtx k t w' [1, 2] := by
  obtain ⟨ls, -, hls, -, hsel, hno, hwf, hfin, -⟩ := ex_consolidates
  obtain ⟨w', hok⟩ := C28_reset_succeeds { reset := true } exCtx [c%"t"] exEts hsel (.inr ⟨_, _, rfl⟩) ⟨exFs, 0⟩ (by
    intro x hx out h
    rw [exOut_eq x hx out h]
    exact .inr (by decide +kernel))
  have hst : TF.storage { reset := true } exCtx ls exEts Plan.clean ⟨exFs, 0⟩ = (.ok (), w') := by
    rw [← hok]
    unfold TF.storage
    simp
  have hrm := C28_reset_removes { reset := true } exCtx [c%"t"] exEts hsel Plan.clean hno _ _ hwf hok
  have ho : dirOf exCtx k t .output = .ok exOut := by decide +kernel
  have hc : dirOf exCtx k t .corpus = .ok exCorpus := by decide +kernel
  refine ⟨ls, w', ⟨hsel, hls, hfin, by rw [hst]⟩, found, ?_, ?_⟩
  · rintro ⟨out, p, h1, sub, name, h2, -, -, rfl, h3⟩
    rw [ho] at h1
    cases h1
    rw [HasFile, (hrm _).1 ⟨(⟨c%"/x", c%"my-crate", ⟨none, none⟩⟩, c%"m::t"), by simp [pairs, exEts], exOut, ho, List.prefix_append _ _⟩] at h3
    cases h3
  · rintro ⟨corp, n, h1, h2, h3⟩
    rw [hc] at h1
    cases h1
    rw [HasFile, (hrm _).2] at h3
    · have hm := lookup_mem h3
      simp only [exFiles, List.mem_cons, List.not_mem_nil, or_false, Prod.mk.injEq, exOut, exCorpus,
        List.cons_append, List.nil_append, List.cons.injEq] at hm
      simp_all
    · rintro ⟨x, hx, out, h4, h5⟩
      rw [exOut_eq x hx out h4] at h5
      have := List.IsPrefix.getElem h5 (i := 1) (by decide)
      revert this
      simp [exOut, exCorpus]

/-- Recording it again, but not completely, spoils it. -/
example : ∃ w w', (Deed.record k t .corpus [5, 6] broken).Does exCtx [c%"t"] w w' ∧ HasInput exCtx k t w [5, 6] ∧
    ¬ HasInput exCtx k t w' [5, 6] := by
  refine ⟨⟨FS.set exFs (exCorpus ++ [fileName [5, 6]]) (some (.file [5, 6])), 0⟩, _,
    ⟨named, by decide, exCorpus, by decide +kernel, rfl⟩,
    ⟨exCorpus, fileName [5, 6], by decide +kernel, fileName_decode _, ?_⟩, ?_⟩
  · unfold HasFile FS.set; simp
  · rintro ⟨corp, n, h1, h2, h3⟩
    have hc : dirOf exCtx k t .corpus = .ok exCorpus := by decide +kernel
    rw [hc] at h1
    cases h1
    cases hexDecode_inj h2 (fileName_decode _)
    have : (writeData exCorpus [5, 6] broken
        ⟨FS.set exFs (exCorpus ++ [fileName [5, 6]]) (some (.file [5, 6])), 0⟩).2.fs (exCorpus ++ [fileName [5, 6]]) =
        some (.file [5]) := by decide +kernel
    rw [HasFile, this] at h3
    revert h3
    decide

end HistoryDemo

end TF
