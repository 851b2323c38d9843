import Verif.Model.ConcRecord
import Verif.Spec.ConcRecord
import Verif.Props.ConcWrite
import Verif.Props.Recording
import Verif.Props.Layout
import Mathlib.Data.List.Infix

/-!
# C86: recording by many tests at once
-/

namespace TF.Par

open TF.Conc TF.Spec

variable {ι : Type} [DecidableEq ι]

/-! ## Bytes -/

/-- The file has no more bytes than the data and the first `n` are right. -/
def Good (x c : Bytes) (n : Nat) : Prop := c.length ≤ x.length ∧ n ≤ x.length ∧ ∀ y, y < n → c[y]? = x[y]?

theorem Good.all {x c : Bytes} (h : Good x c x.length) : c = x := by
  obtain ⟨h1, -, h3⟩ := h
  apply List.ext_getElem?
  intro y
  rcases Nat.lt_or_ge y x.length with hy | hy
  · exact h3 y hy
  · rw [List.getElem?_eq_none hy, List.getElem?_eq_none (by omega)]

theorem Good.le {x c : Bytes} {n : Nat} (h : Good x c n) : n ≤ c.length := by
  obtain ⟨h1, h2, h3⟩ := h
  rcases Nat.lt_or_ge c.length n with hlt | hge
  · have := h3 c.length hlt
    rw [List.getElem?_eq_none (Nat.le_refl _)] at this
    have h6 := List.getElem?_eq_none_iff.mp this.symm
    omega
  · exact hge

theorem Good.overwrite {x c : Bytes} {n p k : Nat} (h : Good x c n) (hp : p ≤ x.length) :
    Good x (overwrite c p ((x.drop p).take k)) n ∧
    (n = p → Good x (Conc.overwrite c p ((x.drop p).take k)) (p + ((x.drop p).take k).length)) := by
  have hle := h.le
  obtain ⟨h1, h2, h3⟩ := h
  have hch : ((x.drop p).take k).length ≤ x.length - p := by
    simp only [List.length_take, List.length_drop]; omega
  have hget : ∀ y, p ≤ y → y < p + ((x.drop p).take k).length → ((x.drop p).take k)[y - p]? = x[y]? := by
    intro y hy1 hy2
    simp only [List.length_take, List.length_drop] at hy2
    rw [List.getElem?_take_of_lt (by omega), List.getElem?_drop]
    congr 1; omega
  have hlen : (Conc.overwrite c p ((x.drop p).take k)).length ≤ x.length := by
    rw [overwrite_length]; omega
  have hlow : ∀ y, y < n → (Conc.overwrite c p ((x.drop p).take k))[y]? = x[y]? := by
    intro y hy
    obtain ⟨g1, g2, g3⟩ := overwrite_get c p ((x.drop p).take k) y
    rcases Nat.lt_or_ge y p with hyp | hyp
    · rw [g1 hyp (by omega)]; exact h3 y hy
    · rcases Nat.lt_or_ge y (p + ((x.drop p).take k).length) with hyk | hyk
      · rw [g2 hyp hyk]; exact hget y hyp hyk
      · rw [g3 hyk]; exact h3 y hy
  refine ⟨⟨hlen, h2, hlow⟩, ?_⟩
  rintro rfl
  refine ⟨hlen, by omega, ?_⟩
  intro y hy
  rcases Nat.lt_or_ge y n with hyn | hyn
  · exact hlow y hyn
  · obtain ⟨-, g2, -⟩ := overwrite_get c n ((x.drop n).take k) y
    rw [g2 hyn hy]; exact hget y hyn hy

/-! ## Going up and down -/

/-- `l` are the directories from some ancestor of `d` down to `d`. -/
def Ups (d : Path) : List Path → Prop
  | [] => True
  | [p] => p = d
  | p :: q :: r => q.dropLast = p ∧ Ups d (q :: r)

theorem Ups.prefix {d : Path} : ∀ {l : List Path}, Ups d l → ∀ p ∈ l, p <+: d
  | [], _, p, h => by simp at h
  | [q], h, p, hp => by
    simp only [List.mem_singleton] at hp
    subst hp
    simp only [Ups] at h
    subst h
    exact List.prefix_refl _
  | q :: r :: l, h, p, hp => by
    simp only [Ups] at h
    rcases List.mem_cons.mp hp with rfl | hp
    · have := Ups.prefix h.2 r List.mem_cons_self
      rw [← h.1]
      exact (List.dropLast_prefix r).trans this
    · exact Ups.prefix h.2 p hp

/-- The directories that are still to be created, from `p` on. -/
def Way (d p : Path) (rest : List Path) : Prop := Ups d (p :: rest) ∧ ∀ q ∈ rest, q ≠ []

theorem Way.prefix {d p : Path} {rest : List Path} (h : Way d p rest) : p <+: d := Ups.prefix h.1 p List.mem_cons_self

theorem Way.up {d p : Path} {rest : List Path} (h : Way d p rest) (hp : p ≠ []) : Way d p.dropLast (p :: rest) :=
  ⟨⟨rfl, h.1⟩, fun q hq => by
    rcases List.mem_cons.mp hq with rfl | hq
    · exact hp
    · exact h.2 q hq⟩

/-- What is known of a thread at work on `j`. -/
def Knows (fs : FS) (j : Job) : Pc → Prop
  | .begin => True
  | .mkdir p rest => Way j.1 p rest
  | .again p rest => Way j.1 p rest ∧ p ≠ [] ∧ fs.isDir p.dropLast
  | .check p rest => Way j.1 p rest ∧ fs.isDir p
  | .opening => fs.isDir j.1
  | .writing pos => fs.isDir j.1 ∧ pos ≤ j.2.length
  | .panicked => False

/-- `fs'` has at least the directories of `fs`. -/
def MoreDirs (fs fs' : FS) : Prop := ∀ p, fs p = some .dir → fs' p = some .dir

theorem MoreDirs.isDir {fs fs' : FS} (h : MoreDirs fs fs') {p : Path} (hp : fs.isDir p) : fs'.isDir p := by
  simp only [FS.isDir, Bool.or_eq_true, beq_iff_eq] at hp ⊢
  rcases hp with hp | hp
  · exact Or.inl hp
  · exact Or.inr (h p hp)

theorem Knows.mono {fs fs' : FS} (h : MoreDirs fs fs') {j : Job} : ∀ {pc : Pc}, Knows fs j pc → Knows fs' j pc
  | .begin, _ => trivial
  | .mkdir .., hk => hk
  | .again .., ⟨h1, h2, h3⟩ => ⟨h1, h2, h.isDir h3⟩
  | .check .., ⟨h1, h2⟩ => ⟨h1, h.isDir h2⟩
  | .opening, hk => h.isDir hk
  | .writing _, ⟨h1, h2⟩ => ⟨h.isDir h1, h2⟩
  | .panicked, hk => hk

theorem knows_returned {fs : FS} {j : Job} {p : Path} {rest : List Path} (h : Way j.1 p rest) (hp : fs.isDir p) :
    Knows fs j (returned rest) := by
  obtain ⟨h, hne⟩ := h
  cases rest with
  | nil =>
    simp only [Ups] at h
    subst h
    exact hp
  | cons q r =>
    simp only [Ups] at h
    refine ⟨⟨h.2, fun x hx => hne x (List.mem_cons_of_mem _ hx)⟩, hne q List.mem_cons_self, ?_⟩
    rw [h.1]; exact hp

/-! ## The file system -/

/-- What is always true of the file system; others may remove what is `gone`. -/
structure FsOk (fs0 : FS) (use : Job → Prop) (gone : Path → Prop) (fs : FS) : Prop where
  rooted : Rooted fs
  frame : ∀ p, (∀ j, use j → p ≠ j.file) →
    fs p = fs0 p ∨ (fs0 p = none ∧ fs p = some .dir ∧ p ≠ [] ∧ ∃ j, use j ∧ p <+: j.1) ∨ (fs p = none ∧ gone p)
  notDir : ∀ j, use j → fs j.file ≠ some .dir

theorem clear_file_inj {fs : FS} {use : Job → Prop} (hc : Clear fs use) {j j' : Job} (hj : use j) (hj' : use j')
    (h : j.file = j'.file) : j = j' := by
  simp only [Job.file] at h
  have h1 := List.append_inj' h rfl
  have h2 : fileName j.2 = fileName j'.2 := by simpa using h1.2
  exact Prod.ext h1.1 (hc.hash j j' hj hj' h1.1 h2)

theorem FsOk.noFile {fs0 fs : FS} {use : Job → Prop} {gone : Path → Prop} (hc : Clear fs0 use) (h : FsOk fs0 use gone fs) {j : Job} (hj : use j)
    {p : Path} (hp : p <+: j.1) (c : Bytes) : fs p ≠ some (.file c) := by
  rcases h.frame p (fun j' hj' e => hc.apart j' j hj' hj (by rw [Job.file] at e; rwa [← e])) with h1 | h1 | h1
  · rw [h1]; exact hc.dirs j hj p c hp
  · rw [h1.2.1]; simp
  · rw [h1.1]; simp

theorem FsOk.isDir {fs0 fs : FS} {use : Job → Prop} {gone : Path → Prop} (hc : Clear fs0 use) (h : FsOk fs0 use gone fs) {j : Job} (hj : use j)
    {p : Path} (hp : p <+: j.1) (hs : p = [] ∨ (fs p).isSome) : fs.isDir p := by
  simp only [FS.isDir, Bool.or_eq_true, List.isEmpty_iff, beq_iff_eq]
  rcases hs with hs | hs
  · exact Or.inl hs
  · cases hf : fs p with
    | none => rw [hf] at hs; simp at hs
    | some n =>
      cases n with
      | dir => exact Or.inr rfl
      | file c => exact absurd hf (h.noFile hc hj hp c)

theorem moreDirs_mkdir {fs : FS} {p : Path} : MoreDirs fs (fs.set p (some .dir)) := by
  intro q hq
  simp only [FS.set]
  split <;> simp [hq]

theorem moreDirs_file {fs : FS} {p : Path} {c : Bytes} (h : fs p ≠ some .dir) : MoreDirs fs (fs.set p (some (.file c))) := by
  intro q hq
  simp only [FS.set]
  split
  · next e => rw [e] at hq; exact absurd hq h
  · exact hq

theorem FsOk.mkdir {fs0 fs : FS} {use : Job → Prop} {gone : Path → Prop} (hc : Clear fs0 use)
    (hg : ∀ j, use j → ∀ p, p <+: j.1 → ¬ gone p) (h : FsOk fs0 use gone fs) {j : Job} (hj : use j)
    {p : Path} (hp : p <+: j.1) (hne : p ≠ []) (hn : fs p = none) (hd : fs.isDir p.dropLast) :
    FsOk fs0 use gone (fs.set p (some .dir)) where
  rooted q hq := by
    apply moreDirs_mkdir.isDir
    simp only [FS.set] at hq
    split at hq
    · next e => rw [e]; exact hd
    · exact h.rooted q hq
  frame q hq := by
    simp only [FS.set]
    split
    · next e =>
      subst e
      rcases h.frame q hq with h1 | h1 | h1
      · exact Or.inr (Or.inl ⟨by rw [← h1, hn], rfl, hne, j, hj, hp⟩)
      · rw [hn] at h1; simp at h1
      · exact absurd h1.2 (hg j hj q hp)
    · exact h.frame q hq
  notDir j' hj' := by
    simp only [FS.set]
    split
    · next e =>
      subst e
      exact absurd hp (hc.apart j' j hj' hj)
    · exact h.notDir j' hj'

theorem FsOk.file {fs0 fs : FS} {use : Job → Prop} {gone : Path → Prop} (h : FsOk fs0 use gone fs) {j : Job} (hj : use j) (hd : fs.isDir j.1)
    (c : Bytes) : FsOk fs0 use gone (fs.set j.file (some (.file c))) where
  rooted q hq := by
    apply (moreDirs_file (h.notDir j hj)).isDir
    simp only [FS.set] at hq
    split at hq
    · next e => rw [e, Job.file, List.dropLast_concat]; exact hd
    · exact h.rooted q hq
  frame q hq := by
    simp only [FS.set]
    rw [if_neg (hq j hj)]
    exact h.frame q hq
  notDir j' hj' := by
    simp only [FS.set]
    split
    · simp
    · exact h.notDir j' hj'

theorem mkdir_cases (fs : FS) (p : Path) :
    (p ≠ [] ∧ fs p = none ∧ fs.isDir p.dropLast ∧ mkdir fs p = (fs.set p (some .dir), .made)) ∨
    (p ≠ [] ∧ fs p = none ∧ fs.isDir p.dropLast = false ∧ mkdir fs p = (fs, .noParent)) ∨
    ((p = [] ∨ (fs p).isSome ∨ (p ≠ [] ∧ fs.isDir p.dropLast = false ∧ fs p.dropLast ≠ none)) ∧ mkdir fs p = (fs, .other)) := by
  unfold mkdir
  by_cases h1 : p = [] ∨ (fs p).isSome
  · refine Or.inr (Or.inr ⟨?_, by rw [if_pos h1]⟩)
    rcases h1 with h1 | h1
    · exact Or.inl h1
    · exact Or.inr (Or.inl h1)
  · rw [if_neg h1]
    rw [not_or] at h1
    have hn : fs p = none := by simpa using h1.2
    by_cases h2 : fs.isDir p.dropLast
    · exact Or.inl ⟨h1.1, hn, h2, by rw [if_pos h2]⟩
    · rw [if_neg h2]
      have h2 : fs.isDir p.dropLast = false := by simpa using h2
      by_cases h3 : fs p.dropLast = none
      · exact Or.inr (Or.inl ⟨h1.1, hn, h2, by rw [if_pos h3]⟩)
      · exact Or.inr (Or.inr ⟨Or.inr (Or.inr ⟨h1.1, h2, h3⟩), by rw [if_neg h3]⟩)

/-- The parent exists but is no directory: impossible. -/
theorem FsOk.parent {fs0 fs : FS} {use : Job → Prop} {gone : Path → Prop} (hc : Clear fs0 use) (h : FsOk fs0 use gone fs) {j : Job} (hj : use j)
    {p : Path} (hp : p <+: j.1) (h2 : fs.isDir p.dropLast = false) (h3 : fs p.dropLast ≠ none) : False := by
  have := h.isDir hc hj ((List.dropLast_prefix p).trans hp) (Or.inr (Option.isSome_iff_ne_none.mpr h3))
  rw [h2] at this
  simp at this

/-- A step of a thread keeps all that. -/
theorem jobStep_ok {fs0 fs : FS} {use : Job → Prop} {gone : Path → Prop} (hc : Clear fs0 use)
    (hg : ∀ j, use j → ∀ p, p <+: j.1 → ¬ gone p) (h : FsOk fs0 use gone fs) (k : Nat) {j : Job} (hj : use j)
    {pc : Pc} (hk : Knows fs j pc) (hf : ∀ pos, pc = .writing pos → ∃ c, fs j.file = some (.file c)) :
    FsOk fs0 use gone (jobStep k fs j pc).1 ∧ MoreDirs fs (jobStep k fs j pc).1 ∧
      ((jobStep k fs j pc).2.2 = false → Knows (jobStep k fs j pc).1 j (jobStep k fs j pc).2.1) ∧
      ((jobStep k fs j pc).2.2 = true → (jobStep k fs j pc).2.1 = .begin ∧ fs.isDir j.1) := by
  have hrefl : MoreDirs fs fs := fun _ h => h
  cases pc with
  | begin => exact ⟨h, hrefl, fun _ => ⟨rfl, fun q hq => (by simp at hq)⟩, fun e => (by simp [jobStep] at e)⟩
  | mkdir p rest =>
    have hw : Way j.1 p rest := hk
    rcases mkdir_cases fs p with ⟨h1, h2, h3, h4⟩ | ⟨h1, h2, h3, h4⟩ | ⟨h1, h4⟩
    · simp only [jobStep, h4]
      refine ⟨h.mkdir hc hg hj hw.prefix h1 h2 h3, moreDirs_mkdir, fun _ => ?_, by simp⟩
      exact knows_returned hw (by simp [FS.isDir, FS.set])
    · simp only [jobStep, h4]
      exact ⟨h, hrefl, fun _ => hw.up h1, by simp⟩
    · simp only [jobStep, h4]
      refine ⟨h, hrefl, fun _ => ⟨hw, ?_⟩, by simp⟩
      rcases h1 with h1 | h1 | h1
      · exact h.isDir hc hj hw.prefix (Or.inl h1)
      · exact h.isDir hc hj hw.prefix (Or.inr h1)
      · exact (h.parent hc hj hw.prefix h1.2.1 h1.2.2).elim
  | again p rest =>
    obtain ⟨hw, hne, hd⟩ := hk
    rcases mkdir_cases fs p with ⟨h1, h2, h3, h4⟩ | ⟨h1, h2, h3, h4⟩ | ⟨h1, h4⟩
    · simp only [jobStep, h4]
      refine ⟨h.mkdir hc hg hj hw.prefix h1 h2 h3, moreDirs_mkdir, fun _ => ?_, by simp⟩
      exact knows_returned hw (by simp [FS.isDir, FS.set])
    · rw [hd] at h3; simp at h3
    · simp only [jobStep, h4]
      refine ⟨h, hrefl, fun _ => ⟨hw, ?_⟩, by simp⟩
      rcases h1 with h1 | h1 | h1
      · exact absurd h1 hne
      · exact h.isDir hc hj hw.prefix (Or.inr h1)
      · rw [hd] at h1; simp at h1
  | check p rest =>
    obtain ⟨hw, hd⟩ := hk
    simp only [jobStep, hd, if_true]
    exact ⟨h, hrefl, fun _ => knows_returned hw hd, by simp⟩
  | opening =>
    have hd : fs.isDir j.1 := hk
    have hnd := h.notDir j hj
    simp only [jobStep, hd, hnd]
    simp only [Bool.true_eq_false, or_self, if_false]
    exact ⟨h.file hj hd [], moreDirs_file hnd, fun _ => ⟨(moreDirs_file hnd).isDir hd, by omega⟩, by simp⟩
  | writing pos =>
    obtain ⟨hd, hl⟩ := hk
    obtain ⟨c, hcf⟩ := hf pos rfl
    simp only [jobStep, hcf]
    split
    · exact ⟨h, hrefl, by simp, fun _ => ⟨rfl, hd⟩⟩
    · have hnd := h.notDir j hj
      refine ⟨h.file hj hd _, moreDirs_file hnd, fun _ => ⟨(moreDirs_file hnd).isDir hd, ?_⟩, by simp⟩
      simp only [List.length_take, List.length_drop]
      omega
  | panicked => exact hk.elim

/-! ## All threads -/

/-- The thread `i` is writing the file of `j`, up to the position `n`. -/
def Writes (s : State ι) (i : ι) (j : Job) (n : Nat) : Prop := (∃ js, (s.thr i).jobs = j :: js) ∧ (s.thr i).pc = .writing n

/-- The first `n` bytes of the file of `j` can be relied upon: they were written after it was last truncated. -/
def Sure (s : State ι) (j : Job) (n : Nat) : Prop := (∃ i, Writes s i j n) ∨ n = j.2.length ∧ ∃ i, j ∈ (s.thr i).past

structure Inv (fs0 : FS) (todo : ι → List Job) (s : State ι) : Prop where
  ok : FsOk fs0 (fun j => ∃ i, j ∈ todo i) (fun _ => False) s.fs
  jobs : ∀ i, (s.thr i).past ++ (s.thr i).jobs = todo i
  idle : ∀ i, (s.thr i).jobs = [] → (s.thr i).pc = .begin
  knows : ∀ i j js, (s.thr i).jobs = j :: js → Knows s.fs j (s.thr i).pc
  dirs : ∀ i j, j ∈ (s.thr i).past → s.fs.isDir j.1
  content : ∀ j n, Sure s j n → ∃ c m, s.fs j.file = some (.file c) ∧ Good j.2 c m ∧ Sure s j m

theorem Inv.use {fs0 : FS} {todo : ι → List Job} {s : State ι} (h : Inv fs0 todo s) {i : ι} {j : Job} {js : List Job}
    (hj : (s.thr i).jobs = j :: js) : ∃ i, j ∈ todo i :=
  ⟨i, by rw [← h.jobs i, hj]; simp⟩

/-- A step that changes neither files nor what is sure. -/
theorem content_same {s t : State ι} (hfile : ∀ j n, Sure t j n → t.fs j.file = s.fs j.file)
    (h1 : ∀ j n, Sure t j n → ∃ m, Sure s j m) (h2 : ∀ j n, Sure s j n → Sure t j n)
    (h : ∀ j n, Sure s j n → ∃ c m, s.fs j.file = some (.file c) ∧ Good j.2 c m ∧ Sure s j m) :
    ∀ j n, Sure t j n → ∃ c m, t.fs j.file = some (.file c) ∧ Good j.2 c m ∧ Sure t j m := by
  intro j n hs
  obtain ⟨m, hm⟩ := h1 j n hs
  obtain ⟨c, m, h3, h4, h5⟩ := h j m hm
  exact ⟨c, m, by rw [hfile j n hs]; exact h3, h4, h2 j m h5⟩

theorem inv_initial (fs0 : FS) (todo : ι → List Job) (hr : Rooted fs0) (hc : Clear fs0 fun j => ∃ i, j ∈ todo i) :
    Inv fs0 todo (.initial fs0 todo) where
  ok := ⟨hr, fun _ _ => Or.inl rfl, fun j hj => hc.files j hj⟩
  jobs i := by simp [State.initial]
  idle i _ := rfl
  knows i j js _ := trivial
  dirs i j h := by simp [State.initial] at h
  content j n h := by
    rcases h with ⟨i, -, h⟩ | ⟨-, i, h⟩
    · simp [State.initial] at h
    · simp [State.initial] at h

/-- The state after a step in which the thread `i` goes on to `pc`. -/
def State.goOn (s : State ι) (i : ι) (fs : FS) (pc : Pc) : State ι :=
  ⟨fs, fun l => if l = i then { s.thr i with pc := pc } else s.thr l⟩

/-- The state after a step in which the thread `i` finishes `j`. -/
def State.finish (s : State ι) (i : ι) (j : Job) (js : List Job) : State ι :=
  ⟨s.fs, fun l => if l = i then ⟨(s.thr i).past ++ [j], js, .begin⟩ else s.thr l⟩

theorem step_idle {s : State ι} {i : ι} {k : Nat} (h : (s.thr i).jobs = []) : s.step i k = s := by
  have : (s.thr i).step k s.fs = (s.fs, s.thr i) := by simp only [Thr.step, h]
  simp only [State.step, this]
  cases s with
  | mk fs thr =>
    congr 1
    funext l
    split
    · next e => rw [e]
    · rfl

theorem step_goOn {s : State ι} {i : ι} {k : Nat} {j : Job} {js : List Job} (h : (s.thr i).jobs = j :: js)
    (hr : (jobStep k s.fs j (s.thr i).pc).2.2 = false) :
    s.step i k = s.goOn i (jobStep k s.fs j (s.thr i).pc).1 (jobStep k s.fs j (s.thr i).pc).2.1 := by
  have : (s.thr i).step k s.fs =
      ((jobStep k s.fs j (s.thr i).pc).1, { s.thr i with pc := (jobStep k s.fs j (s.thr i).pc).2.1 }) := by
    simp only [Thr.step, h]
    generalize hx : jobStep k s.fs j (s.thr i).pc = x at hr
    obtain ⟨a, b, c⟩ := x
    simp only at hr
    subst hr
    rfl
  simp only [State.step, this, State.goOn]

theorem jobStep_finished {k : Nat} {fs : FS} {j : Job} {pc : Pc} (hr : (jobStep k fs j pc).2.2 = true) :
    jobStep k fs j pc = (fs, .begin, true) ∧ ∃ pos, pc = .writing pos ∧ j.2.length ≤ pos := by
  cases pc with
  | writing pos =>
    by_cases hp : j.2.length ≤ pos
    · exact ⟨by simp only [jobStep, if_pos hp], pos, rfl, hp⟩
    · simp only [jobStep, if_neg hp] at hr
      split at hr <;> simp at hr
  | begin => simp [jobStep] at hr
  | mkdir p rest => simp only [jobStep] at hr; split at hr <;> simp at hr
  | again p rest => simp only [jobStep] at hr; split at hr <;> simp at hr
  | check p rest => simp [jobStep] at hr
  | opening => simp only [jobStep] at hr; split at hr <;> simp at hr
  | panicked => simp [jobStep] at hr

theorem step_finish {s : State ι} {i : ι} {k : Nat} {j : Job} {js : List Job} (h : (s.thr i).jobs = j :: js)
    (hr : (jobStep k s.fs j (s.thr i).pc).2.2 = true) : s.step i k = s.finish i j js := by
  have : (s.thr i).step k s.fs = (s.fs, ⟨(s.thr i).past ++ [j], js, .begin⟩) := by
    simp only [Thr.step, h, (jobStep_finished hr).1]
  simp only [State.step, this, State.finish]

theorem sure_goOn {s : State ι} {i : ι} {j : Job} {js : List Job} (h : (s.thr i).jobs = j :: js) {fs : FS} {pc : Pc} {j' : Job}
    (hj : j' ≠ j) (n : Nat) : Sure (s.goOn i fs pc) j' n ↔ Sure s j' n := by
  unfold Sure
  refine or_congr ?_ (and_congr Iff.rfl ?_)
  · refine exists_congr fun l => ?_
    by_cases hl : l = i
    · subst hl
      simp only [Writes, State.goOn, if_true, h]
      constructor
      · rintro ⟨⟨_, e⟩, _⟩; simp only [List.cons.injEq] at e; exact absurd e.1.symm hj
      · rintro ⟨⟨_, e⟩, _⟩; simp only [List.cons.injEq] at e; exact absurd e.1.symm hj
    · simp only [Writes, State.goOn, if_neg hl]
  · refine exists_congr fun l => ?_
    by_cases hl : l = i
    · subst hl; simp only [State.goOn, if_true]
    · simp only [State.goOn, if_neg hl]

/-- Others than `i` are writing, or have written, as before. -/
theorem sure_others {s : State ι} {i : ι} {fs : FS} {pc : Pc} {j : Job} {n : Nat} (h : Sure s j n) :
    Sure (s.goOn i fs pc) j n ∨ (s.thr i).pc = .writing n := by
  rcases h with ⟨l, h⟩ | ⟨hn, l, h⟩
  · by_cases hl : l = i
    · exact Or.inr (hl ▸ h.2)
    · refine Or.inl (Or.inl ⟨l, ?_⟩)
      simpa only [Writes, State.goOn, if_neg hl] using h
  · refine Or.inl (Or.inr ⟨hn, l, ?_⟩)
    by_cases hl : l = i
    · subst hl; simpa only [State.goOn, if_true] using h
    · simpa only [State.goOn, if_neg hl] using h

theorem Sure.used {fs0 : FS} {todo : ι → List Job} {s : State ι} (h : Inv fs0 todo s) {j : Job} {n : Nat} (hs : Sure s j n) :
    ∃ i, j ∈ todo i := by
  rcases hs with ⟨i, ⟨js, hj⟩, -⟩ | ⟨-, i, hp⟩
  · exact h.use hj
  · exact ⟨i, by rw [← h.jobs i]; exact List.mem_append_left _ hp⟩

/-- What a step does to files. -/
theorem jobStep_files {fs0 fs : FS} {use : Job → Prop} (hc : Clear fs0 use) (k : Nat) {j : Job} (hj : use j)
    {pc : Pc} (hk : Knows fs j pc) (hr : (jobStep k fs j pc).2.2 = false) (j' : Job) (hj' : use j') :
    (jobStep k fs j pc).1 j'.file = fs j'.file ∧ (∀ n, pc ≠ .writing n) ∧ (∀ n, (jobStep k fs j pc).2.1 ≠ .writing n) ∨
    pc = .opening ∨ ∃ n, pc = .writing n := by
  have hret : ∀ l n, returned l ≠ .writing n := by intro l n; cases l <;> simp [returned]
  have key : ∀ p rest, Way j.1 p rest → (fs.set p (some .dir)) j'.file = fs j'.file := by
    intro p rest hw
    simp only [FS.set]
    rw [if_neg]
    intro e
    exact hc.apart j' j hj' hj (by rw [Job.file] at e; rw [e]; exact hw.prefix)
  cases pc with
  | begin => exact Or.inl ⟨rfl, by simp, by simp [jobStep]⟩
  | mkdir p rest =>
    left
    rcases mkdir_cases fs p with ⟨h1, h2, h3, h4⟩ | ⟨h1, h2, h3, h4⟩ | ⟨h1, h4⟩ <;> simp only [jobStep, h4]
    · exact ⟨key p rest hk, by simp, hret rest⟩
    · simp
    · simp
  | again p rest =>
    left
    rcases mkdir_cases fs p with ⟨h1, h2, h3, h4⟩ | ⟨h1, h2, h3, h4⟩ | ⟨h1, h4⟩ <;> simp only [jobStep, h4]
    · exact ⟨key p rest hk.1, by simp, hret rest⟩
    · simp
    · simp
  | check p rest =>
    left
    refine ⟨rfl, by simp, ?_⟩
    intro n
    simp only [jobStep]
    split
    · exact hret rest n
    · simp
  | opening => exact Or.inr (Or.inl rfl)
  | writing n => exact Or.inr (Or.inr ⟨n, rfl⟩)
  | panicked => exact hk.elim

theorem inv_goOn {fs0 : FS} {todo : ι → List Job} {s : State ι} (h : Inv fs0 todo s) {i : ι} {j : Job} {js : List Job}
    (hj : (s.thr i).jobs = j :: js) {fs : FS} {pc : Pc} (hok : FsOk fs0 (fun j => ∃ i, j ∈ todo i) (fun _ => False) fs) (hm : MoreDirs s.fs fs)
    (hk : Knows fs j pc) (hcont : ∀ j n, Sure (s.goOn i fs pc) j n → ∃ c m, fs j.file = some (.file c) ∧ Good j.2 c m ∧
      Sure (s.goOn i fs pc) j m) : Inv fs0 todo (s.goOn i fs pc) where
  ok := hok
  jobs l := by
    simp only [State.goOn]
    split
    · next e => rw [e]; exact h.jobs i
    · exact h.jobs l
  idle l hl := by
    simp only [State.goOn] at hl ⊢
    split at hl
    · rw [hj] at hl; simp at hl
    · next e => rw [if_neg e]; exact h.idle l hl
  knows l j' js' hl := by
    simp only [State.goOn] at hl ⊢
    split at hl
    · next e =>
      rw [hj] at hl
      simp only [List.cons.injEq] at hl
      rw [if_pos e, ← hl.1]
      exact hk
    · next e =>
      rw [if_neg e]
      exact (h.knows l j' js' hl).mono hm
  dirs l j' hl := by
    apply hm.isDir
    simp only [State.goOn] at hl
    split at hl
    · exact h.dirs i j' hl
    · exact h.dirs l j' hl
  content := hcont

theorem inv_finish {fs0 : FS} {todo : ι → List Job} {s : State ι} (h : Inv fs0 todo s) {i : ι} {j : Job} {js : List Job}
    (hj : (s.thr i).jobs = j :: js) {pos : Nat} (hp : (s.thr i).pc = .writing pos) (hlen : j.2.length ≤ pos) :
    Inv fs0 todo (s.finish i j js) where
  ok := h.ok
  jobs l := by
    simp only [State.finish]
    split
    · next e => rw [e, ← h.jobs i, hj]; simp
    · exact h.jobs l
  idle l hl := by
    simp only [State.finish] at hl ⊢
    split at hl
    · next e => rw [if_pos e]
    · next e => rw [if_neg e]; exact h.idle l hl
  knows l j' js' hl := by
    simp only [State.finish] at hl ⊢
    split at hl
    · next e => rw [if_pos e]; trivial
    · next e => rw [if_neg e]; exact h.knows l j' js' hl
  dirs l j' hl := by
    simp only [State.finish] at hl ⊢
    split at hl
    · simp only [List.mem_append, List.mem_singleton] at hl
      rcases hl with hl | rfl
      · exact h.dirs i j' hl
      · have := h.knows i j' js hj
        rw [hp] at this
        exact this.1
    · exact h.dirs l j' hl
  content j' n hs := by
    have hle : pos ≤ j.2.length := by
      have := h.knows i j js hj
      rw [hp] at this
      exact this.2
    have back : ∃ m, Sure s j' m := by
      rcases hs with ⟨l, ⟨js', h1⟩, h2⟩ | ⟨-, l, h1⟩
      · by_cases hl : l = i
        · simp [State.finish, hl] at h2
        · simp only [State.finish, if_neg hl] at h1 h2
          exact ⟨n, Or.inl ⟨l, ⟨js', h1⟩, h2⟩⟩
      · by_cases hl : l = i
        · simp only [State.finish, if_pos hl, List.mem_append, List.mem_singleton] at h1
          rcases h1 with h1 | rfl
          · exact ⟨_, Or.inr ⟨rfl, i, h1⟩⟩
          · exact ⟨pos, Or.inl ⟨i, ⟨js, hj⟩, hp⟩⟩
        · simp only [State.finish, if_neg hl] at h1
          exact ⟨_, Or.inr ⟨rfl, l, h1⟩⟩
    obtain ⟨m, hm⟩ := back
    obtain ⟨c, m, h3, h4, h5⟩ := h.content j' m hm
    refine ⟨c, m, h3, h4, ?_⟩
    rcases h5 with ⟨l, ⟨js', h6⟩, h7⟩ | ⟨h6, l, h7⟩
    · by_cases hl : l = i
      · subst hl
        rw [hj] at h6
        simp only [List.cons.injEq] at h6
        rw [hp] at h7
        simp only [Pc.writing.injEq] at h7
        refine Or.inr ⟨?_, l, ?_⟩
        · rw [← h6.1]; omega
        · simp [State.finish, h6.1]
      · exact Or.inl ⟨l, ⟨js', by simp only [State.finish, if_neg hl]; exact h6⟩, by simp only [State.finish, if_neg hl]; exact h7⟩
    · refine Or.inr ⟨h6, l, ?_⟩
      by_cases hl : l = i
      · subst hl; simp [State.finish, h7]
      · simp only [State.finish, if_neg hl]; exact h7

theorem inv_step {fs0 : FS} {todo : ι → List Job} (hc : Clear fs0 fun j => ∃ i, j ∈ todo i) {s : State ι} (h : Inv fs0 todo s)
    (i : ι) (k : Nat) : Inv fs0 todo (s.step i k) := by
  cases hj : (s.thr i).jobs with
  | nil => rw [step_idle hj]; exact h
  | cons j js =>
    have hu := h.use hj
    have hk := h.knows i j js hj
    cases hr : (jobStep k s.fs j (s.thr i).pc).2.2 with
    | true =>
      obtain ⟨-, pos, h1, h2⟩ := jobStep_finished hr
      rw [step_finish hj hr]
      exact inv_finish h hj h1 h2
    | false =>
      have hf : ∀ pos, (s.thr i).pc = .writing pos → ∃ c, s.fs j.file = some (.file c) := by
        intro pos hp
        obtain ⟨c, -, h1, -⟩ := h.content j pos (Or.inl ⟨i, ⟨js, hj⟩, hp⟩)
        exact ⟨c, h1⟩
      obtain ⟨h1, h2, h3, -⟩ := jobStep_ok hc (fun _ _ _ _ h => h) h.ok k hu hk hf
      rw [step_goOn hj hr]
      refine inv_goOn h hj h1 h2 (h3 hr) ?_
      intro j' n hs
      have hu' : ∃ i, j' ∈ todo i := by
        rcases hs with ⟨l, ⟨js', h6⟩, -⟩ | ⟨-, l, h7⟩
        · simp only [State.goOn] at h6
          split at h6
          · exact h.use h6
          · exact h.use h6
        · refine ⟨l, ?_⟩
          rw [← h.jobs l]
          simp only [State.goOn] at h7
          split at h7
          · next e => rw [e]; exact List.mem_append_left _ h7
          · exact List.mem_append_left _ h7
      rcases jobStep_files hc k hu hk hr j' hu' with ⟨g1, g2, g3⟩ | g | ⟨pos, g⟩
      · have back : Sure s j' n := by
          rcases hs with ⟨l, ⟨js', h6⟩, h7⟩ | ⟨h6, l, h7⟩
          · by_cases hl : l = i
            · simp only [State.goOn, if_pos hl] at h7
              exact absurd h7 (g3 n)
            · simp only [State.goOn, if_neg hl] at h6 h7
              exact Or.inl ⟨l, ⟨js', h6⟩, h7⟩
          · refine Or.inr ⟨h6, l, ?_⟩
            by_cases hl : l = i
            · subst hl; simpa only [State.goOn, if_true] using h7
            · simpa only [State.goOn, if_neg hl] using h7
        obtain ⟨c, m, h5, h6, h7⟩ := h.content j' n back
        rcases sure_others (i := i) (fs := (jobStep k s.fs j (s.thr i).pc).1) (pc := (jobStep k s.fs j (s.thr i).pc).2.1) h7 with h8 | h8
        · exact ⟨c, m, by rw [g1]; exact h5, h6, h8⟩
        · exact absurd h8 (g2 m)
      · -- the file is truncated
        have hd : s.fs.isDir j.1 := by rw [g] at hk; exact hk
        have hnd := h.ok.notDir j hu
        have e : jobStep k s.fs j (s.thr i).pc = (s.fs.set j.file (some (.file [])), .writing 0, false) := by
          rw [g]
          simp only [jobStep, hd, hnd]
          simp
        rw [e] at hs ⊢
        simp only at hs ⊢
        by_cases hjj : j' = j
        · subst hjj
          refine ⟨[], 0, by simp [FS.set], ⟨by simp, by simp, by simp⟩, Or.inl ⟨i, ⟨js, ?_⟩, ?_⟩⟩
          · simp [State.goOn, hj]
          · simp [State.goOn]
        · rw [sure_goOn hj hjj] at hs
          obtain ⟨c, m, h5, h6, h7⟩ := h.content j' n hs
          refine ⟨c, m, ?_, h6, (sure_goOn hj hjj m).mpr h7⟩
          simp only [FS.set]
          rw [if_neg (fun e => hjj (clear_file_inj hc hu' hu e))]
          exact h5
      · -- a chunk is written
        obtain ⟨c, hcf⟩ := hf pos g
        have hlt : ¬ j.2.length ≤ pos := by
          intro hp
          rw [g] at hr
          simp [jobStep, if_pos hp] at hr
        have e : jobStep k s.fs j (s.thr i).pc =
            (s.fs.set j.file (some (.file (overwrite c pos ((j.2.drop pos).take (k + 1))))),
              .writing (pos + ((j.2.drop pos).take (k + 1)).length), false) := by
          rw [g]
          simp only [jobStep, if_neg hlt, hcf]
        rw [e] at hs ⊢
        simp only at hs ⊢
        by_cases hjj : j' = j
        · subst hjj
          obtain ⟨c', m, h5, h6, h7⟩ := h.content j' pos (Or.inl ⟨i, ⟨js, hj⟩, g⟩)
          rw [hcf] at h5
          simp only [Option.some.injEq, Node.file.injEq] at h5
          subst h5
          obtain ⟨w1, w2⟩ := h6.overwrite (p := pos) (k := k + 1) (by omega)
          rcases sure_others (i := i) (fs := s.fs.set j'.file (some (.file (overwrite c pos ((j'.2.drop pos).take (k + 1))))))
            (pc := .writing (pos + ((j'.2.drop pos).take (k + 1)).length)) h7 with h8 | h8
          · exact ⟨_, m, by simp [FS.set], w1, h8⟩
          · rw [g] at h8
            simp only [Pc.writing.injEq] at h8
            refine ⟨_, _, by simp [FS.set], w2 h8.symm, Or.inl ⟨i, ⟨js, ?_⟩, ?_⟩⟩
            · simp [State.goOn, hj]
            · simp [State.goOn]
        · rw [sure_goOn hj hjj] at hs
          obtain ⟨c', m, h5, h6, h7⟩ := h.content j' n hs
          refine ⟨c', m, ?_, h6, (sure_goOn hj hjj m).mpr h7⟩
          simp only [FS.set]
          rw [if_neg (fun e => hjj (clear_file_inj hc hu' hu e))]
          exact h5

theorem reaches_inv {fs0 : FS} {todo : ι → List Job} (hr : Rooted fs0) (hc : Clear fs0 fun j => ∃ i, j ∈ todo i) {s : State ι}
    (h : Reaches fs0 todo s) : Inv fs0 todo s := by
  induction h with
  | initial => exact inv_initial fs0 todo hr hc
  | step i k _ ih => exact inv_step hc ih i k

/-! ## C86 -/

/-- **C86.** However many tests record at the same time, whatever they record and however their steps are interleaved – also if
none of the directories exists at first and all create them at once –, no recording fails. -/
theorem C86_no_failure (fs0 : FS) (todo : ι → List Job) (hr : Rooted fs0) (hc : Clear fs0 fun j => ∃ i, j ∈ todo i) (s : State ι)
    (h : Reaches fs0 todo s) (i : ι) : (s.thr i).pc ≠ .panicked := by
  intro hp
  have hi := reaches_inv hr hc h
  cases hj : (s.thr i).jobs with
  | nil => rw [hi.idle i hj] at hp; simp at hp
  | cons j js =>
    have := hi.knows i j js hj
    rw [hp] at this
    exact this

/-- **C86 (at any time).** What some test has recorded is in its file, completely, unless another one is just about to record the
same again. So this holds if tests die at any point, for all that they were not writing. -/
theorem C86_kept (fs0 : FS) (todo : ι → List Job) (hr : Rooted fs0) (hc : Clear fs0 fun j => ∃ i, j ∈ todo i) (s : State ι)
    (h : Reaches fs0 todo s) (i : ι) (dir : Path) (data : Bytes) (hd : (dir, data) ∈ (s.thr i).past)
    (hw : ∀ l js n, (s.thr l).jobs = (dir, data) :: js → (s.thr l).pc ≠ .writing n) :
    s.fs (dir ++ [fileName data]) = some (.file data) := by
  have hi := reaches_inv hr hc h
  obtain ⟨c, m, h1, h2, h3⟩ := hi.content (dir, data) _ (Or.inr ⟨rfl, i, hd⟩)
  rcases h3 with ⟨l, ⟨js, h4⟩, h5⟩ | ⟨h4, -⟩
  · exact absurd h5 (hw l js m h4)
  · rw [h4] at h2
    have : c = data := h2.all
    subst this
    exact h1

/-- **C86 (others).** At any time nothing but these directories and files was touched. -/
theorem C86_untouched (fs0 : FS) (todo : ι → List Job) (hr : Rooted fs0) (hc : Clear fs0 fun j => ∃ i, j ∈ todo i) (s : State ι)
    (h : Reaches fs0 todo s) (p : Path) (hp : ∀ i dir data, (dir, data) ∈ todo i → p ≠ dir ++ [fileName data]) :
    s.fs p = fs0 p ∨ fs0 p = none ∧ s.fs p = some .dir ∧ ∃ i dir data, (dir, data) ∈ todo i ∧ p <+: dir := by
  have hi := reaches_inv hr hc h
  rcases hi.ok.frame p (fun j ⟨i, hj⟩ => hp i j.1 j.2 hj) with h1 | ⟨h1, h2, -, j, ⟨i, hj⟩, h3⟩ | h1
  · exact Or.inl h1
  · exact Or.inr ⟨h1, h2, i, j.1, j.2, hj, h3⟩
  · exact h1.2.elim

theorem rooted_prefix {fs : FS} (hr : Rooted fs) (p r : Path) (h : fs.isDir (p ++ r)) : fs.isDir p := by
  induction r using List.reverseRecOn with
  | nil => simpa using h
  | append_singleton r x ih =>
    apply ih
    rw [← List.append_assoc] at h
    simp only [FS.isDir, Bool.or_eq_true, List.isEmpty_iff, beq_iff_eq] at h
    rcases h with h | h
    · simp at h
    · have := hr (p ++ r ++ [x]) (by rw [h]; rfl)
      rwa [List.dropLast_concat] at this

theorem allRecorded_of {fs0 fs : FS} {use : Job → Prop} (h : FsOk fs0 use (fun _ => False) fs)
    (h1 : ∀ j, use j → fs j.file = some (.file j.2) ∧ fs.isDir j.1) : AllRecorded fs0 fs use where
  files j hj := (h1 j hj).1
  dirs j hj p hp hpre := by
    obtain ⟨r, hr⟩ := hpre
    have := rooted_prefix h.rooted p r (by rw [hr]; exact (h1 j hj).2)
    simpa [FS.isDir, hp] using this
  rest p hf hd := by
    rcases h.frame p hf with h2 | ⟨-, -, h2, j, hj, h3⟩ | h2
    · exact h2
    · rcases hd j hj with h4 | h4
      · exact absurd h4 h2
      · exact absurd h3 h4
    · exact h2.2.elim

/-- **C86 (at the end).** When all are finished, exactly what was to be recorded is there, in directories, and everything else is
as before. -/
theorem C86_all_recorded (fs0 : FS) (todo : ι → List Job) (hr : Rooted fs0) (hc : Clear fs0 fun j => ∃ i, j ∈ todo i) (s : State ι)
    (h : Reaches fs0 todo s) (hdone : ∀ i, (s.thr i).jobs = []) : AllRecorded fs0 s.fs fun j => ∃ i, j ∈ todo i := by
  have hi := reaches_inv hr hc h
  refine allRecorded_of hi.ok ?_
  rintro j ⟨i, hj⟩
  have hp : j ∈ (s.thr i).past := by
    have := hi.jobs i
    rw [hdone i, List.append_nil] at this
    rw [this]; exact hj
  refine ⟨?_, hi.dirs i j hp⟩
  exact C86_kept fs0 todo hr hc s h i j.1 j.2 hp (fun l js n hl => by rw [hdone l] at hl; simp at hl)

theorem allRecorded_unique {fs0 fs fs' : FS} {use : Job → Prop} (h1 : AllRecorded fs0 fs use) (h2 : AllRecorded fs0 fs' use) :
    fs = fs' := by
  funext p
  by_cases hf : ∃ j, use j ∧ p = j.1 ++ [fileName j.2]
  · obtain ⟨j, hj, rfl⟩ := hf
    rw [h1.files j hj, h2.files j hj]
  · by_cases hd : ∃ j, use j ∧ p ≠ [] ∧ p <+: j.1
    · obtain ⟨j, hj, h3, h4⟩ := hd
      rw [h1.dirs j hj p h3 h4, h2.dirs j hj p h3 h4]
    · have hf' : ∀ j, use j → p ≠ j.1 ++ [fileName j.2] := fun j hj e => hf ⟨j, hj, e⟩
      have hd' : ∀ j, use j → p = [] ∨ ¬ p <+: j.1 := by
        intro j hj
        by_cases hp : p = []
        · exact Or.inl hp
        · exact Or.inr fun h => hd ⟨j, hj, hp, h⟩
      rw [h1.rest p hf' hd', h2.rest p hf' hd']

/-- **C86 (no difference).** Whatever the interleaving and whoever records what, the result is the same file system. -/
theorem C86_same_result {κ : Type} [DecidableEq κ] (fs0 : FS) (todo : ι → List Job) (todo' : κ → List Job) (hr : Rooted fs0)
    (hc : Clear fs0 fun j => ∃ i, j ∈ todo i) (hsame : ∀ j, (∃ i, j ∈ todo i) ↔ ∃ i, j ∈ todo' i) (s : State ι) (s' : State κ)
    (h : Reaches fs0 todo s) (h' : Reaches fs0 todo' s') (hdone : ∀ i, (s.thr i).jobs = []) (hdone' : ∀ i, (s'.thr i).jobs = []) :
    s.fs = s'.fs := by
  have e : (fun j => ∃ i, j ∈ todo' i) = fun j => ∃ i, j ∈ todo i := funext fun j => propext (hsame j).symm
  have h2 := C86_all_recorded fs0 todo' hr (by rw [e]; exact hc) s' h' hdone'
  rw [e] at h2
  exact allRecorded_unique (C86_all_recorded fs0 todo hr hc s h hdone) h2

/-! ### It comes to an end -/

/-- How many steps recordings need at most. -/
def cost : List Job → Nat
  | [] => 0
  | j :: js => 3 * j.1.length + j.2.length + 5 + cost js

/-- Steps that are left for the recording at hand. -/
def pcCost (j : Job) : Pc → Nat
  | .begin => 3 * j.1.length + j.2.length + 5
  | .mkdir p rest => 3 * p.length + 2 * rest.length + 2 + (j.2.length + 2)
  | .again _ rest => 2 * rest.length + 2 + (j.2.length + 2)
  | .check _ rest => 2 * rest.length + 1 + (j.2.length + 2)
  | .opening => j.2.length + 2
  | .writing pos => j.2.length - pos + 1
  | .panicked => 0

def Thr.left (t : Thr) : Nat :=
  match t.jobs with
  | [] => 0
  | j :: js => pcCost j t.pc + cost js

theorem pcCost_returned (j : Job) (rest : List Path) : pcCost j (returned rest) ≤ 2 * rest.length + (j.2.length + 2) := by
  cases rest with
  | nil => simp [returned, pcCost]
  | cons p r => simp only [returned, pcCost, List.length_cons]; omega

theorem jobStep_cost {k : Nat} {fs : FS} {j : Job} {pc : Pc} (hnp : (jobStep k fs j pc).2.1 ≠ .panicked)
    (hr : (jobStep k fs j pc).2.2 = false) : pcCost j (jobStep k fs j pc).2.1 < pcCost j pc := by
  cases pc with
  | begin => simp only [jobStep, pcCost, List.length_nil]; omega
  | mkdir p rest =>
    have hret := pcCost_returned j rest
    rcases mkdir_cases fs p with ⟨h1, h2, h3, h4⟩ | ⟨h1, h2, h3, h4⟩ | ⟨h1, h4⟩ <;> simp only [jobStep, h4]
    · refine Nat.lt_of_le_of_lt hret ?_
      simp only [pcCost]; omega
    · have := List.length_pos_iff.mpr h1
      simp only [pcCost, List.length_dropLast, List.length_cons]; omega
    · simp only [pcCost]; omega
  | again p rest =>
    have hret := pcCost_returned j rest
    rcases mkdir_cases fs p with ⟨h1, h2, h3, h4⟩ | ⟨h1, h2, h3, h4⟩ | ⟨h1, h4⟩ <;> simp only [jobStep, h4]
    · refine Nat.lt_of_le_of_lt hret ?_
      simp only [pcCost]; omega
    · simp only [pcCost]; omega
    · simp only [pcCost]; omega
  | check p rest =>
    have hret := pcCost_returned j rest
    simp only [jobStep]
    split
    · refine Nat.lt_of_le_of_lt hret ?_
      simp only [pcCost]; omega
    · simp only [pcCost]; omega
  | opening =>
    simp only [jobStep] at hnp ⊢
    split
    · next h => rw [if_pos h] at hnp; simp at hnp
    · simp only [pcCost]; omega
  | writing pos =>
    simp only [jobStep] at hnp hr ⊢
    by_cases hp : j.2.length ≤ pos
    · rw [if_pos hp] at hr; simp at hr
    · rw [if_neg hp] at hnp ⊢
      split
      · simp only [pcCost, List.length_take, List.length_drop]; omega
      · next h =>
        split at hnp
        · next c hc => exact absurd hc (h c)
        · simp at hnp
  | panicked => simp [jobStep] at hnp

theorem left_step {fs0 : FS} {todo : ι → List Job} (hr : Rooted fs0) (hc : Clear fs0 fun j => ∃ i, j ∈ todo i) {s : State ι}
    (h : Reaches fs0 todo s) (i : ι) (k : Nat) :
    ((s.step i k).thr i).left ≤ (s.thr i).left - 1 ∧ ∀ l, l ≠ i → (s.step i k).thr l = s.thr l := by
  refine ⟨?_, fun l hl => by simp [State.step, hl]⟩
  cases hj : (s.thr i).jobs with
  | nil =>
    rw [step_idle hj]
    simp [Thr.left, hj]
  | cons j js =>
    have hnp := C86_no_failure fs0 todo hr hc _ (.step i k h) i
    have hi := reaches_inv hr hc (.step i k h)
    cases hb : (jobStep k s.fs j (s.thr i).pc).2.2 with
    | true =>
      obtain ⟨-, pos, h1, h2⟩ := jobStep_finished hb
      rw [step_finish hj hb]
      have : ((s.finish i j js).thr i).left = cost js := by
        simp only [State.finish, if_true, Thr.left]
        cases js <;> rfl
      rw [this]
      simp only [Thr.left, hj, h1, pcCost]
      omega
    | false =>
      rw [step_goOn hj hb] at hnp ⊢
      simp only [State.goOn, if_true] at hnp
      have := jobStep_cost hnp hb
      simp only [State.goOn, if_true, Thr.left, hj]
      omega

theorem reaches_run {fs0 : FS} {todo : ι → List Job} {s : State ι} (h : Reaches fs0 todo s) :
    ∀ sched : List (ι × Nat), Reaches fs0 todo (run s sched)
  | [] => h
  | x :: l => reaches_run (.step x.1 x.2 h) l

theorem left_run {fs0 : FS} {todo : ι → List Job} (hr : Rooted fs0) (hc : Clear fs0 fun j => ∃ i, j ∈ todo i) (i : ι) :
    ∀ (sched : List (ι × Nat)) {s : State ι}, Reaches fs0 todo s →
      ((run s sched).thr i).left ≤ (s.thr i).left - sched.countP (fun x => decide (x.1 = i))
  | [], s, h => by simp [run]
  | x :: l, s, h => by
    have ih := left_run hr hc i l (.step x.1 x.2 h)
    have e : run s (x :: l) = run (s.step x.1 x.2) l := rfl
    rw [e]
    obtain ⟨h1, h2⟩ := left_step hr hc h x.1 x.2
    by_cases hx : x.1 = i
    · rw [List.countP_cons_of_pos (by simp [hx])]
      rw [hx] at ih h1 ⊢
      omega
    · rw [List.countP_cons_of_neg (by simp [hx])]
      rw [h2 i (fun e => hx e.symm)] at ih
      exact ih

/-- **C86 (it comes to an end).** In any interleaving, a test that gets as many steps as `cost` says – a number that does not depend
on the others – has recorded all. If all do, exactly what was to be recorded is there. -/
theorem C86_finishes (fs0 : FS) (todo : ι → List Job) (hr : Rooted fs0) (hc : Clear fs0 fun j => ∃ i, j ∈ todo i)
    (sched : List (ι × Nat)) (i : ι) (h : cost (todo i) ≤ sched.countP fun x => decide (x.1 = i)) :
    ((run (.initial fs0 todo) sched).thr i).jobs = [] := by
  have h1 := left_run hr hc i sched (.initial : Reaches fs0 todo _)
  have e : ((State.initial fs0 todo).thr i).left = cost (todo i) := by
    simp only [State.initial, Thr.left]
    cases todo i <;> rfl
  rw [e] at h1
  have h2 : ((run (.initial fs0 todo) sched).thr i).left = 0 := by omega
  have hre := reaches_run (.initial : Reaches fs0 todo _) sched
  have hi := reaches_inv hr hc hre
  have hnp := C86_no_failure fs0 todo hr hc _ hre i
  cases hj : ((run (.initial fs0 todo) sched).thr i).jobs with
  | nil => rfl
  | cons j js =>
    exfalso
    simp only [Thr.left, hj] at h2
    generalize hpc : ((run (.initial fs0 todo) sched).thr i).pc = pc at h2 hnp
    cases pc <;> simp [pcCost] at h2 hnp

/-! ### One after the other -/

/-- Recordings one after the other, in the model of runtime/src/lib.rs:189-197 with atomic operations. -/
def recordSeq : List Job → IOm Unit
  | [] => pure ()
  | j :: js => do
    writeData j.1 j.2
    recordSeq js

theorem mkdirs_other : ∀ (ps : List Path) (fs : FS) (q : Path), q ∉ ps → (mkdirs ps fs).1 q = fs q
  | [], _, _, _ => rfl
  | p :: ps, fs, q, h => by
    simp only [List.mem_cons, not_or] at h
    unfold mkdirs
    split
    · exact mkdirs_other ps fs q h.2
    · rfl
    · rw [mkdirs_other ps _ q h.2]
      simp [FS.set, h.1]

theorem writeData_ok {fs0 : FS} {use : Job → Prop} (hc : Clear fs0 use) {w : World} (h : FsOk fs0 use (fun _ => False) w.fs) {j : Job} (hj : use j) :
    ∃ w', writeData j.1 j.2 Plan.clean w = (.ok (), w') ∧ FsOk fs0 use (fun _ => False) w'.fs ∧ MoreDirs w.fs w'.fs ∧ w'.fs.isDir j.1 ∧
      w'.fs j.file = some (.file j.2) ∧ ∀ j', use j' → j' ≠ j → w'.fs j'.file = w.fs j'.file := by
  obtain ⟨h1, h2, h3⟩ := mkdirs_creatable j.1.ancestors w.fs
    (fun p hp b => h.noFile hc hj (ancestors_prefix j.1 p hp) b)
  have hext := mkdirs_ext j.1 _ (ancestors_prefix j.1) w.fs
  rcases hm : mkdirs j.1.ancestors w.fs with ⟨fs', b⟩
  rw [hm] at h1 h2 h3 hext
  simp only at h1 h2 h3 hext
  subst h1
  have hanc : ∀ p, p <+: j.1 → fs'.isDir p := by
    intro p hp
    by_cases he : p = []
    · simp [FS.isDir, he]
    · simp only [FS.isDir, Bool.or_eq_true, beq_iff_eq]
      refine Or.inr (h2 p ?_)
      obtain ⟨r, hr⟩ := hp
      have hl := List.length_pos_iff.mpr he
      simp only [Path.ancestors, List.mem_map, List.mem_range]
      refine ⟨p.length - 1, by rw [← hr, List.length_append]; omega, ?_⟩
      rw [Nat.sub_add_cancel hl, ← hr]
      simp
  have hmono : MoreDirs w.fs fs' := h3
  have hfiles : ∀ j', use j' → fs' j'.file = w.fs j'.file := by
    intro j' hj'
    rcases hext j'.file with e | ⟨-, -, e⟩
    · exact e
    · exact absurd e (hc.apart j' j hj' hj)
  have hok : FsOk fs0 use (fun _ => False) fs' :=
    { rooted := by
        intro q hq
        rcases hext q with e | ⟨-, -, e⟩
        · rw [e] at hq
          exact hmono.isDir (h.rooted q hq)
        · exact hanc _ ((List.dropLast_prefix q).trans e)
      frame := by
        intro q hq
        rcases hext q with e | ⟨e1, e2, e3⟩
        · rw [e]; exact h.frame q hq
        · rcases h.frame q hq with f | f | f
          · by_cases hqe : q = []
            · subst hqe
              left
              rw [← f]
              have := mkdirs_other j.1.ancestors w.fs [] (by
                simp only [Path.ancestors, List.mem_map, List.mem_range, not_exists, not_and]
                intro x hx e
                have := congrArg List.length e
                simp only [List.length_take, List.length_nil] at this
                omega)
              rw [hm] at this
              exact this
            · exact Or.inr (Or.inl ⟨by rw [← f, e1], e2, hqe, j, hj, e3⟩)
          · rw [e1] at f; simp at f
          · exact f.2.elim
      notDir := by
        intro j' hj'
        rw [hfiles j' hj']
        exact h.notDir j' hj' }
  have hcreate : IOm.ignore (createDirAll j.1) Plan.clean w = (.ok (), ⟨fs', w.tick + 1⟩) := by
    simp [IOm.ignore, createDirAll, IOm.prim, Plan.clean, hm]
  have hd := hanc j.1 (List.prefix_refl _)
  have hnd := hok.notDir j hj
  refine ⟨⟨fs'.set j.file (some (.file j.2)), w.tick + 1 + 1⟩, ?_, hok.file hj hd j.2, ?_, ?_, by simp [FS.set], ?_⟩
  · unfold writeData
    rw [IOm.bind_run, hcreate]
    have hnd' : fs' (j.1 ++ [fileName j.2]) ≠ some .dir := hnd
    simp [writeFile, IOm.prim, Plan.clean, hnd', hd, Job.file]
  · intro p hp
    exact moreDirs_file hnd p (hmono p hp)
  · exact (moreDirs_file hnd).isDir hd
  · intro j' hj' hne
    simp only [FS.set]
    rw [if_neg (fun e => hne (clear_file_inj hc hj' hj e))]
    exact hfiles j' hj'

theorem recordSeq_ok {fs0 : FS} {use : Job → Prop} (hc : Clear fs0 use) : ∀ (js past : List Job) (w : World), FsOk fs0 use (fun _ => False) w.fs →
    (∀ j ∈ js, use j) → (∀ j ∈ past, use j ∧ w.fs j.file = some (.file j.2) ∧ w.fs.isDir j.1) →
    ∃ w', recordSeq js Plan.clean w = (.ok (), w') ∧ FsOk fs0 use (fun _ => False) w'.fs ∧
      ∀ j, j ∈ past ∨ j ∈ js → w'.fs j.file = some (.file j.2) ∧ w'.fs.isDir j.1
  | [], past, w, h, _, hp => ⟨w, rfl, h, fun j hj => by
      rcases hj with hj | hj
      · exact (hp j hj).2
      · simp at hj⟩
  | j :: js, past, w, h, hu, hp => by
    have hj := hu j List.mem_cons_self
    obtain ⟨w1, e, h1, h2, h3, h4, h5⟩ := writeData_ok hc h hj
    obtain ⟨w', e', h6, h7⟩ := recordSeq_ok hc js (j :: past) w1 h1 (fun x hx => hu x (List.mem_cons_of_mem _ hx)) (by
      intro x hx
      rcases List.mem_cons.mp hx with rfl | hx
      · exact ⟨hj, h4, h3⟩
      · obtain ⟨g1, g2, g3⟩ := hp x hx
        refine ⟨g1, ?_, h2.isDir g3⟩
        by_cases hxj : x = j
        · rw [hxj]; exact h4
        · rw [h5 x g1 hxj]; exact g2)
    refine ⟨w', ?_, h6, ?_⟩
    · unfold recordSeq
      rw [IOm.bind_run, e]
      exact e'
    · intro x hx
      apply h7
      simp only [List.mem_cons] at hx ⊢
      tauto

/-- **C86 (as if one after the other).** Recording everything one after the other succeeds and gives the same file system as any
interleaving. -/
theorem C86_sequential (fs0 : FS) (todo : ι → List Job) (hr : Rooted fs0) (hc : Clear fs0 fun j => ∃ i, j ∈ todo i) (s : State ι)
    (h : Reaches fs0 todo s) (hdone : ∀ i, (s.thr i).jobs = []) (js : List Job) (hsame : ∀ j, j ∈ js ↔ ∃ i, j ∈ todo i) (tick : Nat) :
    ∃ w, recordSeq js Plan.clean ⟨fs0, tick⟩ = (.ok (), w) ∧ w.fs = s.fs := by
  obtain ⟨w, e, h1, h2⟩ := recordSeq_ok hc js [] ⟨fs0, tick⟩ ⟨hr, fun _ _ => Or.inl rfl, fun j hj => hc.files j hj⟩
    (fun j hj => (hsame j).mp hj) (by simp)
  refine ⟨w, e, ?_⟩
  have h3 := allRecorded_of h1 (fun j hj => h2 j (Or.inr ((hsame j).mpr hj)))
  exact (allRecorded_unique h3 (C86_all_recorded fs0 todo hr hc s h hdone))

/-- **C86 (targets).** For corpora and directories of generic arguments, of any targets, below one target directory, the conditions
come down to what is on the disk and to SHA-1: directories of recordings are never inside of one another or of recorded files. -/
theorem C86_targets (root : Path) (fs0 : FS) (use : Job → Prop)
    (huse : ∀ j, use j → ∃ c k t kind, targetDirectory c false false = .ok root ∧ IdOk c ∧ NoSlash k ∧ NoSlash t ∧ kind ≠ .output ∧
      dirOf c k t kind = .ok j.1)
    (hdirs : ∀ j, use j → ∀ p b, p <+: j.1 → fs0 p ≠ some (.file b))
    (hfiles : ∀ j, use j → fs0 (j.1 ++ [fileName j.2]) ≠ some .dir)
    (hash : ∀ j j', use j → use j' → fileName j.2 = fileName j'.2 → j.2 = j'.2) : Clear fs0 use where
  dirs := hdirs
  files := hfiles
  hash j j' hj hj' _ h := hash j j' hj hj' h
  apart j j' hj hj' h := by
    have hl : ∀ j, use j → j.1.length = root.length + 2 := by
      intro j hj
      obtain ⟨c, k, t, kind, h1, h2, h3, h4, h5, h6⟩ := huse j hj
      rw [dirOf_eq c root k t kind h2 h3 h4 h1, if_neg h5] at h6
      simp only [Out.ok.injEq] at h6
      rw [← h6]
      simp
    have := h.length_le
    rw [List.length_append, hl j hj, hl j' hj'] at this
    simp only [List.length_singleton] at this
    omega

/-! ### On any file system -/

theorem mkdir_any (fs : FS) (d p : Path) : (mkdir fs d).1 p = fs p ∨ fs p = none ∧ (mkdir fs d).1 p = some .dir := by
  unfold mkdir
  split
  · exact .inl rfl
  · next h =>
    push Not at h
    split
    · by_cases hp : p = d
      · subst hp
        exact .inr ⟨by simpa using h.2, by simp [FS.set]⟩
      · exact .inl (by simp [FS.set, hp])
    · split <;> exact .inl rfl

theorem jobStep_any (k : Nat) (fs : FS) (j : Job) (pc : Pc) (p : Path) :
    (jobStep k fs j pc).1 p = fs p ∨ fs p = none ∧ (jobStep k fs j pc).1 p = some .dir ∨
      p = j.file ∧ fs p ≠ some .dir ∧ ∃ b, (jobStep k fs j pc).1 p = some (.file b) := by
  have hm : ∀ d, (mkdir fs d).1 p = fs p ∨ fs p = none ∧ (mkdir fs d).1 p = some .dir := fun d => mkdir_any fs d p
  cases pc with
  | begin => exact .inl rfl
  | mkdir d rest =>
    have := hm d
    simp only [jobStep]
    split
    · next h => rw [h] at this; exact this.imp id .inl
    · exact .inl rfl
    · exact .inl rfl
  | again d rest =>
    have := hm d
    simp only [jobStep]
    split
    · next h => rw [h] at this; exact this.imp id .inl
    · exact .inl rfl
    · exact .inl rfl
  | check d rest => exact .inl rfl
  | opening =>
    simp only [jobStep]
    split
    · exact .inl rfl
    · next h =>
      push Not at h
      by_cases hp : p = j.file
      · subst hp
        exact .inr (.inr ⟨rfl, h.1, [], by simp [FS.set]⟩)
      · exact .inl (by simp [FS.set, hp])
  | writing pos =>
    simp only [jobStep]
    split
    · exact .inl rfl
    · split
      · next c hc =>
        by_cases hp : p = j.file
        · subst hp
          exact .inr (.inr ⟨rfl, by rw [hc]; simp, _, by simp [FS.set]; rfl⟩)
        · exact .inl (by simp [FS.set, hp])
      · exact .inl rfl
  | panicked => exact .inl rfl

/-- What holds of every state, on any file system. -/
structure Harmless (fs0 : FS) (todo : ι → List Job) (s : State ι) : Prop where
  jobs : ∀ i, (s.thr i).past ++ (s.thr i).jobs = todo i
  dirs : ∀ p, fs0 p = some .dir → s.fs p = some .dir
  files : ∀ p, (∀ i, ∀ j ∈ todo i, p ≠ j.file) → s.fs p = fs0 p ∨ fs0 p = none ∧ s.fs p = some .dir
  past : ∀ i, ∀ j ∈ (s.thr i).past, fs0 j.file ≠ some .dir
  writing : ∀ i j js n, (s.thr i).jobs = j :: js → (s.thr i).pc = .writing n → fs0 j.file ≠ some .dir

theorem jobStep_writing {k : Nat} {fs : FS} {j : Job} {pc : Pc} {n : Nat} (h : (jobStep k fs j pc).2.1 = .writing n) :
    fs j.file ≠ some .dir := by
  have hret : ∀ rest : List Path, returned rest ≠ .writing n := by intro rest; cases rest <;> simp [returned]
  cases pc with
  | begin => cases h
  | mkdir d rest =>
    simp only [jobStep] at h
    split at h
    · exact absurd h (hret _)
    · cases h
    · cases h
  | again d rest =>
    simp only [jobStep] at h
    split at h
    · exact absurd h (hret _)
    · cases h
    · cases h
  | check d rest =>
    simp only [jobStep] at h
    split at h
    · exact absurd h (hret _)
    · cases h
  | opening =>
    simp only [jobStep] at h
    split at h
    · cases h
    · next hn => push Not at hn; exact hn.1
  | writing pos =>
    simp only [jobStep] at h
    split at h
    · cases h
    · split at h
      · next hc => rw [hc]; simp
      · cases h
  | panicked => cases h

theorem jobStep_done {k : Nat} {fs : FS} {j : Job} {pc : Pc} (h : (jobStep k fs j pc).2.2 = true) : ∃ n, pc = .writing n := by
  cases pc with
  | writing n => exact ⟨n, rfl⟩
  | begin => cases h
  | mkdir d rest => simp only [jobStep] at h; split at h <;> cases h
  | again d rest => simp only [jobStep] at h; split at h <;> cases h
  | check d rest => cases h
  | opening => simp only [jobStep] at h; split at h <;> cases h
  | panicked => cases h

theorem harmless_step {fs0 : FS} {todo : ι → List Job} {s : State ι} (h : Harmless fs0 todo s) (i : ι) (k : Nat) :
    Harmless fs0 todo (s.step i k) := by
  cases hj : (s.thr i).jobs with
  | nil =>
    have e : s.step i k = s := by
      unfold State.step Thr.step
      simp only [hj]
      congr 1
      funext l
      split
      · next hl => rw [hl]
      · rfl
    rw [e]; exact h
  | cons j js =>
    have hin : j ∈ todo i := by rw [← h.jobs i, hj]; simp
    have hfr := jobStep_any k s.fs j (s.thr i).pc
    have hw := @jobStep_writing k s.fs j (s.thr i).pc
    have hd := @jobStep_done k s.fs j (s.thr i).pc
    have hfs : (s.step i k).fs = (jobStep k s.fs j (s.thr i).pc).1 := by
      unfold State.step Thr.step
      simp only [hj]
      rcases jobStep k s.fs j (s.thr i).pc with ⟨f, pc, b⟩
      cases b <;> rfl
    have hoth : ∀ l, l ≠ i → (s.step i k).thr l = s.thr l := by
      intro l hl
      unfold State.step
      simp [hl]
    have hthr : (s.step i k).thr i = if (jobStep k s.fs j (s.thr i).pc).2.2 = true then
        ⟨(s.thr i).past ++ [j], js, (jobStep k s.fs j (s.thr i).pc).2.1⟩
        else { s.thr i with pc := (jobStep k s.fs j (s.thr i).pc).2.1 } := by
      unfold State.step Thr.step
      simp only [hj, if_true]
      rcases jobStep k s.fs j (s.thr i).pc with ⟨f, pc, b⟩
      cases b <;> rfl
    refine ⟨fun l => ?_, fun p hp => ?_, fun p hp => ?_, fun l j' hj' => ?_, fun l j' js' n h1 h2 => ?_⟩
    · by_cases hl : l = i
      · subst hl
        rw [hthr, ← h.jobs l, hj]
        split
        · simp
        · simp [hj]
      · rw [hoth l hl]; exact h.jobs l
    · rw [hfs]
      rcases hfr p with h1 | ⟨h1, h2⟩ | ⟨-, h1, -⟩
      · rw [h1]; exact h.dirs p hp
      · exact h2
      · exact absurd (h.dirs p hp) h1
    · rw [hfs]
      rcases hfr p with h1 | ⟨h1, h2⟩ | ⟨h1, -, -⟩
      · rw [h1]; exact h.files p hp
      · rcases h.files p hp with h3 | ⟨-, h3⟩
        · exact .inr ⟨h3 ▸ h1, h2⟩
        · rw [h1] at h3; cases h3
      · exact absurd h1 (hp i j hin)
    · by_cases hl : l = i
      · subst hl
        rw [hthr] at hj'
        split at hj'
        · next hb =>
          rcases List.mem_append.mp hj' with h1 | h1
          · exact h.past l j' h1
          · obtain ⟨n, hn⟩ := hd hb
            rw [List.mem_singleton.mp h1]
            exact h.writing l j js n hj hn
        · exact h.past l j' hj'
      · rw [hoth l hl] at hj'; exact h.past l j' hj'
    · by_cases hl : l = i
      · subst hl
        rw [hthr] at h1 h2
        split at h1
        · next hb =>
          rw [if_pos hb] at h2
          obtain ⟨m, hm⟩ := hd hb
          rw [hm] at h2 hb
          simp only [jobStep] at h2 hb
          split at h2
          · cases h2
          · next hn =>
            rw [if_neg hn] at hb
            split at hb <;> cases hb
        · next hb =>
          rw [if_neg hb] at h2
          rw [hj] at h1
          cases h1
          exact fun hc => hw h2 (h.dirs _ hc)
      · rw [hoth l hl] at h1 h2; exact h.writing l j' js' n h1 h2

theorem reaches_harmless {fs0 : FS} {todo : ι → List Job} {s : State ι} (h : Reaches fs0 todo s) : Harmless fs0 todo s := by
  induction h with
  | initial =>
    exact ⟨fun i => rfl, fun p h => h, fun p _ => .inl rfl, fun i j hj => (by cases hj), fun i j js n _ h => (by cases h)⟩
  | step i k _ ih => exact harmless_step ih i k

/-- **C86.** Whatever is in the way, nothing is damaged: on any file system, in any state, what was a directory is one, and every
path that is not the name of something that is to be recorded is as it was, or has become a directory. -/
theorem C86_harmless (fs0 : FS) (todo : ι → List Job) (s : State ι) (h : Reaches fs0 todo s) (p : Path) :
    (fs0 p = some .dir → s.fs p = some .dir) ∧
      ((∀ i dir data, (dir, data) ∈ todo i → p ≠ dir ++ [fileName data]) → s.fs p = fs0 p ∨ fs0 p = none ∧ s.fs p = some .dir) :=
  ⟨(reaches_harmless h).dirs p, fun hp => (reaches_harmless h).files p fun i j hj => hp i j.1 j.2 hj⟩

/-- **C86.** What is to be recorded where there is a directory is never taken for recorded, nor is anything after it. -/
theorem C86_in_the_way (fs0 : FS) (todo : ι → List Job) (s : State ι) (h : Reaches fs0 todo s) (i : ι) (pre post : List Job)
    (dir : Path) (data : Bytes) (hi : todo i = pre ++ (dir, data) :: post) (hd : fs0 (dir ++ [fileName data]) = some .dir) :
    (s.thr i).past.length ≤ pre.length := by
  have hh := reaches_harmless h
  by_contra hc
  have h1 : (s.thr i).past <+: todo i := ⟨_, hh.jobs i⟩
  have h2 : (dir, data) ∈ (s.thr i).past := by
    rw [List.prefix_iff_eq_take.mp h1, hi]
    rw [List.take_append]
    refine List.mem_append_right _ ?_
    obtain ⟨m, hm⟩ : ∃ m, (s.thr i).past.length - pre.length = m + 1 := ⟨(s.thr i).past.length - pre.length - 1, by omega⟩
    rw [hm]; simp
  exact hh.past i _ h2 hd

/-! ### At work -/

namespace Demo

def dir : Path := [c%"w", c%"target", c%"corpus", c%"k::t"]

/-- Two tests; both record `[7]`, one `[8]` before, in a directory of which only `/w` exists. -/
def todo : Bool → List Job
  | true => [(dir, [8]), (dir, [7])]
  | false => [(dir, [7])]

def disk : FS := fun p => if p = [c%"w"] then some .dir else none

theorem rooted : Rooted disk := by
  intro p hp
  simp only [disk] at hp
  split at hp
  · next h => subst h; decide
  · simp at hp

theorem used (j : Job) (h : ∃ i, j ∈ todo i) : j = (dir, [8]) ∨ j = (dir, [7]) := by
  obtain ⟨i, h⟩ := h
  cases i <;> simp [todo] at h <;> tauto

theorem clear : Clear disk fun j => ∃ i, j ∈ todo i where
  dirs j hj p b hp := by
    simp only [disk]
    split <;> simp
  files j hj := by
    rcases used j hj with rfl | rfl <;> simp [disk, dir]
  apart j j' hj hj' h := by
    have h1 := h.length_le
    rcases used j hj with rfl | rfl <;> rcases used j' hj' with rfl | rfl <;> simp at h1 <;> omega
  hash j j' hj hj' _ h := by
    rcases used j hj with rfl | rfl <;> rcases used j' hj' with rfl | rfl <;> first | rfl | (exfalso; revert h; decide +kernel)

/-- Whatever the interleaving: with 36 steps for one test and 18 for the other, both inputs are there. -/
example (sched : List (Bool × Nat)) (h1 : 36 ≤ sched.countP fun x => decide (x.1 = true))
    (h2 : 18 ≤ sched.countP fun x => decide (x.1 = false)) :
    (run (.initial disk todo) sched).fs (dir ++ [fileName [7]]) = some (.file [7]) ∧
    (run (.initial disk todo) sched).fs (dir ++ [fileName [8]]) = some (.file [8]) ∧
    (run (.initial disk todo) sched).fs [c%"w", c%"target"] = some .dir := by
  have hdone : ∀ i, ((run (.initial disk todo) sched).thr i).jobs = [] := by
    intro i
    apply C86_finishes disk todo rooted clear sched i
    cases i
    · exact Nat.le_trans (by decide) h2
    · exact Nat.le_trans (by decide) h1
  have h := C86_all_recorded disk todo rooted clear _ (reaches_run .initial sched) hdone
  exact ⟨h.files (dir, [7]) ⟨false, by simp [todo]⟩, h.files (dir, [8]) ⟨true, by simp [todo]⟩,
    h.dirs (dir, [7]) ⟨false, by simp [todo]⟩ _ (by simp) ⟨[c%"corpus", c%"k::t"], rfl⟩⟩

/-- In step with each other they meet at every directory. -/
example : ((run (.initial disk todo) ((List.replicate 12 [(true, 0), (false, 0)]).flatten)).thr false).jobs = [] ∧
    ((run (.initial disk todo) ((List.replicate 12 [(true, 0), (false, 0)]).flatten)).thr true).past = [(dir, [8])] := by
  decide +kernel

/-- A directory with the name of what both record: one records nothing, the other only what comes before. -/
example (s : State Bool) (h : Reaches (fun p => if p = dir ++ [fileName [7]] then some .dir else disk p) todo s) :
    (s.thr false).past.length ≤ 0 ∧ (s.thr true).past.length ≤ 1 ∧ s.fs (dir ++ [fileName [7]]) = some .dir :=
  ⟨C86_in_the_way _ todo s h false [] [] dir [7] rfl (by simp), C86_in_the_way _ todo s h true [(dir, [8])] [] dir [7] rfl (by simp),
    (C86_harmless _ todo s h _).1 (by simp)⟩

end Demo

end TF.Par
