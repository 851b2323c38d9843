import Verif.Props.Recording
import Verif.Props.Storage

/-!
# The file system stays a tree, whatever fails: C04 and C29
-/

namespace TF

open Spec

/-- A property of file systems that a program keeps, with the plan `pl`, however it ends. -/
def Keeps (P : FS → Prop) (pl : Plan) {α} (x : IOm α) : Prop := ∀ w : World, P w.fs → P (x pl w).2.fs

namespace Keeps

variable {P : FS → Prop} {pl : Plan} {α β : Type}

theorem lift (x : Out α) : Keeps P pl (IOm.lift x) := fun _ h => h

theorem pure (a : α) : Keeps P pl (Pure.pure a : IOm α) := fun _ h => h

theorem bind {x : IOm α} {f : α → IOm β} (hx : Keeps P pl x) (hf : ∀ a, Keeps P pl (f a)) : Keeps P pl (x >>= f) := by
  intro w h
  have h1 := hx w h
  show P (IOm.bind x f pl w).2.fs
  unfold IOm.bind
  cases hq : x pl w with
  | mk o w' =>
    rw [hq] at h1
    cases o with
    | ok a => exact hf a w' h1
    | _ => exact h1

theorem ignore {x : IOm Unit} (hx : Keeps P pl x) : Keeps P pl (IOm.ignore x) := by
  intro w h
  have h1 := hx w h
  unfold IOm.ignore
  cases hq : x pl w with
  | mk o w' =>
    rw [hq] at h1
    cases o <;> exact h1

theorem prim {full : FS → Out (α × FS)} {part : Part → FS → FS} (h1 : ∀ fs a fs', P fs → full fs = .ok (a, fs') → P fs')
    (h2 : ∀ q fs, P fs → P (part q fs)) : Keeps P pl (IOm.prim full part) := by
  intro w h
  unfold IOm.prim
  split
  · split
    · next hf => exact h1 _ _ _ h hf
    all_goals exact h
  · exact h2 _ _ h
  · exact h2 _ _ h

end Keeps

/-! ## One operation -/

theorem tree_set_other {fs : FS} {p q : Path} {n : Option Node} (h : q ≠ p) : fs.set p n q = fs q := by simp [FS.set, h]

theorem tree_set_same {fs : FS} {p : Path} {n : Option Node} : fs.set p n p = n := by simp [FS.set]

/-- Something is put where nothing or a file is, in a directory. -/
theorem wellFormed_set {fs : FS} (h : WellFormed fs) {p : Path} (hp : p ≠ []) (hn : fs p ≠ some .dir)
    (hd : fs.isDir p.dropLast = true) (n : Node) : WellFormed (fs.set p (some n)) := by
  intro q x hq
  by_cases hqp : q = p
  · subst hqp
    have : q ++ [x] ≠ q := by simp
    rw [tree_set_other this] at hq
    rcases h q x hq with h1 | h1
    · exact absurd h1 hp
    · exact absurd h1 hn
  · rw [tree_set_other hqp]
    by_cases he : q ++ [x] = p
    · have : p.dropLast = q := by rw [← he]; simp
      rw [this] at hd
      simp only [FS.isDir, Bool.or_eq_true, List.isEmpty_iff, beq_iff_eq] at hd
      exact hd
    · rw [tree_set_other he] at hq
      exact h q x hq

theorem mkdirs_tree (p : Path) : ∀ (l : List Nat) (j : Nat), l = List.range' j l.length → j + l.length ≤ p.length →
    ∀ fs : FS, WellFormed fs → (j = 0 ∨ fs (p.take j) = some .dir) →
      WellFormed (mkdirs (l.map fun i => p.take (i + 1)) fs).1
  | [], _, _, _, fs, h, _ => h
  | i :: l, j, hl, hj, fs, h, h0 => by
    simp only [List.length_cons, List.range'_succ, List.cons.injEq] at hl hj
    obtain ⟨rfl, hl⟩ := hl
    have hlen : (p.take (i + 1)).length = i + 1 := by rw [List.length_take]; omega
    have hdl : (p.take (i + 1)).dropLast = p.take i := by
      rw [List.dropLast_eq_take, hlen, List.take_take, Nat.add_sub_cancel, Nat.min_eq_left (by omega)]
    simp only [List.map_cons, mkdirs]
    split
    · next hd => exact mkdirs_tree p l (i + 1) hl (by omega) fs h (.inr hd)
    · exact h
    · next hn =>
      refine mkdirs_tree p l (i + 1) hl (by omega) _ ?_ (.inr tree_set_same)
      refine wellFormed_set h (by intro h; rw [h] at hlen; simp at hlen) (by rw [hn]; simp) ?_ .dir
      rw [hdl]
      simp only [FS.isDir, Bool.or_eq_true, List.isEmpty_iff, beq_iff_eq]
      rcases h0 with rfl | h0
      · exact .inl (by simp)
      · exact .inr h0

theorem ancestors_take (p : Path) (k : Nat) :
    p.ancestors.take k = (List.range' 0 (min k p.length)).map fun i => p.take (i + 1) := by
  unfold Path.ancestors
  rw [← List.map_take, List.take_range, List.range_eq_range']

theorem createDirAll_tree (pl : Plan) (p : Path) : Keeps WellFormed pl (createDirAll p) := by
  have key : ∀ k fs, WellFormed fs → WellFormed (mkdirs (p.ancestors.take k) fs).1 := by
    intro k fs h
    rw [ancestors_take]
    exact mkdirs_tree p _ 0 (by simp) (by simp; omega) fs h (.inl rfl)
  refine Keeps.prim (fun fs a fs' h hf => ?_) fun q fs h => key _ fs h
  have := key p.ancestors.length fs h
  rw [List.take_length] at this
  split at hf
  · next he =>
    rw [he] at this
    cases hf
    exact this
  · cases hf

theorem writeFile_tree (pl : Plan) (p : Path) (d : Bytes) : Keeps WellFormed pl (writeFile p d) := by
  have key : ∀ (fs : FS) (n : Node), ¬ (p = [] || fs p == some .dir || !fs.isDir p.dropLast) = true → WellFormed fs →
      WellFormed (fs.set p (some n)) := by
    intro fs n hc h
    simp only [Bool.or_eq_true, Bool.not_eq_true', decide_eq_true_eq, beq_iff_eq, not_or, Bool.not_eq_false] at hc
    exact wellFormed_set h hc.1.1 hc.1.2 hc.2 n
  refine Keeps.prim (fun fs a fs' h hf => ?_) fun q fs h => ?_
  · split at hf
    · cases hf
    · next hc =>
      cases hf
      exact key fs _ hc h
  · split
    · exact h
    · next hc =>
      split
      · exact h
      · exact key fs _ hc h

theorem readFile_keeps {P : FS → Prop} (pl : Plan) (p : Path) : Keeps P pl (readFile p) := by
  refine Keeps.prim (fun fs a fs' h hf => ?_) fun q fs h => h
  split at hf
  · cases hf; exact h
  · cases hf

theorem readDir_keeps {P : FS → Prop} (pl : Plan) (ls : Lister) (p : Path) : Keeps P pl (readDir ls p) := by
  refine Keeps.prim (fun fs a fs' h hf => ?_) fun q fs h => h
  split at hf
  · cases hf; exact h
  · cases hf

theorem removeTree_tree {fs : FS} (h : WellFormed fs) (p : Path) : WellFormed (fs.removeTree p) := by
  intro q x hq
  unfold FS.removeTree at hq ⊢
  split at hq
  · exact absurd rfl hq
  · next hp =>
    have : ¬ p.isPrefixOf q = true := by
      intro hq'
      rw [List.isPrefixOf_iff_prefix] at hq' hp
      exact hp (hq'.trans (List.prefix_append _ _))
    rw [if_neg this]
    exact h q x hq

theorem removeDirAll_tree (pl : Plan) (p : Path) : Keeps WellFormed pl (removeDirAll p) := by
  refine Keeps.prim (fun fs a fs' h hf => ?_) fun q fs h => ?_
  · split at hf
    · cases hf; exact removeTree_tree h p
    · cases hf
  · intro r x hx
    simp only at hx ⊢
    split at hx
    · exact absurd rfl hx
    · next hn =>
      rw [if_neg]
      · exact h r x hx
      · refine fun hr => hn ?_
        simp only [List.any_eq_true, List.mem_range] at hr ⊢
        obtain ⟨i, hi, hg⟩ := hr
        refine ⟨i, by simp; omega, ?_⟩
        rw [List.take_append_of_le_length (by omega)]
        exact hg

theorem pathExists_keeps {P : FS → Prop} (pl : Plan) (p : Path) : Keeps P pl (pathExists p) := by
  intro w h
  unfold pathExists
  split <;> exact h

theorem writeData_tree (pl : Plan) (dir : Path) (d : Bytes) : Keeps WellFormed pl (writeData dir d) :=
  (createDirAll_tree pl dir).ignore.bind fun _ => writeFile_tree pl _ d

/-! ## Programs -/

/-- **C04 (tree).** However recordings are interrupted, what is left is a tree: no file or directory is anywhere but in a
directory, so the next run of the tests finds nothing unreachable in its way. -/
theorem C04_tree (dir : Path) (ds : List Bytes) (pl : Plan) (w : World) (h : WellFormed w.fs) :
    WellFormed (recordAll dir ds pl w).2.fs := by
  suffices Keeps WellFormed pl (recordAll dir ds) from this w h
  induction ds with
  | nil => exact Keeps.pure _
  | cons d ds ih => exact (writeData_tree pl dir d).bind fun _ => ih

theorem consolidateEntries_tree (pl : Plan) (corpus dir : Path) : ∀ ns, Keeps WellFormed pl (consolidateEntries corpus dir ns)
  | [] => Keeps.pure _
  | n :: ns => by
    unfold consolidateEntries
    split
    · exact consolidateEntries_tree pl corpus dir ns
    · exact (readFile_keeps pl _).bind fun d => (writeData_tree pl corpus d).bind fun _ =>
        consolidateEntries_tree pl corpus dir ns

theorem consolidateDir_tree (pl : Plan) (ls : Lister) (corpus dir : Path) : Keeps WellFormed pl (consolidateDir ls corpus dir) :=
  (readDir_keeps pl ls dir).bind fun _ => consolidateEntries_tree pl corpus dir _

theorem consolidateTargets_tree (pl : Plan) (c : Ctx) (ls : Lister) (k : Str) :
    ∀ ts, Keeps WellFormed pl (consolidateTargets c ls k ts)
  | [] => Keeps.pure _
  | _ :: ts => Keeps.bind (Keeps.bind (Keeps.lift _) fun _ => Keeps.bind (Keeps.lift _) fun _ => Keeps.bind (Keeps.lift _)
      fun _ => Keeps.bind (Keeps.lift _) fun _ => (consolidateDir_tree pl ls _ _).bind fun _ =>
        (consolidateDir_tree pl ls _ _).bind fun _ => consolidateDir_tree pl ls _ _)
      fun _ => consolidateTargets_tree pl c ls k ts

theorem consolidateLoop_tree (pl : Plan) (o : Opts) (c : Ctx) (ls : Lister) : ∀ ets, Keeps WellFormed pl (consolidateLoop o c ls ets)
  | [] => Keeps.pure _
  | (_, _) :: r => Keeps.bind (Keeps.lift _) fun _ => (consolidateTargets_tree pl c ls _ _).bind fun _ =>
      consolidateLoop_tree pl o c ls r

theorem consolidate_tree (pl : Plan) (o : Opts) (c : Ctx) (ls : Lister) (ets) : Keeps WellFormed pl (consolidate o c ls ets) :=
  Keeps.bind (Keeps.lift _) fun _ => consolidateLoop_tree pl o c ls ets

theorem resetTargets_tree (pl : Plan) (c : Ctx) (k : Str) : ∀ ts, Keeps WellFormed pl (resetTargets c k ts)
  | [] => Keeps.pure _
  | _ :: ts => by
    refine Keeps.bind (Keeps.bind (Keeps.lift _) fun out => (pathExists_keeps pl out).bind fun ex => ?_) fun _ =>
      resetTargets_tree pl c k ts
    split
    · exact Keeps.pure _
    · exact removeDirAll_tree pl out

theorem resetLoop_tree (pl : Plan) (o : Opts) (c : Ctx) : ∀ ets, Keeps WellFormed pl (resetLoop o c ets)
  | [] => Keeps.pure _
  | (_, _) :: r => Keeps.bind (Keeps.lift _) fun _ => (resetTargets_tree pl c _ _).bind fun _ => resetLoop_tree pl o c r

theorem reset_tree (pl : Plan) (o : Opts) (c : Ctx) (ets) : Keeps WellFormed pl (reset o c ets) :=
  Keeps.bind (Keeps.lift _) fun _ => resetLoop_tree pl o c ets

/-- **C29 (tree).** The same holds for consolidating and resetting, whatever fails, and wherever the process ends. -/
theorem C29_tree (o : Opts) (c : Ctx) (ls : Lister) (ets : List (Exe × List Str)) (pl : Plan) (w : World) (h : WellFormed w.fs) :
    WellFormed (storage o c ls ets pl w).2.fs := by
  suffices Keeps WellFormed pl (storage o c ls ets) from this w h
  unfold storage
  cases o.consolidateAll || o.resetAll <;> cases o.consolidateAll <;> cases o.consolidate <;>
    first
    | exact reset_tree pl o c ets
    | exact (consolidate_tree pl o c ls ets).bind fun _ => reset_tree pl o c ets

/-- An empty disk, and the state after the crash in `crashPlan`. -/
example : WellFormed (fun _ => none) ∧
    WellFormed (recordAll [['c']] [[1, 2], [3, 4]] crashPlan ⟨fun _ => none, 0⟩).2.fs :=
  ⟨fun _ _ h => absurd rfl h, C04_tree _ _ _ _ fun _ _ h => absurd rfl h⟩

end TF
