import Verif.Model.ConcWrite

/-!
# C03: concurrent recordings
-/

namespace TF.Conc

variable {ι : Type} [DecidableEq ι]

theorem overwrite_length (c : Bytes) (p : Nat) (ch : Bytes) :
    (overwrite c p ch).length = max (p + ch.length) c.length := by
  simp only [overwrite, List.length_append, List.length_take, List.length_replicate, List.length_drop]
  omega

theorem overwrite_get (c : Bytes) (p : Nat) (ch : Bytes) (i : Nat) :
    (i < p → i < c.length → (overwrite c p ch)[i]? = c[i]?) ∧
    (p ≤ i → i < p + ch.length → (overwrite c p ch)[i]? = ch[i - p]?) ∧
    (p + ch.length ≤ i → (overwrite c p ch)[i]? = c[i]?) := by
  have hlen : ((c ++ List.replicate (p - c.length) (0 : UInt8)).take p).length = p := by
    simp only [List.length_take, List.length_append, List.length_replicate]; omega
  refine ⟨?_, ?_, ?_⟩
  · intro h1 h2
    unfold overwrite
    rw [List.append_assoc, List.getElem?_append_left (by omega), List.getElem?_take_of_lt h1,
      List.getElem?_append_left h2]
  · intro h1 h2
    unfold overwrite
    rw [List.append_assoc, List.getElem?_append_right (by omega), hlen,
      List.getElem?_append_left (by omega)]
  · intro h1
    unfold overwrite
    rw [List.getElem?_append_right (by simp only [List.length_append]; omega), List.getElem?_drop]
    simp only [List.length_append, hlen]
    congr 1
    omega

/-- Invariant: for each writer that has opened its file, the one that truncated it last (`l`) has
written correctly everything up to its position. -/
def Inv (data : ι → Bytes) (s : State ι) : Prop :=
  (∀ i p, s.pos i = some p → p ≤ (data i).length) ∧
  ∀ i p, s.pos i = some p → ∃ l q c, s.pos l = some q ∧ fileName (data l) = fileName (data i) ∧
    s.files (fileName (data i)) = some c ∧ c.length ≤ (data i).length ∧
    ∀ x, x < q → c[x]? = (data i)[x]?

theorem inv_step (data : ι → Bytes)
    (hinj : ∀ i j, fileName (data i) = fileName (data j) → data i = data j)
    {s t : State ι} (h : Inv data s) (hs : Step data s t) : Inv data t := by
  cases hs with
  | openTrunc i hi =>
    refine ⟨?_, ?_⟩
    · intro j p hp
      simp only at hp
      split at hp
      · simp only [Option.some.injEq] at hp; omega
      · exact h.1 j p hp
    · intro j p hp
      simp only at hp ⊢
      by_cases hn : fileName (data j) = fileName (data i)
      · exact ⟨i, 0, [], by simp, hn.symm, by simp [hn], by simp, by simp⟩
      · have hji : j ≠ i := fun e => hn (by rw [e])
        rw [if_neg hji] at hp
        obtain ⟨l, q, c, h1, h2, h3, h4, h5⟩ := h.2 j p hp
        have hli : l ≠ i := fun e => hn (by rw [← h2, e])
        exact ⟨l, q, c, by simp [hli, h1], h2, by simp [hn, h3], h4, h5⟩
  | write i p k hi hk =>
    refine ⟨?_, ?_⟩
    · intro j r hr
      simp only at hr
      split at hr
      · next e => subst e; simp only [Option.some.injEq] at hr; omega
      · exact h.1 j r hr
    · intro j r hr
      simp only at hr ⊢
      by_cases hn : fileName (data j) = fileName (data i)
      · have hd : data j = data i := hinj j i hn
        obtain ⟨l, q, c, h1, h2, h3, h4, h5⟩ := h.2 i p hi
        have hq : q ≤ (data i).length := by
          have := h.1 l q h1
          rwa [hinj l i h2] at this
        have hdl : data l = data i := hinj l i h2
        -- the positions below `q` are inside `c`
        have hqc : q ≤ c.length := by
          rcases Nat.lt_or_ge c.length q with hlt | hge
          · have := h5 c.length hlt
            rw [List.getElem?_eq_none (Nat.le_refl _)] at this
            have h6 := List.getElem?_eq_none_iff.mp this.symm
            omega
          · exact hge
        have hchl : (((data i).drop p).take k).length = k := by
          simp only [List.length_take, List.length_drop]; omega
        -- the new contents are right below `q`, and on the chunk
        have hlow : ∀ x, x < q → (overwrite c p (((data i).drop p).take k))[x]? = (data i)[x]? := by
          intro x hx
          obtain ⟨g1, g2, g3⟩ := overwrite_get c p (((data i).drop p).take k) x
          rw [hchl] at g2 g3
          rcases Nat.lt_or_ge x p with hxp | hxp
          · rw [g1 hxp (by omega)]; exact h5 x hx
          · rcases Nat.lt_or_ge x (p + k) with hxk | hxk
            · rw [g2 hxp hxk, List.getElem?_take_of_lt (by omega), List.getElem?_drop]
              congr 1; omega
            · rw [g3 hxk]; exact h5 x hx
        refine ⟨l, if l = i then p + k else q, overwrite c p (((data i).drop p).take k), ?_, ?_, ?_, ?_, ?_⟩
        · split
          · simp
          · simp [h1]
        · rw [hn]; exact h2
        · simp [hn, h3]
        · rw [overwrite_length, hchl, hd]; omega
        · intro x hx
          rw [hd]
          split at hx
          · next hli =>
            subst hli
            rw [h1] at hi
            simp only [Option.some.injEq] at hi
            subst hi
            rcases Nat.lt_or_ge x q with hxq | hxq
            · exact hlow x hxq
            · obtain ⟨-, g2, -⟩ := overwrite_get c q (((data l).drop q).take k) x
              rw [hchl] at g2
              rw [g2 hxq hx, List.getElem?_take_of_lt (by omega), List.getElem?_drop]
              congr 1; omega
          · exact hlow x hx
      · have hji : j ≠ i := fun e => hn (by rw [e])
        rw [if_neg hji] at hr
        obtain ⟨l, q, c, h1, h2, h3, h4, h5⟩ := h.2 j r hr
        have hli : l ≠ i := fun e => hn (by rw [← h2, e])
        exact ⟨l, q, c, by simp [hli, h1], h2, by simp [hn, h3], h4, h5⟩

theorem inv_steps (data : ι → Bytes)
    (hinj : ∀ i j, fileName (data i) = fileName (data j) → data i = data j)
    {s t : State ι} (hs : Steps data s t) (h : Inv data s) : Inv data t := by
  induction hs with
  | refl => exact h
  | tail _ h2 ih => exact inv_step data hinj ih h2

theorem frame_steps (data : ι → Bytes) {s t : State ι} (hs : Steps data s t) (n : Str)
    (hn : ∀ i, n ≠ fileName (data i)) : t.files n = s.files n := by
  induction hs with
  | refl => rfl
  | tail _ h2 ih =>
    rw [← ih]
    cases h2 <;> simp [hn]

/-- **C03.** Any number of writers (indexed by any type `ι`) record their inputs into one directory,
starting from any contents. Whatever the interleaving of their steps and the sizes of their partial
writes: when every writer has finished, each input's file holds exactly that input – also if several
writers recorded the same input – and files of other names are untouched. (Inputs that differ have
different SHA-1.) -/
theorem C03_concurrent_recordings (data : ι → Bytes)
    (hinj : ∀ i j, fileName (data i) = fileName (data j) → data i = data j)
    (files : Str → Option Bytes) (t : State ι)
    (hs : Steps data ⟨files, fun _ => none⟩ t)
    (hdone : ∀ i, t.pos i = some (data i).length) :
    (∀ i, t.files (fileName (data i)) = some (data i)) ∧
    (∀ n, (∀ i, n ≠ fileName (data i)) → t.files n = files n) := by
  refine ⟨?_, fun n hn => frame_steps data hs n hn⟩
  intro i
  have hinv : Inv data t := inv_steps data hinj hs ⟨by simp, by simp⟩
  obtain ⟨l, q, c, h1, h2, h3, h4, h5⟩ := hinv.2 i _ (hdone i)
  rw [h3]
  have hq : q = (data i).length := by
    rw [hdone l, hinj l i h2] at h1
    simpa using h1.symm
  congr 1
  apply List.ext_getElem?
  intro x
  rcases Nat.lt_or_ge x q with hx | hx
  · exact h5 x hx
  · rw [List.getElem?_eq_none (by omega), List.getElem?_eq_none (by omega)]

/-- Non-vacuity of C03: two writers of the same two bytes; the second truncates the file after the first
has written one byte, then the first writes past the end of the file (leaving a zero), then the second
fills in. The end state satisfies all hypotheses. -/
def exData : Bool → Bytes := fun _ => [7, 8]

example : ∃ t, Steps exData ⟨fun _ => none, fun _ => none⟩ t ∧ (∀ i, t.pos i = some (exData i).length) ∧
    ∀ i j, fileName (exData i) = fileName (exData j) → exData i = exData j := by
  refine ⟨_, .tail (.tail (.tail (.tail (.tail (.refl _) (.openTrunc _ true rfl))
    (.write _ true 0 1 rfl (by decide))) (.openTrunc _ false rfl))
    (.write _ true 1 1 rfl (by decide))) (.write _ false 0 2 rfl (by decide)), ?_, ?_⟩
  · intro i; cases i <;> rfl
  · intro i j _; rfl

end TF.Conc
