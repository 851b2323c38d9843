import Verif.Rust.Str
import Verif.Rust.Fs
import Mathlib.Data.List.Infix

/-! Lemmas about the text functions. -/

namespace TF

theorem find_eq_some_iff (n h : Str) (k : Nat) :
    find n h = some k ↔ k ≤ h.length ∧ n <+: h.drop k ∧ ∀ j < k, ¬ n <+: h.drop j := by
  induction h generalizing k with
  | nil =>
    unfold find
    by_cases hn : n = []
    · subst hn
      simp only [List.isPrefixOf_nil_left, if_true, Option.some.injEq, List.length_nil,
        Nat.le_zero, List.drop_nil, List.nil_prefix, not_true, true_and]
      constructor
      · rintro rfl; simp
      · rintro ⟨rfl, -⟩; rfl
    · have : n.isPrefixOf ([] : Str) = false := by
        cases n with
        | nil => exact absurd rfl hn
        | cons a as => rfl
      simp [this, hn]
  | cons c cs ih =>
    unfold find
    by_cases hp : n.isPrefixOf (c :: cs) = true
    · have hp' := List.isPrefixOf_iff_prefix.mp hp
      simp only [hp, if_true, Option.some.injEq]
      constructor
      · rintro rfl
        exact ⟨Nat.zero_le _, by simpa using hp', fun j hj => absurd hj (Nat.not_lt_zero _)⟩
      · rintro ⟨-, -, h3⟩
        rcases Nat.eq_zero_or_pos k with rfl | hk
        · rfl
        · exact absurd (by simpa using hp') (h3 0 hk)
    · have hp' : ¬ n <+: c :: cs := fun h => hp (List.isPrefixOf_iff_prefix.mpr h)
      rw [if_neg hp]
      constructor
      · intro h
        rw [Option.map_eq_some_iff] at h
        obtain ⟨k', hk', rfl⟩ := h
        obtain ⟨h1, h2, h3⟩ := (ih k').mp hk'
        refine ⟨by simp; omega, by simpa using h2, ?_⟩
        intro j hj
        rcases j with _ | j
        · simpa using hp'
        · simpa using h3 j (by omega)
      · rintro ⟨h1, h2, h3⟩
        rcases k with _ | k
        · exact absurd (by simpa using h2) hp'
        · rw [Option.map_eq_some_iff]
          refine ⟨k, (ih k).mpr ⟨by simpa using h1, by simpa using h2, ?_⟩, rfl⟩
          intro j hj
          simpa using h3 (j + 1) (by omega)

theorem find_eq_none_iff (n h : Str) : find n h = none ↔ ¬ n <:+: h := by
  induction h with
  | nil =>
    unfold find
    cases n with
    | nil => simp
    | cons a as => simp [List.isPrefixOf]
  | cons c cs ih =>
    unfold find
    rw [List.infix_cons_iff]
    by_cases hp : n.isPrefixOf (c :: cs) = true
    · simp only [hp, if_true]
      simp [List.isPrefixOf_iff_prefix.mp hp]
    · have hp' : ¬ n <+: c :: cs := fun h => hp (List.isPrefixOf_iff_prefix.mpr h)
      rw [if_neg hp]
      simp [ih, hp']

theorem contains_iff (h n : Str) : contains h n = true ↔ n <:+: h := by
  unfold contains
  by_cases hn : n <:+: h
  · cases hf : find n h with
    | none => exact absurd hn ((find_eq_none_iff n h).mp hf)
    | some k => simp [hn]
  · simp [(find_eq_none_iff n h).mpr hn, hn]

theorem stripSuffix_eq_some (suf s t : Str) : stripSuffix suf s = some t ↔ s = t ++ suf := by
  unfold stripSuffix
  constructor
  · intro h
    split at h
    · next hs =>
      rw [List.isSuffixOf_iff_suffix] at hs
      obtain ⟨x, rfl⟩ := hs
      simp at h
      simp [h]
    · cases h
  · rintro rfl
    have : suf.isSuffixOf (t ++ suf) = true := List.isSuffixOf_iff_suffix.mpr ⟨t, rfl⟩
    simp [this]

theorem stripSuffix_eq_none (suf s : Str) : stripSuffix suf s = none ↔ ¬ suf <:+ s := by
  unfold stripSuffix
  by_cases h : suf.isSuffixOf s = true
  · simp [h, List.isSuffixOf_iff_suffix.mp h]
  · have : ¬ suf <:+ s := fun h' => h (List.isSuffixOf_iff_suffix.mpr h')
    simp [h, this]

theorem stripPrefix_eq_some (pre s t : Str) : stripPrefix pre s = some t ↔ s = pre ++ t := by
  unfold stripPrefix
  constructor
  · intro h
    split at h
    · next hs =>
      rw [List.isPrefixOf_iff_prefix] at hs
      obtain ⟨x, rfl⟩ := hs
      simp at h
      simp [h]
    · cases h
  · rintro rfl
    have : pre.isPrefixOf (pre ++ t) = true := List.isPrefixOf_iff_prefix.mpr ⟨t, rfl⟩
    simp [this]

theorem splitChar_ne_nil (sep : Char) (s : Str) : splitChar sep s ≠ [] := by
  cases s with
  | nil => simp [splitChar]
  | cons c cs =>
    unfold splitChar
    split
    · simp
    · split <;> simp

theorem splitChar_of_not_mem (sep : Char) (s : Str) (h : sep ∉ s) : splitChar sep s = [s] := by
  induction s with
  | nil => rfl
  | cons c cs ih =>
    simp only [List.mem_cons, not_or] at h
    unfold splitChar
    rw [if_neg (fun e => h.1 e.symm), ih h.2]

/-- Joining a single ordinary component. -/
theorem Path.join_simple (p : Path) (s : Str) (h1 : '/' ∉ s) (h2 : s ≠ []) (h3 : s ≠ ['.']) :
    p.join s = p ++ [s] := by
  unfold Path.join
  rw [splitChar_of_not_mem _ _ h1]
  have hs : s.head? ≠ some '/' := by
    cases s with
    | nil => simp
    | cons c cs =>
      simp only [List.head?_cons, ne_eq, Option.some.injEq]
      rintro rfl
      exact h1 (List.mem_cons_self)
  simp [hs, h2, h3]

theorem splitOnce_eq_some (sep : Char) (s a b : Str) :
    splitOnce sep s = some (a, b) ↔ s = a ++ sep :: b ∧ sep ∉ a := by
  induction s generalizing a with
  | nil => simp [splitOnce]
  | cons c cs ih =>
    unfold splitOnce
    split
    · next h =>
      subst h
      constructor
      · intro h
        simp only [Option.some.injEq, Prod.mk.injEq] at h
        obtain ⟨rfl, rfl⟩ := h
        simp
      · rintro ⟨h1, h2⟩
        cases a with
        | nil => simp at h1; simp [h1]
        | cons x xs =>
          simp only [List.cons_append, List.cons.injEq] at h1
          exact absurd (by simp [h1.1]) h2
    · next h =>
      rw [Option.map_eq_some_iff]
      constructor
      · rintro ⟨⟨a', b'⟩, h1, h2⟩
        simp only [Prod.mk.injEq] at h2
        obtain ⟨rfl, rfl⟩ := h2
        obtain ⟨h3, h4⟩ := (ih a').mp h1
        exact ⟨by simp [h3], by simp [h4, Ne.symm h]⟩
      · rintro ⟨h1, h2⟩
        cases a with
        | nil => simp at h1; exact absurd h1.1 h
        | cons x xs =>
          simp only [List.cons_append, List.cons.injEq] at h1
          obtain ⟨rfl, rfl⟩ := h1
          refine ⟨(xs, b), (ih xs).mpr ⟨rfl, fun hm => h2 (by simp [hm])⟩, rfl⟩

/-- Text before a separator that does not occur in it is determined. -/
theorem append_sep_inj {a a' b b' : Str} {sep : Char} (h : a ++ sep :: b = a' ++ sep :: b')
    (ha : sep ∉ a) (ha' : sep ∉ a') : a = a' ∧ b = b' := by
  have h1 := (splitOnce_eq_some sep _ a b).mpr ⟨rfl, ha⟩
  have h2 := (splitOnce_eq_some sep _ a' b').mpr ⟨h, ha'⟩
  rw [h1] at h2
  simpa using h2

theorem replaceChar_not_mem {a b c : Char} {s : Str} (h : c ∉ s) (hc : c ≠ b) : c ∉ replaceChar a b s := by
  unfold replaceChar
  intro hm
  rw [List.mem_map] at hm
  obtain ⟨x, hx, e⟩ := hm
  split at e
  · exact hc e.symm
  · exact h (e ▸ hx)

end TF
