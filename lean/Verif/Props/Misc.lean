import Verif.Model.Format
import Verif.Model.Retry
import Verif.Model.TryDebug
import Verif.Lemmas.Str

/-! # Format selection, retry, and text for types without `Debug`: C17, C63, C58 -/

namespace TF

/-! ## C17 -/

namespace Spec

/-- The only format selected; the one taken if nothing is selected is postcard. -/
def Selected (f : Features) : Format → Prop
  | .bincode => f.bincode = true ∧ f.postcard = false
  | .postcard => f.bincode = false

/-- Name of the feature of `test-fuzz` and `cargo-test-fuzz` for a format. -/
def featureName : Format → Str
  | .bincode => c%"serde_bincode"
  | .postcard => c%"serde_postcard"

end Spec

/-- Whatever is selected, what is written and what is read is in the same, existing format. -/
theorem C17_same (f : Features) : ∃ x, serializeFormat f = some x ∧ deserializeFormat f = some x := by
  obtain ⟨b, p⟩ := f
  cases b <;> cases p <;> exact ⟨_, rfl, rfl⟩

/-- A single selected format is the one in use and the one named. -/
theorem C17_selected (f : Features) (x : Format) (h : Spec.Selected f x) :
    serializeFormat f = some x ∧ asFeature f = .ok (Spec.featureName x) := by
  obtain ⟨b, p⟩ := f
  cases x with
  | bincode => obtain ⟨rfl, rfl⟩ : b = true ∧ p = false := h; exact ⟨rfl, rfl⟩
  | postcard =>
    have hb : b = false := h
    subst hb
    cases p <;> exact ⟨rfl, rfl⟩

/-- Selecting both is an error, and only that. -/
theorem C17_both (f : Features) : asFeature f = .panic ↔ f.bincode = true ∧ f.postcard = true := by
  obtain ⟨b, p⟩ := f
  cases b <;> cases p <;> decide

example : serializeFormat ⟨false, false⟩ = some .postcard ∧ asFeature ⟨false, false⟩ = .ok c%"serde_postcard" :=
  ⟨rfl, rfl⟩

/-! ## C63 -/

theorem retryLoop_spec {T E : Type} (op : Nat → Except E T) (n k i : Nat) (h : i + k = n) :
    ∃ c r, retryLoop op n i (k + 1) = .ok (c, r) ∧ i ≤ c ∧ c ≤ n ∧ r = op c ∧
      (∀ j, i ≤ j → j < c → ∃ e, op j = .error e) ∧ ((∃ v, r = .ok v) ∨ c = n) := by
  induction k generalizing i with
  | zero =>
    obtain rfl : i = n := by omega
    unfold retryLoop
    cases ho : op i with
    | ok v => exact ⟨i, .ok v, rfl, by omega, by omega, ho.symm, by intro j h1 h2; omega, Or.inl ⟨v, rfl⟩⟩
    | error e =>
      simp only [Nat.lt_irrefl, if_false]
      exact ⟨i, .error e, rfl, by omega, by omega, ho.symm, by intro j h1 h2; omega, Or.inr rfl⟩
  | succ k ih =>
    unfold retryLoop
    cases ho : op i with
    | ok v => exact ⟨i, .ok v, rfl, by omega, by omega, ho.symm, by intro j h1 h2; omega, Or.inl ⟨v, rfl⟩⟩
    | error e =>
      obtain ⟨c, r, h1, h2, h3, h4, h5, h6⟩ := ih (i + 1) (by omega)
      simp only [show i < n by omega, if_true]
      refine ⟨c, r, h1, by omega, h3, h4, fun j hj hj' => ?_, h6⟩
      by_cases hji : j = i
      · subst hji; exact ⟨e, ho⟩
      · exact h5 j (by omega) hj'

/-- The operation is called until the first success, but at most `n` times; the result is that of the last call. -/
theorem C63_retry {T E : Type} (n : Nat) (hn : 1 ≤ n) (op : Nat → Except E T) :
    ∃ c r, retry n op = .ok (c, r) ∧ 1 ≤ c ∧ c ≤ n ∧ r = op c ∧ (∀ j, 1 ≤ j → j < c → ∃ e, op j = .error e) ∧
      ((∃ v, r = .ok v) ∨ c = n) := by
  obtain ⟨k, rfl⟩ : ∃ k, n = k + 1 := ⟨n - 1, by omega⟩
  obtain ⟨c, r, h1, h⟩ := retryLoop_spec op (k + 1) k 1 (by omega)
  refine ⟨c, r, ?_, h⟩
  unfold retry
  rw [show assert (decide (k + 1 ≥ 1)) = .ok () by simp [assert], Out.ok_bind]
  exact h1

/-- The first success, if there is one in time, is returned. -/
theorem C63_success {T E : Type} (n : Nat) (op : Nat → Except E T) (c : Nat) (v : T) (h1 : 1 ≤ c) (h2 : c ≤ n)
    (hv : op c = .ok v) (hf : ∀ j, 1 ≤ j → j < c → ∃ e, op j = .error e) : retry n op = .ok (c, .ok v) := by
  obtain ⟨c', r, k1, k2, k3, k4, k5, k6⟩ := C63_retry n (by omega) op
  have : c' = c := by
    rcases Nat.lt_trichotomy c' c with h | h | h
    · obtain ⟨e, he⟩ := hf c' k2 h
      rcases k6 with ⟨v', hv'⟩ | rfl
      · rw [k4, he] at hv'; cases hv'
      · omega
    · exact h
    · obtain ⟨e, he⟩ := k5 c h1 h; rw [hv] at he; cases he
  subst this
  rw [k1, k4, hv]

/-- If all calls fail, the last error is returned. -/
theorem C63_failure {T E : Type} (n : Nat) (hn : 1 ≤ n) (op : Nat → Except E T)
    (hf : ∀ j, 1 ≤ j → j ≤ n → ∃ e, op j = .error e) : retry n op = .ok (n, op n) := by
  obtain ⟨c', r, k1, k2, k3, k4, k5, k6⟩ := C63_retry n hn op
  rcases k6 with ⟨v, hv⟩ | rfl
  · obtain ⟨e, he⟩ := hf c' k2 k3; rw [k4, he] at hv; cases hv
  · rw [k1, k4]

example : retry 5 (fun i => if i < 3 then .error i else .ok (10 * i)) = .ok (3, (.ok 30 : Except Nat Nat)) := rfl
example : retry 2 (fun i => if i < 3 then .error i else .ok (10 * i)) = .ok (2, (.error 2 : Except Nat Nat)) := rfl

/-! ## C58 -/

/-- Whatever the type is called, its exact name is shown. -/
theorem C58_exact (t : Str) : debugUnimplemented (tryDebugName t) = .ok (c%"<unknown of type " ++ t ++ c%">") := by
  have hf : find pat (tryDebugName t) = some 19 := rfl
  have hd : (tryDebugName t).drop (19 + pat.length) = t ++ c%">" := rfl
  unfold debugUnimplemented
  rw [hf]
  simp only [hd]
  rw [(stripSuffix_eq_some c%">" (t ++ c%">") t).mpr rfl]

example : debugUnimplemented (tryDebugName c%"Vec<TryDebug<u8>>") = .ok c%"<unknown of type Vec<TryDebug<u8>>>" := by
  decide +kernel

end TF
