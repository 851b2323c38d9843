import Verif.Spec.Fuzz
import Verif.Lemmas.Utf8
import Mathlib.Tactic.Common

/-! Lemmas about reading lines. -/

namespace TF

open Spec

theorem utf8Encode_nil : utf8Encode [] = [] := rfl

theorem encode_nl : encodeChar '\n' = [10] := by decide +kernel

theorem nl_mem_encode {s : Str} (h : (10 : UInt8) ∈ utf8Encode s) : '\n' ∈ s := by
  obtain ⟨c, hc, he⟩ := mem_utf8Encode_ascii h (by decide)
  have : c = '\n' := by
    apply Char.ext
    apply UInt32.toNat_inj.mp
    simpa using he
  exact this ▸ hc

/-- Text followed by newline. -/
def terminated (texts : List Str) : Str := texts.flatMap fun t => t ++ ['\n']

theorem terminated_append (a b : List Str) : terminated (a ++ b) = terminated a ++ terminated b := by
  simp [terminated]

theorem terminated_nil_iff (ts : List Str) : terminated ts = [] ↔ ts = [] := by
  cases ts <;> simp [terminated]

theorem terminated_last (ts : List Str) (h : ts ≠ []) : ∃ s, terminated ts = s ++ ['\n'] := by
  obtain ⟨init, t, rfl⟩ := List.eq_nil_or_concat ts |>.resolve_left h
  exact ⟨terminated init ++ t, by simp [terminated]⟩

theorem strLinesAux_no_nl (acc t r : Str) (h : '\n' ∉ t) :
    strLinesAux acc (t ++ '\n' :: r) = stripCr (acc ++ t) :: strLinesAux [] r := by
  induction t generalizing acc with
  | nil => simp [strLinesAux]
  | cons c t ih =>
    simp only [List.mem_cons, not_or] at h
    rw [List.cons_append, strLinesAux, if_neg (fun e => h.1 e.symm), ih _ h.2]
    simp

theorem strLines_terminated (ts : List Str) (h : ∀ t ∈ ts, '\n' ∉ t) :
    strLines (terminated ts) = ts.map stripCr := by
  unfold strLines
  induction ts with
  | nil => rfl
  | cons t ts ih =>
    have : terminated (t :: ts) = t ++ '\n' :: terminated ts := by simp [terminated]
    rw [this, strLinesAux_no_nl _ _ _ (h t List.mem_cons_self), ih fun x hx => h x (List.mem_cons_of_mem _ hx)]
    simp

/-- Text that ends with a newline is a sequence of lines. -/
theorem exists_terminated (s : Str) : ∃ ts r, (∀ t ∈ ts, '\n' ∉ t) ∧ '\n' ∉ r ∧ s = terminated ts ++ r := by
  induction s with
  | nil => exact ⟨[], [], by simp, by simp, rfl⟩
  | cons c s ih =>
    obtain ⟨ts, r, h1, h2, rfl⟩ := ih
    by_cases hc : c = '\n'
    · subst hc
      refine ⟨[] :: ts, r, ?_, h2, by simp [terminated]⟩
      intro t ht
      rcases List.mem_cons.mp ht with rfl | ht
      · simp
      · exact h1 t ht
    · cases ts with
      | nil =>
        refine ⟨[], c :: r, by simp, ?_, by simp [terminated]⟩
        simp only [List.mem_cons, not_or]
        exact ⟨fun e => hc e.symm, h2⟩
      | cons t ts =>
        refine ⟨(c :: t) :: ts, r, ?_, h2, by simp [terminated]⟩
        intro x hx
        rcases List.mem_cons.mp hx with rfl | hx
        · simp only [List.mem_cons, not_or]
          exact ⟨fun e => hc e.symm, h1 t List.mem_cons_self⟩
        · exact h1 x (List.mem_cons_of_mem _ hx)

theorem cutLastNl_some {b x y : Bytes} (h : cutLastNl b = some (x, y)) :
    b = x ++ y ∧ (∃ z, x = z ++ [10]) ∧ (10 : UInt8) ∉ y := by
  unfold cutLastNl at h
  split at h
  · next i hi =>
    simp only [Option.some.injEq, Prod.mk.injEq] at h
    obtain ⟨rfl, rfl⟩ := h
    rw [List.findIdx?_eq_some_iff_getElem] at hi
    obtain ⟨hlt, hv, hbefore⟩ := hi
    rw [List.length_reverse] at hlt
    refine ⟨(List.take_append_drop _ _).symm, ⟨b.take (b.length - i - 1), ?_⟩, ?_⟩
    · have h10 : b[b.length - i - 1] = 10 := by
        rw [List.getElem_reverse] at hv
        simp only [beq_iff_eq] at hv
        have e : b.length - i - 1 = b.length - 1 - i := by omega
        simp only [e]; exact hv
      have e : b.length - i = (b.length - i - 1) + 1 := by omega
      conv_lhs => rw [e]
      rw [← List.take_append_getElem (l := b) (i := b.length - i - 1) (by omega)]
      rw [h10]
    · intro hm
      obtain ⟨j, hj, he⟩ := List.mem_iff_getElem.mp hm
      rw [List.getElem_drop] at he
      rw [List.length_drop] at hj
      have := hbefore (i - 1 - j) (by omega)
      rw [List.getElem_reverse] at this
      have e : b.length - 1 - (i - 1 - j) = b.length - i + j := by omega
      simp only [e, he] at this
      simp at this
  · cases h

theorem cutLastNl_none {b : Bytes} (h : cutLastNl b = none) : (10 : UInt8) ∉ b := by
  unfold cutLastNl at h
  split at h
  · cases h
  · next hi =>
    rw [List.findIdx?_eq_none_iff] at hi
    intro hm
    have := hi 10 (by simpa using hm)
    simp at this

theorem nl_split_unique {x y x' y' : Bytes} (h : x ++ [10] ++ y = x' ++ [10] ++ y') (hy : (10 : UInt8) ∉ y)
    (hy' : (10 : UInt8) ∉ y') : x = x' ∧ y = y' := by
  have hlen : y.length = y'.length := by
    rcases Nat.lt_trichotomy y.length y'.length with hl | hl | hl
    · exfalso
      rw [List.append_assoc, List.append_assoc] at h
      have hs : [10] ++ y <:+ y' := by
        apply List.suffix_of_suffix_length_le (l₃ := x ++ ([10] ++ y)) (List.suffix_append _ _)
        · rw [h, ← List.append_assoc]; exact List.suffix_append _ _
        · simp; omega
      exact hy' (hs.subset (by simp))
    · exact hl
    · exfalso
      rw [List.append_assoc, List.append_assoc] at h
      have hs : [10] ++ y' <:+ y := by
        apply List.suffix_of_suffix_length_le (l₃ := x' ++ ([10] ++ y')) (List.suffix_append _ _)
        · rw [← h, ← List.append_assoc]; exact List.suffix_append _ _
        · simp; omega
      exact hy (hs.subset (by simp))
  have := List.append_inj' h hlen
  exact ⟨by simpa using this.1, this.2⟩

theorem takeText_ok {u rest : Bytes} {s : Str} (h : takeText u = .ok (s, rest)) :
    Output u (strLines s) rest := by
  unfold takeText at h
  split at h
  · next x y hc =>
    obtain ⟨h1, ⟨z, hz⟩, h3⟩ := cutLastNl_some hc
    split at h
    · next s' hs =>
      simp only [Out.ok.injEq, Prod.mk.injEq] at h
      obtain ⟨rfl, rfl⟩ := h
      have hd := utf8Decode_sound hs
      obtain ⟨ts, r, k1, k2, k3⟩ := exists_terminated s'
      have hr : r = [] := by
        by_contra hne
        obtain ⟨r', c, rfl⟩ := List.eq_nil_or_concat r |>.resolve_left hne
        have hl : (10 : UInt8) ∈ encodeChar c := by
          have e1 : utf8Encode s' = utf8Encode (terminated ts ++ r') ++ encodeChar c := by
            rw [k3]; simp [utf8Encode]
          have e2 : (utf8Encode s').getLast? = some 10 := by rw [← hd, hz]; simp
          rw [e1, List.getLast?_append] at e2
          cases he : (encodeChar c).getLast? with
          | none => rw [List.getLast?_eq_none_iff] at he; exact absurd he (encodeChar_ne_nil c)
          | some v =>
            rw [he] at e2
            simp at e2
            subst e2
            exact List.mem_of_getLast? he
        have : '\n' ∈ [c] := nl_mem_encode (by simpa [utf8Encode] using hl)
        apply k2
        simp only [List.concat_eq_append, List.mem_append]
        exact Or.inr this
      subst hr
      rw [List.append_nil] at k3
      refine ⟨ts, ?_, k1, h3, ?_⟩
      · rw [h1, hd, k3]; rfl
      · rw [k3, strLines_terminated ts k1]; rfl
    · cases h
  · next hc =>
    simp only [Out.ok.injEq, Prod.mk.injEq] at h
    obtain ⟨rfl, rfl⟩ := h
    exact ⟨[], by simp [utf8Encode], by simp, cutLastNl_none hc, rfl⟩

/-- Conversely, proper output is accepted. -/
theorem takeText_of_output {u rest : Bytes} {lines : List Str} (h : Output u lines rest) :
    ∃ s, takeText u = .ok (s, rest) ∧ strLines s = lines := by
  obtain ⟨ts, hu, h1, h2, h3⟩ := h
  by_cases hts : ts = []
  · subst hts
    have hu' : u = rest := by simpa [utf8Encode] using hu
    refine ⟨[], ?_, by rw [h3]; rfl⟩
    unfold takeText
    cases hc : cutLastNl u with
    | none => simp [hu']
    | some p =>
      obtain ⟨x, y⟩ := p
      obtain ⟨e, ⟨z, hz⟩, -⟩ := cutLastNl_some hc
      exact absurd (by rw [← hu', e, hz]; simp) h2
  · obtain ⟨s0, hs0⟩ := terminated_last ts hts
    have hu' : u = utf8Encode (terminated ts) ++ rest := hu
    have henc : utf8Encode (terminated ts) = utf8Encode s0 ++ [10] := by
      rw [hs0, utf8Encode_append]; simp [utf8Encode, encode_nl]
    refine ⟨terminated ts, ?_, by rw [strLines_terminated ts h1, h3]; rfl⟩
    unfold takeText
    cases hc : cutLastNl u with
    | none =>
      exact absurd (by rw [hu', henc]; simp) (cutLastNl_none hc)
    | some p =>
      obtain ⟨x, y⟩ := p
      obtain ⟨e, ⟨z, hz⟩, hy⟩ := cutLastNl_some hc
      have : z ++ [10] ++ y = utf8Encode s0 ++ [10] ++ rest := by rw [← hz, ← e, hu', henc]
      obtain ⟨e1, e2⟩ := nl_split_unique this hy h2
      subst e2
      have hx : x = utf8Encode (terminated ts) := by rw [hz, e1, henc]
      simp only [hx, utf8Decode_encode]

theorem output_append {b1 b2 : Bytes} {l1 l2 : List Str} {r1 r2 : Bytes} (h1 : Output b1 l1 r1)
    (h2 : Output (r1 ++ b2) l2 r2) : Output (b1 ++ b2) (l1 ++ l2) r2 := by
  obtain ⟨t1, e1, n1, m1, rfl⟩ := h1
  obtain ⟨t2, e2, n2, m2, rfl⟩ := h2
  refine ⟨t1 ++ t2, ?_, ?_, m2, by simp⟩
  · rw [List.flatMap_append, utf8Encode_append, List.append_assoc, ← e2, e1]; simp
  · intro t ht
    rcases List.mem_append.mp ht with h | h
    · exact n1 t h
    · exact n2 t h

theorem output_nil : Output [] [] [] := ⟨[], rfl, by simp, by simp, rfl⟩

/-- The output determines lines and rest. -/
theorem output_unique {b : Bytes} {l l' : List Str} {r r' : Bytes} (h : Output b l r) (h' : Output b l' r') :
    l = l' ∧ r = r' := by
  obtain ⟨s, h1, h2⟩ := takeText_of_output h
  obtain ⟨s', h3, h4⟩ := takeText_of_output h'
  rw [h1] at h3
  simp only [Out.ok.injEq, Prod.mk.injEq] at h3
  exact ⟨by rw [← h2, ← h4, h3.1], h3.2⟩

end TF
