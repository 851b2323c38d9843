import Verif.Model.Semver
import Verif.Props.Semver

/-!
# C71: the text of versions
-/

namespace TF

open Spec Semver

/-! ## Characters -/

theorem isDigit_iff (c : Char) : isDigit c = true ↔ DigitChar c := by
  unfold isDigit DigitChar
  simp only [Bool.and_eq_true, decide_eq_true_eq]
  exact Iff.rfl

theorem isDigit_false (c : Char) : isDigit c = false ↔ ¬ DigitChar c := by
  rw [← isDigit_iff]; cases isDigit c <;> simp

theorem isLetterOrDash_iff (c : Char) :
    isLetterOrDash c = true ↔ ('A' ≤ c ∧ c ≤ 'Z') ∨ ('a' ≤ c ∧ c ≤ 'z') ∨ c = '-' := by
  unfold isLetterOrDash
  simp only [Bool.or_eq_true, Bool.and_eq_true, decide_eq_true_eq, beq_iff_eq, or_assoc]
  exact Iff.rfl

theorem letter_not_digit {c : Char} (h : isLetterOrDash c = true) : ¬ DigitChar c := by
  rw [isLetterOrDash_iff] at h
  intro hd
  have h1 : '0'.toNat ≤ c.toNat := hd.1
  have h2 : c.toNat ≤ '9'.toNat := hd.2
  have e0 : '0'.toNat = 48 := rfl
  have e9 : '9'.toNat = 57 := rfl
  rcases h with h | h | rfl
  · have : 'A'.toNat ≤ c.toNat := h.1
    have eA : 'A'.toNat = 65 := rfl
    omega
  · have : 'a'.toNat ≤ c.toNat := h.1
    have eA : 'a'.toNat = 97 := rfl
    omega
  · exact absurd h1 (by decide)

theorem idChar_iff (c : Char) : IdChar c ↔ isLetterOrDash c = true ∨ isDigit c = true := by
  rw [isLetterOrDash_iff, isDigit_iff]
  unfold IdChar
  exact or_comm

theorem dot_not_idChar : ¬ IdChar '.' := by rw [idChar_iff]; decide
theorem plus_not_idChar : ¬ IdChar '+' := by rw [idChar_iff]; decide
theorem dot_not_digit : ¬ DigitChar '.' := by rw [← isDigit_iff]; decide
theorem dash_not_digit : ¬ DigitChar '-' := by rw [← isDigit_iff]; decide
theorem plus_not_digit : ¬ DigitChar '+' := by rw [← isDigit_iff]; decide

/-! ## Numbers -/

/-- The text does not begin with a digit. -/
def NoDigit (s : Str) : Prop := ∀ c, s.head? = some c → ¬ DigitChar c

theorem foldl_ge (a : Str) (v : Nat) : v ≤ a.foldl (fun n c => 10 * n + (c.toNat - '0'.toNat)) v := by
  induction a generalizing v with
  | nil => exact Nat.le_refl _
  | cons c a ih => exact Nat.le_trans (by show v ≤ 10 * v + _; omega) (ih _)

theorem numericLoop_iff (s : Str) (v len n : Nat) (r : Str) (hv : v < 2 ^ 64) :
    numericLoop v (len + 1) s = some (n, r) ↔
      ∃ a, s = a ++ r ∧ (∀ c ∈ a, DigitChar c) ∧ NoDigit r ∧ (v = 0 → a = []) ∧
        a.foldl (fun n c => 10 * n + (c.toNat - '0'.toNat)) v = n ∧ n < 2 ^ 64 := by
  induction s generalizing v len with
  | nil =>
    simp only [numericLoop, Nat.add_one_ne_zero, if_false, Option.some.injEq, Prod.mk.injEq]
    constructor
    · rintro ⟨rfl, rfl⟩
      exact ⟨[], rfl, by simp, by simp [NoDigit], fun _ => rfl, rfl, hv⟩
    · rintro ⟨a, h, -, -, -, h', -⟩
      obtain ⟨rfl, rfl⟩ := List.append_eq_nil_iff.mp h.symm
      exact ⟨h', rfl⟩
  | cons c s ih =>
    unfold numericLoop
    by_cases hd : DigitChar c
    · rw [if_pos ((isDigit_iff c).mpr hd)]
      have split : ∀ a, c :: s = a ++ r → NoDigit r → ∃ a', a = c :: a' ∧ s = a' ++ r := by
        intro a h hr
        cases a with
        | nil => exact absurd hd (hr c (by rw [← (show c :: s = r from h)]; rfl))
        | cons x a => injection h with h1 h2; exact ⟨a, by rw [h1], h2⟩
      by_cases h0 : v = 0
      · rw [if_pos ⟨h0, by omega⟩]
        refine ⟨fun h => by simp at h, ?_⟩
        rintro ⟨a, h1, -, h3, h4, -⟩
        obtain ⟨a', rfl, -⟩ := split a h1 h3
        exact absurd (h4 h0) (by simp)
      · rw [if_neg (fun h => h0 h.1)]
        by_cases hlt : v * 10 + (c.toNat - '0'.toNat) < 2 ^ 64
        · rw [if_pos hlt, ih _ _ hlt]
          constructor
          · rintro ⟨a, rfl, h2, h3, h4, h5, h6⟩
            refine ⟨c :: a, rfl, ?_, h3, fun h => absurd h h0, ?_, h6⟩
            · intro x hx
              rcases List.mem_cons.mp hx with rfl | hx
              · exact hd
              · exact h2 x hx
            · rw [List.foldl_cons, Nat.mul_comm 10 v]; exact h5
          · rintro ⟨a, h1, h2, h3, -, h5, h6⟩
            obtain ⟨a', rfl, h1'⟩ := split a h1 h3
            refine ⟨a', h1', fun x hx => h2 x (List.mem_cons_of_mem _ hx), h3, fun h => by omega, ?_, h6⟩
            rw [List.foldl_cons, Nat.mul_comm 10 v] at h5; exact h5
        · rw [if_neg hlt]
          refine ⟨fun h => by simp at h, ?_⟩
          rintro ⟨a, h1, -, h3, -, h5, h6⟩
          obtain ⟨a', rfl, -⟩ := split a h1 h3
          rw [List.foldl_cons, Nat.mul_comm 10 v] at h5
          have := foldl_ge a' (v * 10 + (c.toNat - '0'.toNat))
          omega
    · rw [if_neg (by rw [isDigit_iff]; exact hd), if_neg (by omega)]
      simp only [Option.some.injEq, Prod.mk.injEq]
      constructor
      · rintro ⟨rfl, rfl⟩
        exact ⟨[], rfl, by simp, fun x hx => by cases hx; exact hd, fun _ => rfl, rfl, hv⟩
      · rintro ⟨a, h1, h2, -, -, h5, -⟩
        cases a with
        | nil => exact ⟨h5, h1⟩
        | cons x a =>
          injection h1 with h1 _
          exact absurd (h2 x List.mem_cons_self) (h1 ▸ hd)

theorem numericIdentifier_iff (s : Str) (n : Nat) (r : Str) :
    numericIdentifier s = some (n, r) ↔ ∃ a, s = a ++ r ∧ PlainNumber a n ∧ n < 2 ^ 64 ∧ NoDigit r := by
  unfold numericIdentifier PlainNumber
  cases s with
  | nil =>
    simp only [numericLoop, if_true]
    refine ⟨fun h => by simp at h, ?_⟩
    rintro ⟨a, h, ⟨h', -⟩, -⟩
    exact absurd (List.append_eq_nil_iff.mp h.symm).1 h'
  | cons c s =>
    unfold numericLoop
    by_cases hd : DigitChar c
    · have hc1 : '0'.toNat ≤ c.toNat := hd.1
      have hc2 : c.toNat ≤ '9'.toNat := hd.2
      have e0 : '0'.toNat = 48 := rfl
      have e9 : '9'.toNat = 57 := rfl
      have hlt : 0 * 10 + (c.toNat - '0'.toNat) < 2 ^ 64 := by omega
      rw [if_pos ((isDigit_iff c).mpr hd), if_neg (fun h => by omega), if_pos hlt, numericLoop_iff _ _ _ _ _ hlt]
      have hz : (0 * 10 + (c.toNat - '0'.toNat) = 0) ↔ c = '0' := by
        constructor
        · intro h
          apply Char.toNat_inj.mp
          omega
        · rintro rfl; rfl
      constructor
      · rintro ⟨a, rfl, h2, h3, h4, h5, h6⟩
        refine ⟨c :: a, rfl, ⟨by simp, ?_, ?_, ?_⟩, h6, h3⟩
        · intro x hx
          rcases List.mem_cons.mp hx with rfl | hx
          · exact hd
          · exact h2 x hx
        · intro h
          have : c = '0' := by simpa using h
          rw [h4 (hz.mpr this), this]
        · rw [List.foldl_cons, Nat.mul_comm 10 0]; exact h5
      · rintro ⟨a, h1, ⟨h2, h3, h4, h5⟩, h6, h7⟩
        cases a with
        | nil => exact absurd rfl h2
        | cons x a =>
          injection h1 with h1 h1'
          subst h1
          refine ⟨a, h1', fun y hy => h3 y (List.mem_cons_of_mem _ hy), h7, ?_, ?_, h6⟩
          · intro h
            have := h4 (by rw [hz.mp h]; rfl)
            exact (List.cons.inj this).2
          · rw [List.foldl_cons, Nat.mul_comm 10 0] at h5; exact h5
    · rw [if_neg (by rw [isDigit_iff]; exact hd), if_pos rfl]
      refine ⟨fun h => by simp at h, ?_⟩
      rintro ⟨a, h1, ⟨h2, h3, -⟩, -⟩
      cases a with
      | nil => exact absurd rfl h2
      | cons x a =>
        injection h1 with h1 _
        exact absurd (h3 x List.mem_cons_self) (h1 ▸ hd)

theorem dot_iff (s r : Str) : dot s = some r ↔ s = '.' :: r := by
  unfold dot
  split
  · simp
  · next h =>
    simp only [reduceCtorEq, false_iff]
    intro e; exact h r e

/-! ## Identifiers -/

theorem sep_split {α} {x : α} {a b c d : List α} (ha : x ∉ a) (hb : x ∉ b) (h : a ++ x :: c = b ++ x :: d) : a = b ∧ c = d := by
  induction a generalizing b with
  | nil =>
    cases b with
    | nil => exact ⟨rfl, (List.cons.inj h).2⟩
    | cons y b => exact absurd ((List.cons.inj h).1 ▸ List.mem_cons_self) hb
  | cons z a ih =>
    cases b with
    | nil => exact absurd ((List.cons.inj h).1 ▸ List.mem_cons_self) ha
    | cons y b =>
      obtain ⟨h1, h2⟩ := List.cons.inj h
      obtain ⟨rfl, h3⟩ := ih (fun hh => ha (List.mem_cons_of_mem _ hh)) (fun hh => hb (List.mem_cons_of_mem _ hh)) h2
      exact ⟨by rw [h1], h3⟩

/-- A text without dots. -/
theorem dotted_single {xs : List Str} {t : Str} (h : Dotted xs t) (ht : '.' ∉ t) : xs = [t] := by
  cases h with
  | one => rfl
  | more => simp at ht

theorem dotted_cons {xs : List Str} {t d : Str} (hx : ∀ x ∈ xs, '.' ∉ x) (ht : '.' ∉ t) :
    Dotted xs (t ++ '.' :: d) ↔ ∃ ys, xs = t :: ys ∧ Dotted ys d := by
  constructor
  · intro h
    generalize hs : t ++ '.' :: d = s at h
    cases h with
    | one =>
      exact absurd (by rw [← hs]; simp) (hx _ List.mem_cons_self)
    | more h =>
      obtain ⟨rfl, rfl⟩ := sep_split ht (hx _ List.mem_cons_self) hs
      exact ⟨_, rfl, h⟩
  · rintro ⟨ys, rfl, h⟩
    cases ys with
    | nil => cases h
    | cons y ys => exact .more h

/-- The first text begins where the whole does. -/
theorem dotted_head {xs : List Str} {t d : Str} {c : Char} (h : Dotted xs (t ++ c :: d)) (hc : c ≠ '.') (ht : '.' ∉ t) :
    ∃ x ∈ xs, c ∈ x := by
  generalize hs : t ++ c :: d = s at h
  cases h with
  | one x => exact ⟨_, List.mem_cons_self, by rw [← hs]; simp⟩
  | @more x y l s h =>
    refine ⟨x, List.mem_cons_self, ?_⟩
    clear h
    induction t generalizing x with
    | nil =>
      cases x with
      | nil => exact absurd (List.cons.inj hs).1 hc
      | cons z x => exact (List.cons.inj hs).1 ▸ List.mem_cons_self
    | cons z t ih =>
      cases x with
      | nil => exact absurd ((List.cons.inj hs).1 ▸ List.mem_cons_self) ht
      | cons z' x =>
        exact List.mem_cons_of_mem _ (ih (fun hh => ht (List.mem_cons_of_mem _ hh)) (List.cons.inj hs).2)

/-- What an identifier of a tag must look like besides: a number has no leading zero. -/
def NoLeadingZero (x : Str) : Prop := (∀ c ∈ x, DigitChar c) → x.head? = some '0' → x = ['0']

/-- The text does not go on with an identifier or a dot. -/
def Ends (r : Str) : Prop := ∀ c, r.head? = some c → ¬ IdChar c ∧ c ≠ '.'

theorem endSegment_iff (pre : Bool) (segs : List Str) (seg : Str) (nd : Bool) (hnd : nd = true ↔ ∃ c ∈ seg, ¬ DigitChar c)
    (hne : seg ≠ []) (l : List Str) :
    endSegment pre segs seg nd = some l ↔ (pre = true → NoLeadingZero seg) ∧ l = segs ++ [seg] := by
  unfold endSegment NoLeadingZero
  have key : (pre && !nd && decide (seg.length > 1) && seg.head? == some '0') = true ↔
      ¬ (pre = true → (∀ c ∈ seg, DigitChar c) → seg.head? = some '0' → seg = ['0']) := by
    simp only [Bool.and_eq_true, Bool.not_eq_true', decide_eq_true_eq, beq_iff_eq, Classical.not_imp]
    have h1 : nd = false ↔ ∀ c ∈ seg, DigitChar c := by
      rw [← Bool.not_eq_true, hnd]
      constructor
      · intro h c hc
        exact Classical.not_not.mp fun hn => h ⟨c, hc, hn⟩
      · rintro h ⟨c, hc, hn⟩
        exact hn (h c hc)
    rw [h1]
    constructor
    · rintro ⟨⟨⟨h1, h2⟩, h3⟩, h4⟩
      exact ⟨h1, h2, h4, fun e => by rw [e] at h3; simp at h3⟩
    · rintro ⟨h1, h2, h4, h5⟩
      refine ⟨⟨⟨h1, h2⟩, ?_⟩, h4⟩
      cases seg with
      | nil => exact absurd rfl hne
      | cons x seg =>
        cases seg with
        | nil => exact absurd (by simpa using h4) h5
        | cons y seg => simp
  by_cases h : (pre && !nd && decide (seg.length > 1) && seg.head? == some '0') = true
  · rw [if_pos h]
    simp only [reduceCtorEq, false_iff]
    rintro ⟨h', -⟩
    exact key.mp h h'
  · rw [if_neg h]
    simp only [Option.some.injEq]
    constructor
    · rintro rfl
      exact ⟨Classical.not_not.mp fun hn => h (key.mpr hn), rfl⟩
    · rintro ⟨-, rfl⟩; rfl

theorem ident_noDot {x : Str} (h : Ident x) : '.' ∉ x := fun hm => dot_not_idChar (h.2 _ hm)

theorem identifierLoop_iff (pre : Bool) (s : Str) (segs : List Str) (seg : Str) (nd : Bool)
    (hseg : ∀ c ∈ seg, IdChar c) (hnd : nd = true ↔ ∃ c ∈ seg, ¬ DigitChar c) (l : List Str) (hl : l ≠ []) (r : Str) :
    identifierLoop pre segs seg nd s = some (l, r) ↔
      ∃ xs d, l = segs ++ xs ∧ s = d ++ r ∧ Dotted xs (seg ++ d) ∧
        (∀ x ∈ xs, Ident x ∧ (pre = true → NoLeadingZero x)) ∧ Ends r := by
  have hdot : '.' ∉ seg := fun hm => dot_not_idChar (hseg _ hm)
  induction s generalizing segs seg nd with
  | nil =>
    unfold identifierLoop
    by_cases he : seg = []
    · subst he
      simp only [if_true]
      constructor
      · intro h
        split at h
        · simp only [Option.some.injEq, Prod.mk.injEq] at h
          exact absurd h.1.symm hl
        · cases h
      · rintro ⟨xs, d, -, h2, h3, h4, -⟩
        obtain ⟨rfl, rfl⟩ := List.append_eq_nil_iff.mp h2.symm
        rw [dotted_single h3 (by simp)] at h4
        exact absurd rfl (h4 [] List.mem_cons_self).1.1
    · rw [if_neg he]
      simp only [Option.map_eq_some_iff, Prod.mk.injEq]
      constructor
      · rintro ⟨l', h, rfl, rfl⟩
        obtain ⟨h1, rfl⟩ := (endSegment_iff _ _ _ _ hnd he _).mp h
        refine ⟨[seg], [], rfl, rfl, by rw [List.append_nil]; exact .one _, ?_, by simp [Ends]⟩
        intro x hx
        rw [List.mem_singleton.mp hx]
        exact ⟨⟨he, hseg⟩, h1⟩
      · rintro ⟨xs, d, rfl, h2, h3, h4, -⟩
        obtain ⟨rfl, rfl⟩ := List.append_eq_nil_iff.mp h2.symm
        rw [List.append_nil] at h3
        obtain rfl := dotted_single h3 hdot
        exact ⟨_, (endSegment_iff _ _ _ _ hnd he _).mpr ⟨(h4 _ List.mem_cons_self).2, rfl⟩, rfl, rfl⟩
  | cons c s ih =>
    have split : ∀ d, c :: s = d ++ r → IdChar c → Ends r → ∃ d', d = c :: d' ∧ s = d' ++ r := by
      intro d h hc hr
      cases d with
      | nil => exact absurd hc (hr c (by rw [← (show c :: s = r from h)]; rfl)).1
      | cons x d => injection h with h1 h2; exact ⟨d, by rw [h1], h2⟩
    have step : ∀ nd', (nd' = true ↔ ∃ x ∈ seg ++ [c], ¬ DigitChar x) → IdChar c →
        (identifierLoop pre segs (seg ++ [c]) nd' s = some (l, r) ↔
          ∃ xs d, l = segs ++ xs ∧ c :: s = d ++ r ∧ Dotted xs (seg ++ d) ∧
            (∀ x ∈ xs, Ident x ∧ (pre = true → NoLeadingZero x)) ∧ Ends r) := by
      intro nd' hnd' hc
      have hseg' : ∀ x ∈ seg ++ [c], IdChar x := by
        intro x hx
        rcases List.mem_append.mp hx with hx | hx
        · exact hseg x hx
        · rw [List.mem_singleton.mp hx]; exact hc
      refine (ih segs (seg ++ [c]) nd' hseg' hnd' (fun hm => dot_not_idChar (hseg' _ hm))).trans ?_
      constructor
      · rintro ⟨xs, d, h1, rfl, h3, h4, h5⟩
        exact ⟨xs, c :: d, h1, rfl, by simpa using h3, h4, h5⟩
      · rintro ⟨xs, d, h1, h2, h3, h4, h5⟩
        obtain ⟨d', rfl, h2'⟩ := split d h2 hc h5
        exact ⟨xs, d', h1, h2', by simpa using h3, h4, h5⟩
    unfold identifierLoop
    by_cases hlet : isLetterOrDash c = true
    · rw [if_pos hlet]
      refine step true ?_ ((idChar_iff c).mpr (.inl hlet))
      simp only [true_iff]
      exact ⟨c, by simp, letter_not_digit hlet⟩
    · rw [if_neg hlet]
      by_cases hdig : isDigit c = true
      · rw [if_pos hdig]
        refine step nd ?_ ((idChar_iff c).mpr (.inr hdig))
        rw [hnd]
        constructor
        · rintro ⟨x, hx, h⟩
          exact ⟨x, List.mem_append_left _ hx, h⟩
        · rintro ⟨x, hx, h⟩
          rcases List.mem_append.mp hx with hx | hx
          · exact ⟨x, hx, h⟩
          · rw [List.mem_singleton.mp hx] at h
            exact absurd ((isDigit_iff c).mp hdig) h
      · rw [if_neg hdig]
        have hc : ¬ IdChar c := by rw [idChar_iff]; rintro (h | h) <;> contradiction
        by_cases he : seg = []
        · subst he
          rw [if_pos rfl]
          constructor
          · intro h
            split at h
            · simp only [Option.some.injEq, Prod.mk.injEq] at h
              exact absurd h.1.symm hl
            · cases h
          · rintro ⟨xs, d, -, h2, h3, h4, -⟩
            rw [List.nil_append] at h3
            cases d with
            | nil =>
              rw [dotted_single h3 (by simp)] at h4
              exact absurd rfl (h4 [] List.mem_cons_self).1.1
            | cons x d =>
              injection h2 with h2 _
              subst h2
              by_cases hcd : c = '.'
              · subst hcd
                obtain ⟨ys, rfl, -⟩ := (dotted_cons (t := []) (fun x hx => ident_noDot (h4 x hx).1) (by simp)).mp h3
                exact absurd rfl (h4 [] List.mem_cons_self).1.1
              · obtain ⟨x, hx, hcx⟩ := dotted_head (t := []) h3 hcd (by simp)
                exact absurd ((h4 x hx).1.2 c hcx) hc
        · rw [if_neg he]
          have key : ∀ xs d, c :: s = d ++ r → Dotted xs (seg ++ d) →
              (∀ x ∈ xs, Ident x ∧ (pre = true → NoLeadingZero x)) → Ends r →
              (d = [] ∧ c ≠ '.' ∧ xs = [seg]) ∨ (∃ ys d', c = '.' ∧ d = '.' :: d' ∧ s = d' ++ r ∧ xs = seg :: ys ∧ Dotted ys d') := by
            intro xs d h2 h3 h4 h5
            cases d with
            | nil =>
              rw [List.append_nil] at h3
              refine .inl ⟨rfl, (h5 c (by rw [← (show c :: s = r from h2)]; rfl)).2, dotted_single h3 hdot⟩
            | cons x d =>
              injection h2 with h2 h2'
              subst h2
              by_cases hcd : c = '.'
              · subst hcd
                obtain ⟨ys, rfl, h6⟩ := (dotted_cons (fun x hx => ident_noDot (h4 x hx).1) hdot).mp h3
                exact .inr ⟨ys, d, rfl, rfl, h2', rfl, h6⟩
              · obtain ⟨x, hx, hcx⟩ := dotted_head h3 hcd hdot
                exact absurd ((h4 x hx).1.2 c hcx) hc
          cases hes : endSegment pre segs seg nd with
          | none =>
            simp only [reduceCtorEq, false_iff]
            rintro ⟨xs, d, h1, h2, h3, h4, h5⟩
            have hb : ∀ h, endSegment pre segs seg nd ≠ some h := by simp [hes]
            have hz : ¬ (pre = true → NoLeadingZero seg) := fun hz =>
              hb _ ((endSegment_iff _ _ _ _ hnd he _).mpr ⟨hz, rfl⟩)
            rcases key xs d h2 h3 h4 h5 with ⟨-, -, rfl⟩ | ⟨ys, d', -, -, -, rfl, -⟩
            · exact hz (h4 _ List.mem_cons_self).2
            · exact hz (h4 _ List.mem_cons_self).2
          | some l' =>
            obtain ⟨hz, rfl⟩ := (endSegment_iff _ _ _ _ hnd he _).mp hes
            by_cases hcd : c = '.'
            · subst hcd
              simp only [if_true]
              refine (ih (segs ++ [seg]) [] false (by simp) (by simp) (by simp)).trans ?_
              constructor
              · rintro ⟨xs, d, rfl, rfl, h3, h4, h5⟩
                refine ⟨seg :: xs, '.' :: d, by simp, rfl, ?_, ?_, h5⟩
                · rw [List.nil_append] at h3
                  cases xs with
                  | nil => cases h3
                  | cons y ys => exact .more h3
                · intro x hx
                  rcases List.mem_cons.mp hx with rfl | hx
                  · exact ⟨⟨he, hseg⟩, hz⟩
                  · exact h4 x hx
              · rintro ⟨xs, d, rfl, h2, h3, h4, h5⟩
                rcases key xs d h2 h3 h4 h5 with ⟨-, h, -⟩ | ⟨ys, d', -, rfl, h6, rfl, h7⟩
                · exact absurd rfl h
                · exact ⟨ys, d', by simp, h6, h7, fun x hx => h4 x (List.mem_cons_of_mem _ hx), h5⟩
            · simp only [hcd, if_false, Option.some.injEq, Prod.mk.injEq]
              constructor
              · rintro ⟨rfl, rfl⟩
                refine ⟨[seg], [], rfl, rfl, by rw [List.append_nil]; exact .one _, ?_, ?_⟩
                · intro x hx
                  rw [List.mem_singleton.mp hx]
                  exact ⟨⟨he, hseg⟩, hz⟩
                · intro x hx
                  cases hx
                  exact ⟨hc, hcd⟩
              · rintro ⟨xs, d, rfl, h2, h3, h4, h5⟩
                rcases key xs d h2 h3 h4 h5 with ⟨rfl, -, rfl⟩ | ⟨ys, d', h, -⟩
                · exact ⟨rfl, h2⟩
                · exact absurd h hcd

theorem identifier_iff (pre : Bool) (s : Str) (l : List Str) (hl : l ≠ []) (r : Str) :
    identifier pre s = some (l, r) ↔
      ∃ d, s = d ++ r ∧ Dotted l d ∧ (∀ x ∈ l, Ident x ∧ (pre = true → NoLeadingZero x)) ∧ Ends r := by
  unfold identifier
  rw [identifierLoop_iff pre s [] [] false (by simp) (by simp) l hl r]
  constructor
  · rintro ⟨xs, d, rfl, h2, h3, h4, h5⟩
    exact ⟨d, h2, h3, h4, h5⟩
  · rintro ⟨d, h2, h3, h4, h5⟩
    exact ⟨l, d, rfl, h2, h3, h4, h5⟩

/-! ## Segments of tags -/

theorem tagId_iff (x : Str) (i : PreId) : TagId x i ↔ i = segmentId x ∧ Ident x ∧ NoLeadingZero x := by
  have hall : x.all isDigit = true ↔ ∀ c ∈ x, DigitChar c := by
    rw [List.all_eq_true]; simp only [isDigit_iff]
  have hval : x.foldl (fun a c => 10 * a + (c.toNat - '0'.toNat)) 0 = digitsValue x := by
    unfold digitsValue
    congr 1; funext a c; rw [Nat.mul_comm]
  constructor
  · intro h
    cases h with
    | number h =>
      obtain ⟨h1, h2, h3, h4⟩ := h
      refine ⟨?_, ⟨h1, fun c hc => .inl (h2 c hc)⟩, fun _ => h3⟩
      rw [segmentId, if_pos (hall.mpr h2), ← hval, h4]
    | text h h' =>
      have hn : ¬ ∀ c ∈ x, DigitChar c := fun hh => by
        obtain ⟨c, hc, h'⟩ := h'
        exact h' (hh c hc)
      refine ⟨?_, h, fun hh => absurd hh hn⟩
      rw [segmentId, if_neg (by rw [hall]; exact hn)]
  · rintro ⟨rfl, h1, h2⟩
    unfold segmentId
    split
    · next h =>
      rw [hall] at h
      exact .number ⟨h1.1, h, h2 h, hval⟩
    · next h =>
      refine .text h1 (Classical.not_not.mp fun hn => h ?_)
      rw [hall]
      intro c hc
      exact Classical.not_not.mp fun hd => hn ⟨c, hc, hd⟩

theorem tagIds_iff (ids : List Str) (pre : List PreId) :
    List.Forall₂ TagId ids pre ↔ pre = ids.map segmentId ∧ ∀ x ∈ ids, Ident x ∧ NoLeadingZero x := by
  induction ids generalizing pre with
  | nil => simp
  | cons x ids ih =>
    cases pre with
    | nil => simp
    | cons i pre =>
      simp only [List.forall₂_cons, ih, tagId_iff, List.map_cons, List.cons.injEq, List.mem_cons, forall_eq_or_imp]
      exact ⟨fun ⟨⟨a, b⟩, c, d⟩ => ⟨⟨a, c⟩, b, d⟩, fun ⟨⟨a, c⟩, b, d⟩ => ⟨⟨a, b⟩, c, d⟩⟩

theorem parsePre_iff (s : Str) (l : List Str) (r : Str) :
    parsePre s = some (l, r) ↔ (l = [] ∧ s = r ∧ ∀ t, s ≠ '-' :: t) ∨
      (l ≠ [] ∧ ∃ d, s = '-' :: d ++ r ∧ Dotted l d ∧ (∀ x ∈ l, Ident x ∧ NoLeadingZero x) ∧ Ends r) := by
  unfold parsePre
  split
  · next t =>
    have h0 : ¬ (∀ t', '-' :: t ≠ '-' :: t') := fun h => h t rfl
    simp only [h0, and_false, false_or]
    cases hi : identifier true t with
    | none =>
      simp only [reduceCtorEq, false_iff]
      rintro ⟨hl, d, h1, h2, h3, h4⟩
      have := (identifier_iff true t l hl r).mpr ⟨d, by simpa using h1, h2, fun x hx => ⟨(h3 x hx).1, fun _ => (h3 x hx).2⟩, h4⟩
      rw [hi] at this; cases this
    | some y =>
      obtain ⟨l', r'⟩ := y
      simp only
      constructor
      · intro h
        split at h
        · cases h
        · next hl =>
          simp only [Option.some.injEq, Prod.mk.injEq] at h
          obtain ⟨rfl, rfl⟩ := h
          obtain ⟨d, h1, h2, h3, h4⟩ := (identifier_iff true t _ hl _).mp hi
          exact ⟨hl, d, by rw [h1]; rfl, h2, fun x hx => ⟨(h3 x hx).1, (h3 x hx).2 rfl⟩, h4⟩
      · rintro ⟨hl, d, h1, h2, h3, h4⟩
        have := (identifier_iff true t l hl r).mpr ⟨d, by simpa using h1, h2, fun x hx => ⟨(h3 x hx).1, fun _ => (h3 x hx).2⟩, h4⟩
        rw [hi] at this
        simp only [Option.some.injEq, Prod.mk.injEq] at this
        obtain ⟨rfl, rfl⟩ := this
        rw [if_neg hl]
  · next h =>
    simp only [Option.some.injEq, Prod.mk.injEq]
    constructor
    · rintro ⟨rfl, rfl⟩
      exact .inl ⟨rfl, rfl, fun t e => h t e⟩
    · rintro (⟨rfl, rfl, -⟩ | ⟨-, d, h1, -⟩)
      · exact ⟨rfl, rfl⟩
      · exact absurd h1 (h _)

theorem parseBuild_iff (s : Str) (l : List Str) (r : Str) :
    parseBuild s = some (l, r) ↔ (l = [] ∧ s = r ∧ ∀ t, s ≠ '+' :: t) ∨
      (l ≠ [] ∧ ∃ d, s = '+' :: d ++ r ∧ Dotted l d ∧ (∀ x ∈ l, Ident x) ∧ Ends r) := by
  unfold parseBuild
  split
  · next t =>
    have h0 : ¬ (∀ t', '+' :: t ≠ '+' :: t') := fun h => h t rfl
    simp only [h0, and_false, false_or]
    cases hi : identifier false t with
    | none =>
      simp only [reduceCtorEq, false_iff]
      rintro ⟨hl, d, h1, h2, h3, h4⟩
      have := (identifier_iff false t l hl r).mpr ⟨d, by simpa using h1, h2, fun x hx => ⟨h3 x hx, by simp⟩, h4⟩
      rw [hi] at this; cases this
    | some y =>
      obtain ⟨l', r'⟩ := y
      simp only
      constructor
      · intro h
        split at h
        · cases h
        · next hl =>
          simp only [Option.some.injEq, Prod.mk.injEq] at h
          obtain ⟨rfl, rfl⟩ := h
          obtain ⟨d, h1, h2, h3, h4⟩ := (identifier_iff false t _ hl _).mp hi
          exact ⟨hl, d, by rw [h1]; rfl, h2, fun x hx => (h3 x hx).1, h4⟩
      · rintro ⟨hl, d, h1, h2, h3, h4⟩
        have := (identifier_iff false t l hl r).mpr ⟨d, by simpa using h1, h2, fun x hx => ⟨h3 x hx, by simp⟩, h4⟩
        rw [hi] at this
        simp only [Option.some.injEq, Prod.mk.injEq] at this
        obtain ⟨rfl, rfl⟩ := this
        rw [if_neg hl]
  · next h =>
    simp only [Option.some.injEq, Prod.mk.injEq]
    constructor
    · rintro ⟨rfl, rfl⟩
      exact .inl ⟨rfl, rfl, fun t e => h t e⟩
    · rintro (⟨rfl, rfl, -⟩ | ⟨-, d, h1, -⟩)
      · exact ⟨rfl, rfl⟩
      · exact absurd h1 (h _)

theorem dotted_ne_nil {l : List Str} {d : Str} (h : Dotted l d) : l ≠ [] := by cases h <;> simp

theorem ends_nil : Ends [] := by simp [Ends]

theorem buildText_iff (b : List Str) (u : Str) : parseBuild u = some (b, []) ↔ BuildText b u := by
  rw [parseBuild_iff]
  unfold BuildText
  constructor
  · rintro (⟨h1, h2, -⟩ | ⟨-, d, h1, h2, h3, -⟩)
    · exact .inl ⟨h1, h2⟩
    · exact .inr ⟨d, h3, h2, by rw [h1, List.append_nil]⟩
  · rintro (⟨rfl, rfl⟩ | ⟨d, h1, h2, rfl⟩)
    · exact .inl ⟨rfl, rfl, by simp⟩
    · exact .inr ⟨dotted_ne_nil h2, d, by rw [List.append_nil], h2, h1, ends_nil⟩

/-- The build metadata's text ends whatever is before it. -/
theorem buildText_ends {b : List Str} {u : Str} (h : BuildText b u) : Ends u := by
  rcases h with ⟨-, rfl⟩ | ⟨d, -, -, rfl⟩
  · exact ends_nil
  · intro c hc
    cases hc
    exact ⟨plus_not_idChar, by decide⟩

theorem buildText_noDash {b : List Str} {u : Str} (h : BuildText b u) (t : Str) : u ≠ '-' :: t := by
  rcases h with ⟨-, rfl⟩ | ⟨d, -, -, rfl⟩ <;> simp

theorem tagText_iff (ids : List Str) (b : List Str) (t u : Str) (hu : BuildText b u) :
    parsePre (t ++ u) = some (ids, u) ↔
      (ids = [] ∧ t = []) ∨ ∃ d, (∀ x ∈ ids, Ident x ∧ NoLeadingZero x) ∧ Dotted ids d ∧ t = '-' :: d := by
  rw [parsePre_iff]
  constructor
  · rintro (⟨h1, h2, -⟩ | ⟨-, d, h1, h2, h3, -⟩)
    · refine .inl ⟨h1, ?_⟩
      have := congrArg List.length h2
      simp only [List.length_append] at this
      exact List.eq_nil_of_length_eq_zero (by omega)
    · exact .inr ⟨d, h3, h2, List.append_cancel_right h1⟩
  · rintro (⟨rfl, rfl⟩ | ⟨d, h1, h2, rfl⟩)
    · exact .inl ⟨rfl, rfl, buildText_noDash hu⟩
    · exact .inr ⟨dotted_ne_nil h2, d, rfl, h2, h1, buildText_ends hu⟩

theorem tag_text (pre : List PreId) (t : Str) :
    TagText pre t ↔ ∃ ids, pre = ids.map segmentId ∧
      ((ids = [] ∧ t = []) ∨ ∃ d, (∀ x ∈ ids, Ident x ∧ NoLeadingZero x) ∧ Dotted ids d ∧ t = '-' :: d) := by
  unfold TagText
  constructor
  · rintro (⟨rfl, rfl⟩ | ⟨ids, d, h1, h2, rfl⟩)
    · exact ⟨[], rfl, .inl ⟨rfl, rfl⟩⟩
    · obtain ⟨rfl, h3⟩ := (tagIds_iff ids pre).mp h1
      exact ⟨ids, rfl, .inr ⟨d, h3, h2, rfl⟩⟩
  · rintro ⟨ids, rfl, (⟨rfl, rfl⟩ | ⟨d, h1, h2, rfl⟩)⟩
    · exact .inl ⟨rfl, rfl⟩
    · exact .inr ⟨ids, d, (tagIds_iff _ _).mpr ⟨rfl, h1⟩, h2, rfl⟩

theorem noDigit_dot (s : Str) : NoDigit ('.' :: s) := fun c hc => by cases hc; exact dot_not_digit

theorem noDigit_tail {pre : List PreId} {b : List Str} {t u : Str} (ht : TagText pre t) (hu : BuildText b u) :
    NoDigit (t ++ u) := by
  rcases ht with ⟨-, rfl⟩ | ⟨ids, d, -, -, rfl⟩
  · rcases hu with ⟨-, rfl⟩ | ⟨d, -, -, rfl⟩
    · simp [NoDigit]
    · exact fun c hc => by cases hc; exact plus_not_digit
  · exact fun c hc => by cases hc; exact dash_not_digit

/-- **C71 (versions are read by the grammar).** `Version::parse` accepts exactly the texts of the grammar, and its result is
what the text says. -/
theorem C71_parse (s : Str) (v : Version) (build : List Str) :
    parseVersion s = some (v, build) ↔ VersionText v build s := by
  unfold parseVersion VersionText
  constructor
  · intro h
    simp only [bind, Option.bind_eq_some_iff, Prod.exists] at h
    obtain ⟨major, s1, h1, s2, h2, minor, s3, h3, s4, h4, patch, s5, h5, ids, s6, h6, b, s7, h7, h⟩ := h
    split at h
    · next hs =>
      simp only [Option.some.injEq, Prod.mk.injEq] at h
      obtain ⟨rfl, rfl⟩ := h
      subst hs
      obtain ⟨a1, rfl, p1, l1, -⟩ := (numericIdentifier_iff _ _ _).mp h1
      rw [dot_iff] at h2; subst h2
      obtain ⟨a2, rfl, p2, l2, -⟩ := (numericIdentifier_iff _ _ _).mp h3
      rw [dot_iff] at h4; subst h4
      obtain ⟨a3, rfl, p3, l3, -⟩ := (numericIdentifier_iff _ _ _).mp h5
      have hu := (buildText_iff _ _).mp h7
      rcases (parsePre_iff _ _ _).mp h6 with ⟨rfl, rfl, -⟩ | ⟨hne, d, rfl, h8, h9, -⟩
      · exact ⟨a1, a2, a3, [], s5, p1, p2, p3, l1, l2, l3, .inl ⟨rfl, rfl⟩, hu, by simp⟩
      · refine ⟨a1, a2, a3, '-' :: d, s6, p1, p2, p3, l1, l2, l3, (tag_text _ _).mpr ⟨ids, rfl, .inr ⟨d, h9, h8, rfl⟩⟩, hu, by simp⟩
    · cases h
  · rintro ⟨a, b, c, t, u, p1, p2, p3, l1, l2, l3, ht, hu, rfl⟩
    have e1 := (numericIdentifier_iff (a ++ ('.' :: (b ++ '.' :: (c ++ (t ++ u))))) _ _).mpr ⟨a, rfl, p1, l1, noDigit_dot _⟩
    have e2 := (numericIdentifier_iff (b ++ '.' :: (c ++ (t ++ u))) _ _).mpr ⟨b, rfl, p2, l2, noDigit_dot _⟩
    have e3 := (numericIdentifier_iff (c ++ (t ++ u)) _ _).mpr ⟨c, rfl, p3, l3, noDigit_tail ht hu⟩
    obtain ⟨ids, hp, ht'⟩ := (tag_text _ _).mp ht
    have e4 := (tagText_iff ids build t u hu).mpr ht'
    have e5 := (buildText_iff _ _).mpr hu
    have e0 : a ++ c%"." ++ b ++ c%"." ++ c ++ t ++ u = a ++ ('.' :: (b ++ '.' :: (c ++ (t ++ u)))) := by simp
    rw [e0, e1]
    simp only [bind, Option.bind_some, dot, e2, e3, e4, e5, if_true, ← hp]

/-- **C71 (a text has one reading).** -/
theorem C71_unambiguous {s : Str} {v w : Version} {b b' : List Str} (h : VersionText v b s) (h' : VersionText w b' s) :
    v = w ∧ b = b' := by
  rw [← C71_parse] at h h'
  rw [h] at h'
  simpa using h'

/-! ## Printing -/

theorem natStr_plain (n : Nat) : PlainNumber (natStr n) n := by
  refine ⟨Nat.toDigits_ne_nil, fun c hc => ?_, ?_, ?_⟩
  · have := Nat.isDigit_of_mem_toDigits (by decide) (by decide) hc
    simp only [Char.isDigit, Bool.and_eq_true, decide_eq_true_eq] at this
    exact ⟨this.1, this.2⟩
  · intro h
    unfold natStr at h ⊢
    induction n using Nat.strongRecOn with
    | ind n ih =>
      rw [Nat.toDigits_eq_if (by decide)] at h ⊢
      split
      · next hlt =>
        rw [if_pos hlt] at h
        simpa using h
      · next hlt =>
        rw [if_neg hlt] at h
        have hne : Nat.toDigits 10 (n / 10) ≠ [] := Nat.toDigits_ne_nil
        have hh : (Nat.toDigits 10 (n / 10)).head? = some '0' := by
          cases hx : Nat.toDigits 10 (n / 10) with
          | nil => exact absurd hx hne
          | cons a as => rw [hx] at h; simpa using h
        have := ih (n / 10) (by omega) hh
        have h0 := Nat.ofDigitChars_ten_toDigits (n := n / 10)
        rw [this] at h0
        have h0' : n / 10 = 0 := h0.symm
        omega
  · have := Nat.ofDigitChars_ten_toDigits (n := n)
    rw [Nat.ofDigitChars_eq_foldl] at this
    exact this

theorem dotted_join (l : List Str) (h : l ≠ []) : Dotted l (joinWith ['.'] l) := by
  induction l with
  | nil => exact absurd rfl h
  | cons x l ih =>
    cases l with
    | nil => exact .one x
    | cons y l =>
      have := ih (by simp)
      simp only [joinWith, List.append_assoc, List.singleton_append]
      exact .more this

/-- Anything that was read can be written. -/
theorem versionText_printed {v : Version} {b : List Str} {s : Str} (h : VersionText v b s) :
    VersionText v b (versionText v b) := by
  obtain ⟨a1, a2, a3, t, u, -, -, -, l1, l2, l3, ht, hu, -⟩ := h
  refine ⟨natStr v.major, natStr v.minor, natStr v.patch,
    (if v.pre = [] then [] else '-' :: joinWith ['.'] (v.pre.map idText)),
    (if b = [] then [] else '+' :: joinWith ['.'] b), natStr_plain _, natStr_plain _, natStr_plain _, l1, l2, l3, ?_, ?_, ?_⟩
  · rcases ht with ⟨h, -⟩ | ⟨ids, d, h1, h2, -⟩
    · exact .inl ⟨h, if_pos h⟩
    · have hne : v.pre ≠ [] := by
        intro e
        rw [e] at h1
        cases h1
        exact dotted_ne_nil h2 rfl
      rw [if_neg hne]
      refine .inr ⟨v.pre.map idText, _, ?_, dotted_join _ (by simpa using hne), rfl⟩
      clear h2 hne
      revert h1
      generalize v.pre = pre
      intro h1
      induction h1 with
      | nil => exact .nil
      | @cons x i ids pre hx _ ih =>
        refine .cons ?_ ih
        cases hx with
        | number h => exact .number (natStr_plain _)
        | text h h' => exact .text h h'
  · rcases hu with ⟨h, -⟩ | ⟨d, h1, h2, -⟩
    · exact .inl ⟨h, if_pos h⟩
    · have hne := dotted_ne_nil h2
      rw [if_neg hne]
      exact .inr ⟨_, h1, dotted_join _ hne, rfl⟩
  · simp [versionText]

/-- **C71 (printing and reading).** A version that was read is printed as a text that is read as the same version. -/
theorem C71_printed {s : Str} {v : Version} {b : List Str} (h : parseVersion s = some (v, b)) :
    parseVersion (versionText v b) = some (v, b) := by
  rw [C71_parse] at h ⊢
  exact versionText_printed h

/-! ## Requirements -/

theorem digit_head {a : Str} {n : Nat} (h : PlainNumber a n) : ∃ c r, a = c :: r ∧ DigitChar c := by
  obtain ⟨h1, h2, -⟩ := h
  cases a with
  | nil => exact absurd rfl h1
  | cons c r => exact ⟨c, r, rfl, h2 c List.mem_cons_self⟩

theorem digit_ne {c d : Char} (h : DigitChar c) (hd : isDigit d = false) : c ≠ d := by
  rintro rfl
  rw [(isDigit_iff _).mpr h] at hd; cases hd

theorem parseOp_digit {c : Char} (h : DigitChar c) (r : Str) : parseOp (c :: r) = (.caret, false, c :: r) := by
  unfold parseOp
  split
  all_goals first
    | (next e => exact absurd (List.cons.inj e).1 (digit_ne h (by decide)))
    | rfl

theorem wildcard_digit {c : Char} (h : DigitChar c) (r : Str) : wildcard (c :: r) = none := by
  unfold wildcard
  split
  all_goals first
    | (next e => exact absurd (List.cons.inj e).1 (digit_ne h (by decide)))
    | rfl

theorem skipSpaces_digit {c : Char} (h : DigitChar c) (r : Str) : skipSpaces (c :: r) = c :: r := by
  have : (c == ' ') = false := by rw [beq_eq_false_iff_ne]; exact digit_ne h (by decide)
  simp [skipSpaces, this]

/-- **C71 (requirements).** For every version that can come from a package or the tool, `as_version_req` does not panic,
and its result is the caret requirement of exactly this version. -/
theorem C71_requirement {s : Str} {v : Version} {build : List Str} (h : parseVersion s = some (v, build)) :
    asVersionReq v build = .ok ⟨.caret, v.major, some v.minor, some v.patch, v.pre⟩ := by
  rw [C71_parse] at h
  obtain ⟨a, b, c, t, u, p1, p2, p3, l1, l2, l3, ht, hu, h⟩ := versionText_printed h
  have e1 := (numericIdentifier_iff (a ++ ('.' :: (b ++ '.' :: (c ++ (t ++ u))))) _ _).mpr ⟨a, rfl, p1, l1, noDigit_dot _⟩
  have e2 := (numericIdentifier_iff (b ++ '.' :: (c ++ (t ++ u))) _ _).mpr ⟨b, rfl, p2, l2, noDigit_dot _⟩
  have e3 := (numericIdentifier_iff (c ++ (t ++ u)) _ _).mpr ⟨c, rfl, p3, l3, noDigit_tail ht hu⟩
  obtain ⟨ids, hp, ht'⟩ := (tag_text _ _).mp ht
  have e4 := (tagText_iff ids build t u hu).mpr ht'
  have e5 := (buildText_iff _ _).mpr hu
  have e0 : versionText v build = a ++ ('.' :: (b ++ '.' :: (c ++ (t ++ u)))) := by rw [h]; simp
  obtain ⟨x, xs, rfl, hx⟩ := digit_head p1
  obtain ⟨y, ys, rfl, hy⟩ := digit_head p2
  obtain ⟨z, zs, rfl, hz⟩ := digit_head p3
  have m : parseMinor ('.' :: ((y :: ys) ++ '.' :: ((z :: zs) ++ (t ++ u)))) =
      some (some v.minor, false, '.' :: ((z :: zs) ++ (t ++ u))) := by
    show (match wildcard (y :: (ys ++ '.' :: ((z :: zs) ++ (t ++ u)))) with | some r' => _ | none => _) = _
    rw [wildcard_digit hy]
    show Option.map _ (numericIdentifier ((y :: ys) ++ '.' :: ((z :: zs) ++ (t ++ u)))) = _
    rw [e2]; rfl
  have n : parsePatch false ('.' :: ((z :: zs) ++ (t ++ u))) = some (some v.patch, false, t ++ u) := by
    show (match wildcard (z :: (zs ++ (t ++ u))) with | some r' => _ | none => _) = _
    rw [wildcard_digit hz]
    show Option.map _ (numericIdentifier ((z :: zs) ++ (t ++ u))) = _
    rw [e3]; rfl
  have hc : parseComparator ((x :: xs) ++ ('.' :: ((y :: ys) ++ '.' :: ((z :: zs) ++ (t ++ u))))) =
      some (⟨.caret, v.major, some v.minor, some v.patch, v.pre⟩, []) := by
    unfold parseComparator
    rw [List.cons_append, parseOp_digit hx]
    simp only
    rw [skipSpaces_digit hx, ← List.cons_append, e1]
    simp only [bind, Option.bind_some, m, n, Option.isSome_some, if_true, e4, e5, Bool.or_self, Bool.false_and,
      Bool.false_eq_true, if_false, ← hp]
    rfl
  unfold asVersionReq parseReq
  rw [e0, List.cons_append, skipSpaces_digit hx, ← List.cons_append, hc]

/-! ## The version of cargo-afl -/

theorem isAsciiSpace_iff (c : Char) : isAsciiSpace c = true ↔ Blank c := by
  unfold isAsciiSpace Blank
  simp [or_assoc]

theorem idChar_not_blank {c : Char} (h : IdChar c) : ¬ Blank c := by
  rw [idChar_iff] at h
  intro hb
  simp only [Blank, List.mem_cons, List.not_mem_nil, or_false] at hb
  rcases hb with rfl | rfl | rfl | rfl | rfl <;> revert h <;> decide

theorem dotted_chars {l : List Str} {d : Str} (h : Dotted l d) (hl : ∀ x ∈ l, Ident x) : ∀ c ∈ d, ¬ Blank c := by
  induction h with
  | one x => exact fun c hc => idChar_not_blank ((hl x List.mem_cons_self).2 c hc)
  | @more x y l s _ ih =>
    intro c hc
    rcases List.mem_append.mp hc with hc | hc
    · exact idChar_not_blank ((hl x List.mem_cons_self).2 c hc)
    · rcases List.mem_cons.mp hc with rfl | hc
      · simp [Blank]
      · exact ih (fun z hz => hl z (List.mem_cons_of_mem _ hz)) c hc

/-- There is no white space in the text of a version. -/
theorem versionText_noBlank {v : Version} {b : List Str} {s : Str} (h : VersionText v b s) : ∀ c ∈ s, ¬ Blank c := by
  obtain ⟨a1, a2, a3, t, u, p1, p2, p3, -, -, -, ht, hu, rfl⟩ := h
  have num : ∀ {a n}, PlainNumber a n → ∀ c ∈ a, ¬ Blank c := fun p c hc => idChar_not_blank (.inl (p.2.1 c hc))
  have hdot : ∀ c ∈ c%".", ¬ Blank c := by simp [Blank]
  have htag : ∀ c ∈ t, ¬ Blank c := by
    obtain ⟨ids, -, (⟨-, rfl⟩ | ⟨d, h1, h2, rfl⟩)⟩ := (tag_text _ _).mp ht
    · simp
    · intro c hc
      rcases List.mem_cons.mp hc with rfl | hc
      · simp [Blank]
      · exact dotted_chars h2 (fun x hx => (h1 x hx).1) c hc
  have hbuild : ∀ c ∈ u, ¬ Blank c := by
    rcases hu with ⟨-, rfl⟩ | ⟨d, h1, h2, rfl⟩
    · simp
    · intro c hc
      rcases List.mem_cons.mp hc with rfl | hc
      · simp [Blank]
      · exact dotted_chars h2 h1 c hc
  intro c hc
  simp only [List.mem_append] at hc
  rcases hc with (((((hc | hc) | hc) | hc) | hc) | hc) | hc
  · exact num p1 c hc
  · exact hdot c hc
  · exact num p2 c hc
  · exact hdot c hc
  · exact num p3 c hc
  · exact htag c hc
  · exact hbuild c hc

theorem versionText_ne_nil {v : Version} {b : List Str} {s : Str} (h : VersionText v b s) : s ≠ [] := by
  obtain ⟨a1, a2, a3, t, u, p1, -, -, -, -, -, -, -, rfl⟩ := h
  obtain ⟨c, r, rfl, -⟩ := digit_head p1
  simp

theorem firstWord_iff (s w : Str) : firstWord s = some w ↔
    ∃ sp r, s = sp ++ w ++ r ∧ (∀ c ∈ sp, Blank c) ∧ w ≠ [] ∧ (∀ c ∈ w, ¬ Blank c) ∧ (∀ c, r.head? = some c → Blank c) := by
  have hb : ∀ c, isAsciiSpace c = false ↔ ¬ Blank c := fun c => by
    rw [← isAsciiSpace_iff]; cases isAsciiSpace c <;> simp
  constructor
  · intro h
    unfold firstWord at h
    split at h
    · cases h
    · next w' hw =>
      injection h with h
      subst h
      refine ⟨s.takeWhile isAsciiSpace, (s.dropWhile isAsciiSpace).dropWhile (fun c => !isAsciiSpace c), ?_, ?_, hw, ?_, ?_⟩
      · rw [List.append_assoc, List.takeWhile_append_dropWhile, List.takeWhile_append_dropWhile]
      · intro c hc
        exact (isAsciiSpace_iff c).mp (List.all_eq_true.mp List.all_takeWhile c hc)
      · intro c hc
        have := List.all_eq_true.mp (List.all_takeWhile (p := fun c => !isAsciiSpace c)) c hc
        exact (hb c).mp (by simpa using this)
      · intro c hc
        have := List.head?_dropWhile_not (fun c => !isAsciiSpace c) (s.dropWhile isAsciiSpace)
        rw [hc] at this
        exact (isAsciiSpace_iff c).mp (by simpa using this)
  · rintro ⟨sp, r, rfl, h1, h2, h3, h4⟩
    have e1 : (sp ++ w ++ r).dropWhile isAsciiSpace = w ++ r := by
      rw [List.append_assoc, List.dropWhile_append_of_pos fun c hc => (isAsciiSpace_iff c).mpr (h1 c hc)]
      cases w with
      | nil => exact absurd rfl h2
      | cons x w =>
        rw [List.cons_append, List.dropWhile_cons, (hb x).mpr (h3 x List.mem_cons_self)]
        rfl
    have e2 : (w ++ r).takeWhile (fun c => !isAsciiSpace c) = w := by
      rw [List.takeWhile_append_of_pos fun c hc => by rw [(hb c).mpr (h3 c hc)]; rfl]
      cases r with
      | nil => simp
      | cons x r =>
        rw [List.takeWhile_cons, (isAsciiSpace_iff x).mpr (h4 x rfl)]
        simp
    unfold firstWord
    rw [e1, e2]
    cases w with
    | nil => exact absurd rfl h2
    | cons x w => rfl

/-- **C71 (the version of cargo-afl).** It is found exactly if the output is `cargo-afl `, possibly more white space, and
the text of a version, with white space or nothing after it. -/
theorem C71_cargo_afl (out : Str) (v : Version) :
    cargoAflVersion (some out) = some v ↔
      ∃ sp w build rest, out = c%"cargo-afl " ++ sp ++ w ++ rest ∧ (∀ c ∈ sp, Blank c) ∧ VersionText v build w ∧
        (∀ c, rest.head? = some c → Blank c) := by
  unfold cargoAflVersion
  simp only [bind, Option.bind_some, Option.bind_eq_some_iff, Prod.exists, Option.some.injEq, C71_parse, firstWord_iff]
  constructor
  · rintro ⟨r, h1, w, ⟨sp, r', rfl, h2, -, -, h5⟩, v', b, h6, rfl⟩
    unfold stripPrefix at h1
    split at h1
    · next hp =>
      obtain ⟨t, rfl⟩ := List.isPrefixOf_iff_prefix.mp hp
      rw [List.drop_left] at h1
      injection h1 with h1
      exact ⟨sp, w, b, r', by rw [h1]; simp, h2, h6, h5⟩
    · cases h1
  · rintro ⟨sp, w, b, r, rfl, h2, h3, h4⟩
    refine ⟨sp ++ w ++ r, ?_, w, ⟨sp, r, rfl, h2, versionText_ne_nil h3, versionText_noBlank h3, h4⟩, v, b, h3, rfl⟩
    unfold stripPrefix
    have e : c%"cargo-afl " ++ sp ++ w ++ r = c%"cargo-afl " ++ (sp ++ w ++ r) := by simp only [List.append_assoc]
    rw [e, if_pos (List.isPrefixOf_iff_prefix.mpr ⟨_, rfl⟩), List.drop_left]

/-- Non-vacuity of C71: the texts of some versions, and some that are none. -/
example : parseVersion c%"1.20.3-rc.1.x-y+001.git" =
      some (⟨1, 20, 3, [.alpha c%"rc", .num 1, .alpha c%"x-y"]⟩, [c%"001", c%"git"]) ∧
    versionText ⟨1, 20, 3, [.alpha c%"rc", .num 1, .alpha c%"x-y"]⟩ [c%"001", c%"git"] = c%"1.20.3-rc.1.x-y+001.git" ∧
    asVersionReq ⟨0, 15, 24, []⟩ [] = .ok ⟨.caret, 0, some 15, some 24, []⟩ ∧
    parseVersion c%"1.02.3" = none ∧ parseVersion c%"1.2" = none ∧ parseVersion c%"1.2.3-01" = none ∧
    parseVersion c%"1.2.3-" = none ∧ parseVersion c%"1.2.18446744073709551616" = none ∧
    cargoAflVersion (some c%"cargo-afl 0.15.24\n") = some ⟨0, 15, 24, []⟩ ∧
    cargoAflVersion (some c%"error: no such command: `afl`") = none := by
  decide +kernel

end TF
