import Verif.Rust.Strip
import Verif.Spec.Strip
import Verif.Lemmas.Utf8
import Verif.Lemmas.Lossy
import Mathlib.Data.List.Infix
import Mathlib.Tactic.Common

/-! # Equations of `strip_ansi_escapes::strip` -/

namespace TF

theorem decodeOne_shorter {a : UInt8} {r r' : Bytes} {c : Char} (h : decodeOne (a :: r) = some (c, r')) :
    r'.length < r.length + 1 := by
  have h1 := congrArg List.length (decodeOne_sound h)
  have h2 := List.length_pos_iff.mpr (encodeChar_ne_nil c)
  simp only [List.length_cons, List.length_append] at h1
  omega

theorem stripFuel_enough : ∀ (n : Nat) (s : VState) (b : Bytes) (m : Nat), b.length ≤ n → b.length ≤ m →
    stripFuel n s b = stripFuel m s b := by
  intro n
  induction n with
  | zero =>
    intro s b m hn hm
    have : b = [] := List.length_eq_zero_iff.mp (by omega)
    subst this
    cases m <;> simp [stripFuel]
  | succ n ih =>
    intro s b m hn hm
    cases b with
    | nil => cases m <;> simp [stripFuel]
    | cons a r =>
      cases m with
      | zero => simp at hm
      | succ m =>
        simp only [List.length_cons] at hn hm
        have hr : ∀ s, stripFuel n s r = stripFuel m s r := fun s => ih s r m (by omega) (by omega)
        cases s with
        | ground =>
          simp only [stripFuel]
          rw [hr]
          split
          · rfl
          · cases hd : decodeOne (a :: r) with
            | some p =>
              simp only
              rw [ih _ _ m (by have := decodeOne_shorter hd; omega) (by have := decodeOne_shorter hd; omega)]
            | none =>
              simp only
              split
              · rfl
              · have := nextLen_pos a r
                rw [ih .ground ((a :: r).drop (nextLen a r).1) m (by simp only [List.length_drop, List.length_cons]; omega)
                  (by simp only [List.length_drop, List.length_cons]; omega)]
        | _ => simp only [stripFuel]; rw [hr]

/-- What is written for the rest of the input. -/
def stripFrom (s : VState) (b : Bytes) : Bytes := stripFuel b.length s b

theorem stripAnsi_eq (b : Bytes) : stripAnsi b = stripFrom .ground b := rfl

@[simp] theorem stripFrom_nil (s : VState) : stripFrom s [] = [] := by unfold stripFrom; simp [stripFuel]

theorem stripFrom_cons {s : VState} (hs : s ≠ .ground) (a : UInt8) (r : Bytes) :
    stripFrom s (a :: r) = (vteStep s a).2 ++ stripFrom (vteStep s a).1 r := by
  unfold stripFrom
  cases s <;> first | exact absurd rfl hs | (simp only [List.length_cons, stripFuel])

theorem stripFrom_esc (a : UInt8) (r : Bytes) (h : a.toNat = 0x1B) : stripFrom .ground (a :: r) = stripFrom .escape r := by
  unfold stripFrom
  simp only [List.length_cons, stripFuel, h, if_true]

theorem stripFrom_char {a : UInt8} {r r' : Bytes} {c : Char} (h : a.toNat ≠ 0x1B) (hd : decodeOne (a :: r) = some (c, r')) :
    stripFrom .ground (a :: r) = groundChar c ++ stripFrom .ground r' := by
  unfold stripFrom
  simp only [List.length_cons, stripFuel, h, if_false, hd]
  rw [stripFuel_enough r.length .ground r' r'.length (by have := decodeOne_shorter hd; omega) (Nat.le_refl _)]

theorem stripFrom_bad {a : UInt8} {r : Bytes} (h : a.toNat ≠ 0x1B) (hd : decodeOne (a :: r) = none)
    (hk : ¬ ((nextLen a r).1 = r.length + 1 ∧ utf8Width a ≠ 0)) :
    stripFrom .ground (a :: r) =
      (if (nextLen a r).1 = 1 ∧ a.toNat ≤ 0x9F then execute a else encodeChar replacement) ++
        stripFrom .ground ((a :: r).drop (nextLen a r).1) := by
  unfold stripFrom
  simp only [List.length_cons, stripFuel, h, if_false, hd, if_neg hk]
  have := nextLen_pos a r
  rw [stripFuel_enough r.length .ground ((a :: r).drop (nextLen a r).1) _
    (by simp only [List.length_drop, List.length_cons]; omega) (Nat.le_refl _)]

theorem stripFrom_cut {a : UInt8} {r : Bytes} (h : a.toNat ≠ 0x1B) (hd : decodeOne (a :: r) = none)
    (hk : (nextLen a r).1 = r.length + 1 ∧ utf8Width a ≠ 0) : stripFrom .ground (a :: r) = [] := by
  unfold stripFrom
  simp only [List.length_cons, stripFuel, h, if_false, hd, if_pos hk]

/-! ## More input -/

theorem decodeOne_append {b r t : Bytes} {c : Char} (h : decodeOne b = some (c, r)) :
    decodeOne (b ++ t) = some (c, r ++ t) := by
  rw [decodeOne_sound h, List.append_assoc]
  exact decodeOne_encodeChar c _

theorem nextLen_true_of_decode {a : UInt8} {r r' : Bytes} {c : Char} (h : decodeOne (a :: r) = some (c, r')) :
    (nextLen a r).2 = true := by
  rcases hn : nextLen a r with ⟨k, ok⟩
  cases ok with
  | true => rfl
  | false => exact absurd ⟨r', (decodeOne_sound h).symm⟩ ((nextLen_false hn).1 c)

theorem nextLen_false_of_decode {a : UInt8} {r : Bytes} (h : decodeOne (a :: r) = none) : (nextLen a r).2 = false := by
  rcases hn : nextLen a r with ⟨k, ok⟩
  cases ok with
  | false => rfl
  | true =>
    obtain ⟨c, -, h2⟩ := nextLen_true hn
    rw [h2, decodeOne_encodeChar] at h
    cases h

/-- An invalid sequence that does not end the input stays what it is if there is more input. -/
theorem nextLen_append {a : UInt8} {r : Bytes} (t : Bytes) (hb : (nextLen a r).2 = false)
    (hk : ¬ ((nextLen a r).1 = r.length + 1 ∧ utf8Width a ≠ 0)) : nextLen a (r ++ t) = nextLen a r := by
  have hg : ∀ i, i < r.length → safeGet (r ++ t) i = safeGet r i := fun i hi =>
    safeGet_prefix (List.prefix_append r t) hi
  unfold nextLen at hb hk ⊢
  split at hb
  · cases hb
  next ha =>
    simp only [ha, if_false] at hk ⊢
    rcases utf8Width_cases a with ⟨-, -, hw⟩ | ⟨-, -, hw⟩ | ⟨-, -, hw⟩ | ⟨-, hw⟩ <;> rw [hw] at hb hk ⊢ <;> simp only at hb hk ⊢
    · by_cases h0 : 0 < r.length
      · rw [hg 0 h0]
      · have : r = [] := List.length_eq_zero_iff.mp (by omega)
        subst this
        simp [safeGet, isCont] at hk
    · by_cases h0 : 0 < r.length
      · rw [hg 0 h0]
        by_cases hs : second3 a (safeGet r 0) = true
        · rw [if_pos hs] at hb hk ⊢
          rw [if_pos hs]
          by_cases h1 : 1 < r.length
          · rw [hg 1 h1]
          · have hz : safeGet r 1 = 0 := by simp [safeGet, List.getElem?_eq_none (Nat.not_lt.mp h1)]
            rw [hz, isCont_zero] at hk
            simp at hk
            omega
        · rw [if_neg hs, if_neg hs]
      · have : r = [] := List.length_eq_zero_iff.mp (by omega)
        subst this
        have hz : safeGet [] 0 = 0 := rfl
        rw [hz, second3_zero] at hk
        simp at hk
    · by_cases h0 : 0 < r.length
      · rw [hg 0 h0]
        by_cases hs : second4 a (safeGet r 0) = true
        · rw [if_pos hs] at hb hk ⊢
          rw [if_pos hs]
          by_cases h1 : 1 < r.length
          · rw [hg 1 h1]
            by_cases hs1 : isCont (safeGet r 1) = true
            · rw [if_pos hs1] at hb hk ⊢
              rw [if_pos hs1]
              by_cases h2 : 2 < r.length
              · rw [hg 2 h2]
              · have hz : safeGet r 2 = 0 := by simp [safeGet, List.getElem?_eq_none (Nat.not_lt.mp h2)]
                rw [hz, isCont_zero] at hk
                simp at hk
                omega
            · rw [if_neg hs1, if_neg hs1]
          · have hz : safeGet r 1 = 0 := by simp [safeGet, List.getElem?_eq_none (Nat.not_lt.mp h1)]
            rw [hz, isCont_zero] at hk
            simp at hk
            omega
        · rw [if_neg hs, if_neg hs]
      · have : r = [] := List.length_eq_zero_iff.mp (by omega)
        subst this
        have hz : safeGet [] 0 = 0 := rfl
        rw [hz, second4_zero] at hk
        simp at hk

/-- More input only adds to what is written. -/
theorem stripFrom_prefix : ∀ (n : Nat) (s : VState) (a t : Bytes), a.length ≤ n → stripFrom s a <+: stripFrom s (a ++ t) := by
  intro n
  induction n with
  | zero =>
    intro s a t h
    have : a = [] := List.length_eq_zero_iff.mp (by omega)
    subst this
    rw [stripFrom_nil]
    exact List.nil_prefix
  | succ n ih =>
    intro s a t h
    cases a with
    | nil => rw [stripFrom_nil]; exact List.nil_prefix
    | cons x r =>
      simp only [List.length_cons] at h
      by_cases hs : s = .ground
      · subst hs
        rw [List.cons_append]
        by_cases hx : x.toNat = 0x1B
        · rw [stripFrom_esc _ _ hx, stripFrom_esc _ _ hx]
          exact ih _ _ _ (by omega)
        · cases hd : decodeOne (x :: r) with
          | some p =>
            obtain ⟨c, r'⟩ := p
            have hd' : decodeOne (x :: (r ++ t)) = some (c, r' ++ t) := decodeOne_append hd
            rw [stripFrom_char hx hd, stripFrom_char hx hd']
            exact (List.prefix_append_right_inj _).mpr (ih _ _ _ (by have := decodeOne_shorter hd; omega))
          | none =>
            have hf := nextLen_false_of_decode hd
            by_cases hk : (nextLen x r).1 = r.length + 1 ∧ utf8Width x ≠ 0
            · rw [stripFrom_cut hx hd hk]
              exact List.nil_prefix
            · have hn := nextLen_append t hf hk
              have hd' : decodeOne (x :: (r ++ t)) = none := by
                cases hd' : decodeOne (x :: (r ++ t)) with
                | none => rfl
                | some p =>
                  have := nextLen_true_of_decode (c := p.1) (r' := p.2) hd'
                  rw [hn, hf] at this
                  cases this
              have hlen : (nextLen x r).1 ≤ (x :: r).length := by
                rcases hnx : nextLen x r with ⟨k, ok⟩
                rw [hnx] at hf
                subst hf
                obtain ⟨h1, -⟩ := nextLen_false_begins hnx
                rw [List.length_take] at h1
                simp only
                omega
              have hk' : ¬ ((nextLen x (r ++ t)).1 = (r ++ t).length + 1 ∧ utf8Width x ≠ 0) := by
                rw [hn]
                rintro ⟨h1, h2⟩
                simp only [List.length_append, List.length_cons] at h1 hlen
                exact hk ⟨by omega, h2⟩
              rw [stripFrom_bad hx hd hk, stripFrom_bad hx hd' hk', hn, ← List.cons_append,
                List.drop_append_of_le_length hlen]
              have := nextLen_pos x r
              exact (List.prefix_append_right_inj _).mpr (ih _ _ _ (by
                simp only [List.length_drop, List.length_cons]; omega))
      · rw [List.cons_append, stripFrom_cons hs, stripFrom_cons hs]
        exact (List.prefix_append_right_inj _).mpr (ih _ _ _ (by omega))

/-! ## One character, one sequence -/

theorem encodeChar_cons (c : Char) : ∃ a t, encodeChar c = a :: t ∧ (a.toNat = 0x1B → c.toNat = 0x1B) := by
  cases h : encodeChar c with
  | nil => exact absurd h (encodeChar_ne_nil c)
  | cons a t =>
    refine ⟨a, t, rfl, fun ha => ?_⟩
    have := mem_encodeChar_ascii (c := c) (b := a) (by rw [h]; simp) (by omega)
    omega

theorem stripFrom_encodeChar {c : Char} (h : c.toNat ≠ 0x1B) (b : Bytes) :
    stripFrom .ground (encodeChar c ++ b) = groundChar c ++ stripFrom .ground b := by
  obtain ⟨a, t, he, ha⟩ := encodeChar_cons c
  have hd := decodeOne_encodeChar c b
  rw [he, List.cons_append] at hd ⊢
  exact stripFrom_char (fun h' => h (ha h')) hd

theorem stripFrom_bytes {s : VState} (hs : s ≠ .ground) {p : Bytes} (h : ∀ x ∈ p, vteStep s x = (s, [])) (b : Bytes) :
    stripFrom s (p ++ b) = stripFrom s b := by
  induction p with
  | nil => rfl
  | cons x p ih =>
    rw [List.cons_append, stripFrom_cons hs, h x (by simp)]
    exact ih fun y hy => h y (by simp [hy])

theorem toNat_ne {x y : UInt8} (h : x ≠ y) : x.toNat ≠ y.toNat := fun he => h (UInt8.toNat_inj.mp he)

/-- Bytes some of which do not count. -/
theorem stripFrom_mixed (K : VState → Prop) (P : UInt8 → Prop) (hK : ∀ s, K s → s ≠ .ground)
    (hskip : ∀ s x, K s → Spec.Counts x = false → vteStep s x = (s, execute x))
    (hstep : ∀ s x, K s → P x → K (vteStep s x).1 ∧ (vteStep s x).2 = []) (m : Bytes) {s : VState} (hs : K s)
    (hm : ∀ x ∈ m.filter Spec.Counts, P x) :
    ∃ s', K s' ∧ ∀ r, stripFrom s (m ++ r) = (m.filter (fun x => x == 10)) ++ stripFrom s' r := by
  induction m generalizing s with
  | nil => exact ⟨s, hs, fun r => rfl⟩
  | cons x m ih =>
    cases hx : Spec.Counts x with
    | true =>
      rw [List.filter_cons_of_pos hx] at hm
      obtain ⟨g1, g2⟩ := hstep s x hs (hm x (by simp))
      obtain ⟨s', h1, h2⟩ := ih g1 fun y hy => hm y (by simp [hy])
      refine ⟨s', h1, fun r => ?_⟩
      have hne : (x == 10) = false := by
        rw [beq_eq_false_iff_ne]
        rintro rfl
        revert hx
        decide
      rw [List.cons_append, stripFrom_cons (hK s hs), g2, h2, List.filter_cons_of_neg (by simp [hne])]
      rfl
    | false =>
      rw [List.filter_cons_of_neg (by simp [hx])] at hm
      obtain ⟨s', h1, h2⟩ := ih hs hm
      refine ⟨s', h1, fun r => ?_⟩
      rw [List.cons_append, stripFrom_cons (hK s hs), hskip s x hs hx, h2]
      unfold execute
      by_cases he : x = 10
      · simp [he]
      · simp [he]

theorem counts_false {x : UInt8} (h : Spec.Counts x = false) :
    (x.toNat ≤ 0x17 ∨ x.toNat = 0x19 ∨ (0x1C ≤ x.toNat ∧ x.toNat ≤ 0x1F)) ∨ x.toNat = 0x7F := by
  unfold Spec.Counts at h
  simp only [Bool.or_eq_false_iff, Bool.and_eq_false_iff, decide_eq_false_iff_not, bne_eq_false_iff_eq, beq_eq_false_iff_ne] at h
  obtain ⟨⟨⟨h1, h2⟩, h3⟩, h4⟩ := h
  have h2 : x.toNat ≠ 0x18 := toNat_ne h2
  have h3 : x.toNat ≠ 0x1A := toNat_ne h3
  have h4 : x.toNat ≠ 0x1B := toNat_ne h4
  omega

theorem execute_del {x : UInt8} (h : x.toNat = 0x7F) : execute x = [] := by
  unfold execute
  rw [if_neg]
  rintro rfl
  exact absurd h (by decide)

macro "vte_cases" : tactic => `(tactic|
  (simp only [vteStep, isC0, between, Bool.or_eq_true, Bool.and_eq_true, decide_eq_true_eq, beq_iff_eq, anywhere]
   (repeat' split) <;> first | (exfalso; omega) | rfl))

/-- The states inside a control sequence. -/
def inCsi (s : VState) : Prop := s = .csiEntry ∨ s = .csiParam ∨ s = .csiIgnore ∨ s = .csiInt

theorem inCsi_ne {s : VState} (h : inCsi s) : s ≠ .ground := by rcases h with rfl | rfl | rfl | rfl <;> decide

theorem step_csi {s : VState} (h : inCsi s) {x : UInt8} (h1 : 0x20 ≤ x.toNat) (h2 : x.toNat < 0x40) :
    inCsi (vteStep s x).1 ∧ (vteStep s x).2 = [] := by
  rcases h with rfl | rfl | rfl | rfl <;>
    simp only [vteStep, isC0, between, Bool.or_eq_true, Bool.and_eq_true, decide_eq_true_eq, beq_iff_eq, anywhere] <;>
    (repeat' split) <;> first | (exfalso; omega) | simp [inCsi]

theorem step_csi_final {s : VState} (h : inCsi s) {x : UInt8} (h1 : 0x40 ≤ x.toNat) (h2 : x.toNat < 0x7F) :
    vteStep s x = (.ground, []) := by
  rcases h with rfl | rfl | rfl | rfl <;> vte_cases

theorem skip_csi {s : VState} (h : inCsi s) {x : UInt8} (hx : Spec.Counts x = false) : vteStep s x = (s, execute x) := by
  rcases counts_false hx with hx | hx
  · rcases h with rfl | rfl | rfl | rfl <;> vte_cases
  · rw [execute_del hx]
    rcases h with rfl | rfl | rfl | rfl <;> vte_cases

theorem skip_escape {x : UInt8} (hx : Spec.Counts x = false) : vteStep .escape x = (.escape, execute x) := by
  rcases counts_false hx with hx | hx
  · vte_cases
  · rw [execute_del hx]
    vte_cases

theorem skip_escapeInt {x : UInt8} (hx : Spec.Counts x = false) : vteStep .escapeInt x = (.escapeInt, execute x) := by
  rcases counts_false hx with hx | hx
  · vte_cases
  · rw [execute_del hx]
    vte_cases

theorem stripFrom_escape {m : Bytes} (hm : m.filter Spec.Counts = []) (r : Bytes) :
    stripFrom .escape (m ++ r) = (m.filter (fun x => x == 10)) ++ stripFrom .escape r := by
  obtain ⟨s', h1, h2⟩ := stripFrom_mixed (· = .escape) (fun _ => False) (by rintro s rfl; decide)
    (by rintro s x rfl hx; exact skip_escape hx) (fun _ _ _ h => h.elim) m rfl (by rw [hm]; simp)
  rw [h2, h1]

theorem stripFrom_csi {m : Bytes} (hm : ∀ x ∈ m.filter Spec.Counts, 0x20 ≤ x.toNat ∧ x.toNat < 0x40) (f : UInt8)
    (h1 : 0x40 ≤ f.toNat) (h2 : f.toNat < 0x7F) (b : Bytes) :
    stripFrom .csiEntry (m ++ f :: b) = (m.filter (fun x => x == 10)) ++ stripFrom .ground b := by
  obtain ⟨s', g1, g2⟩ := stripFrom_mixed inCsi (fun x => 0x20 ≤ x.toNat ∧ x.toNat < 0x40) (fun _ => inCsi_ne)
    (fun _ _ h hx => skip_csi h hx) (fun _ _ h hx => step_csi h hx.1 hx.2) m (.inl rfl) hm
  rw [g2, stripFrom_cons (inCsi_ne g1), step_csi_final g1 h1 h2]
  rfl

theorem step_escapeInt {x : UInt8} (h1 : 0x20 ≤ x.toNat) (h2 : x.toNat < 0x30) : vteStep .escapeInt x = (.escapeInt, []) := by
  vte_cases

theorem step_escape_int {x : UInt8} (h1 : 0x20 ≤ x.toNat) (h2 : x.toNat < 0x30) : vteStep .escape x = (.escapeInt, []) := by
  vte_cases

theorem step_escapeInt_final {x : UInt8} (h1 : 0x30 ≤ x.toNat) (h2 : x.toNat < 0x7F) :
    vteStep .escapeInt x = (.ground, []) := by vte_cases

theorem stripFrom_escapeInt {m : Bytes} (hm : ∀ x ∈ m.filter Spec.Counts, 0x20 ≤ x.toNat ∧ x.toNat < 0x30) (f : UInt8)
    (h1 : 0x30 ≤ f.toNat) (h2 : f.toNat < 0x7F) (b : Bytes) :
    stripFrom .escapeInt (m ++ f :: b) = (m.filter (fun x => x == 10)) ++ stripFrom .ground b := by
  obtain ⟨s', g1, g2⟩ := stripFrom_mixed (· = .escapeInt) (fun x => 0x20 ≤ x.toNat ∧ x.toNat < 0x30)
    (by rintro s rfl; decide) (by rintro s x rfl hx; exact skip_escapeInt hx)
    (by rintro s x rfl hx; rw [step_escapeInt hx.1 hx.2]; exact ⟨rfl, rfl⟩) m rfl hm
  rw [g2, g1, stripFrom_cons (by decide), step_escapeInt_final h1 h2]
  rfl

theorem step_escape_final {x : UInt8} (h1 : 0x30 ≤ x.toNat) (h2 : x.toNat < 0x7F)
    (hx : x ∉ ([0x50, 0x58, 0x5B, 0x5D, 0x5E, 0x5F] : List UInt8)) : vteStep .escape x = (.ground, []) := by
  simp only [List.mem_cons, List.not_mem_nil, or_false, not_or] at hx
  obtain ⟨a1, a2, a3, a4, a5, a6⟩ := hx
  have a1 : x.toNat ≠ 0x50 := toNat_ne a1
  have a2 : x.toNat ≠ 0x58 := toNat_ne a2
  have a3 : x.toNat ≠ 0x5B := toNat_ne a3
  have a4 : x.toNat ≠ 0x5D := toNat_ne a4
  have a5 : x.toNat ≠ 0x5E := toNat_ne a5
  have a6 : x.toNat ≠ 0x5F := toNat_ne a6
  vte_cases

theorem step_osc {x : UInt8} (h : x ∉ ([7, 0x18, 0x1A, 0x1B] : List UInt8)) : vteStep .osc x = (.osc, []) := by
  simp only [List.mem_cons, List.not_mem_nil, or_false, not_or] at h
  obtain ⟨a1, a2, a3, a4⟩ := h
  have a1 : x.toNat ≠ 7 := toNat_ne a1
  have a2 : x.toNat ≠ 0x18 := toNat_ne a2
  have a3 : x.toNat ≠ 0x1A := toNat_ne a3
  have a4 : x.toNat ≠ 0x1B := toNat_ne a4
  vte_cases

/-- The states inside a control string. -/
def inString (s : VState) : Prop :=
  s = .dcsEntry ∨ s = .dcsParam ∨ s = .dcsInt ∨ s = .dcsIgnore ∨ s = .dcsPass ∨ s = .sosPmApc

theorem inString_ne {s : VState} (h : inString s) : s ≠ .ground := by
  rcases h with rfl | rfl | rfl | rfl | rfl | rfl <;> decide

theorem step_string {s : VState} (h : inString s) {x : UInt8} (h1 : x.toNat < 0x80)
    (h2 : x ∉ ([0x18, 0x1A, 0x1B] : List UInt8)) : inString (vteStep s x).1 ∧ (vteStep s x).2 = [] := by
  simp only [List.mem_cons, List.not_mem_nil, or_false, not_or] at h2
  obtain ⟨a1, a2, a3⟩ := h2
  have a1 : x.toNat ≠ 0x18 := toNat_ne a1
  have a2 : x.toNat ≠ 0x1A := toNat_ne a2
  have a3 : x.toNat ≠ 0x1B := toNat_ne a3
  rcases h with rfl | rfl | rfl | rfl | rfl | rfl <;>
    simp only [vteStep, isC0, between, Bool.or_eq_true, Bool.and_eq_true, decide_eq_true_eq, beq_iff_eq, anywhere] <;>
    (repeat' split) <;> first | (exfalso; omega) | simp [inString]

theorem step_string_esc {s : VState} (h : inString s) : vteStep s 0x1B = (.escape, []) := by
  rcases h with rfl | rfl | rfl | rfl | rfl | rfl <;> decide +kernel

/-- Bytes that are passed over while the state stays in `K`. -/
theorem stripFrom_stay (K : VState → Prop) (P : UInt8 → Prop) (hK : ∀ s, K s → s ≠ .ground)
    (hstep : ∀ s x, K s → P x → K (vteStep s x).1 ∧ (vteStep s x).2 = []) {s : VState} (h : K s) (t : Bytes)
    (ht : ∀ x ∈ t, P x) (r : Bytes) : ∃ s', K s' ∧ stripFrom s (t ++ r) = stripFrom s' r := by
  induction t generalizing s with
  | nil => exact ⟨s, h, rfl⟩
  | cons x t ih =>
    obtain ⟨g1, g2⟩ := hstep s x h (ht x (by simp))
    obtain ⟨s', h1, h2⟩ := ih g1 fun y hy => ht y (by simp [hy])
    exact ⟨s', h1, by rw [List.cons_append, stripFrom_cons (hK s h), g2, List.nil_append, h2]⟩

theorem stripFrom_string_end {s : VState} (h : inString s) (b : Bytes) :
    stripFrom s (0x1B :: 0x5C :: b) = stripFrom .ground b := by
  rw [stripFrom_cons (inString_ne h), step_string_esc h, List.nil_append, stripFrom_cons (by decide)]
  have : vteStep .escape 0x5C = (.ground, []) := by decide +kernel
  rw [this]
  rfl

theorem stripFrom_string {s : VState} (h : inString s) (t : Bytes)
    (ht : ∀ x ∈ t, x.toNat < 0x80 ∧ x ∉ ([0x18, 0x1A, 0x1B] : List UInt8)) (b : Bytes) :
    stripFrom s (t ++ 0x1B :: 0x5C :: b) = stripFrom .ground b := by
  obtain ⟨s', h1, h2⟩ := stripFrom_stay inString _ (fun _ => inString_ne) (fun _ _ hs hx => step_string hs hx.1 hx.2) h t ht
    (0x1B :: 0x5C :: b)
  rw [h2, stripFrom_string_end h1]

/-- Strings other than DCS may contain any bytes. -/
theorem stripFrom_sosPmApc (t : Bytes) (ht : ∀ x ∈ t, x ∉ ([0x18, 0x1A, 0x1B] : List UInt8)) (b : Bytes) :
    stripFrom .sosPmApc (t ++ 0x1B :: 0x5C :: b) = stripFrom .ground b := by
  rw [stripFrom_bytes (by decide) fun x hx => ?_, stripFrom_string_end (by simp [inString])]
  have h2 := ht x hx
  simp only [List.mem_cons, List.not_mem_nil, or_false, not_or] at h2
  obtain ⟨a1, a2, a3⟩ := h2
  have a1 : x.toNat ≠ 0x18 := toNat_ne a1
  have a2 : x.toNat ≠ 0x1A := toNat_ne a2
  have a3 : x.toNat ≠ 0x1B := toNat_ne a3
  vte_cases

/-- The states at the beginning of a device control string, and after its final byte. -/
def inDcs (s : VState) : Prop := s = .dcsEntry ∨ s = .dcsParam ∨ s = .dcsInt ∨ s = .dcsIgnore

def inDcsData (s : VState) : Prop := s = .dcsPass ∨ s = .dcsIgnore

theorem inDcs_ne {s : VState} (h : inDcs s) : s ≠ .ground := by rcases h with rfl | rfl | rfl | rfl <;> decide

theorem inDcsData_ne {s : VState} (h : inDcsData s) : s ≠ .ground := by rcases h with rfl | rfl <;> decide

theorem step_dcs {s : VState} {x : UInt8} (h : inDcs s) (h1 : 0x20 ≤ x.toNat ∧ x.toNat < 0x40) :
    inDcs (vteStep s x).1 ∧ (vteStep s x).2 = [] := by
  rcases h with rfl | rfl | rfl | rfl <;>
    simp only [vteStep, isC0, between, Bool.or_eq_true, Bool.and_eq_true, decide_eq_true_eq, beq_iff_eq, anywhere] <;>
    (repeat' split) <;> first | (exfalso; omega) | simp [inDcs]

theorem step_dcs_final {s : VState} {x : UInt8} (h : inDcs s) (h1 : 0x40 ≤ x.toNat) (h2 : x.toNat < 0x7F) :
    inDcsData (vteStep s x).1 ∧ (vteStep s x).2 = [] := by
  rcases h with rfl | rfl | rfl | rfl <;>
    simp only [vteStep, isC0, between, Bool.or_eq_true, Bool.and_eq_true, decide_eq_true_eq, beq_iff_eq, anywhere] <;>
    (repeat' split) <;> first | (exfalso; omega) | simp [inDcsData]

theorem step_dcs_data {s : VState} {x : UInt8} (h : inDcsData s) (h2 : x ∉ ([0x18, 0x1A, 0x1B, 0x9C] : List UInt8)) :
    inDcsData (vteStep s x).1 ∧ (vteStep s x).2 = [] := by
  simp only [List.mem_cons, List.not_mem_nil, or_false, not_or] at h2
  obtain ⟨a1, a2, a3, a4⟩ := h2
  have a1 : x.toNat ≠ 0x18 := toNat_ne a1
  have a2 : x.toNat ≠ 0x1A := toNat_ne a2
  have a3 : x.toNat ≠ 0x1B := toNat_ne a3
  have a4 : x.toNat ≠ 0x9C := toNat_ne a4
  rcases h with rfl | rfl <;>
    simp only [vteStep, isC0, between, Bool.or_eq_true, Bool.and_eq_true, decide_eq_true_eq, beq_iff_eq, anywhere] <;>
    (repeat' split) <;> first | (exfalso; omega) | simp [inDcsData]

theorem stripFrom_device {p i t : Bytes} {f : UInt8} (hp : ∀ x ∈ p, 0x30 ≤ x.toNat ∧ x.toNat < 0x40)
    (hi : ∀ x ∈ i, 0x20 ≤ x.toNat ∧ x.toNat < 0x30) (h1 : 0x40 ≤ f.toNat) (h2 : f.toNat < 0x7F)
    (ht : ∀ x ∈ t, x ∉ ([0x18, 0x1A, 0x1B, 0x9C] : List UInt8)) (b : Bytes) :
    stripFrom .dcsEntry ((p ++ i) ++ f :: (t ++ 0x9C :: b)) = stripFrom .ground b := by
  obtain ⟨s, k1, k2⟩ := stripFrom_stay inDcs _ (fun _ => inDcs_ne) (fun _ _ hs hx => step_dcs hs hx) (s := .dcsEntry)
    (.inl rfl) (p ++ i) (by
      intro x hx
      rcases List.mem_append.mp hx with hx | hx
      · have := hp x hx; omega
      · have := hi x hx; omega) (f :: (t ++ 0x9C :: b))
  obtain ⟨m1, m2⟩ := step_dcs_final k1 h1 h2
  obtain ⟨s', n1, n2⟩ := stripFrom_stay inDcsData _ (fun _ => inDcsData_ne) (fun _ _ hs hx => step_dcs_data hs hx) m1 t ht
    (0x9C :: b)
  rw [k2, stripFrom_cons (inDcs_ne k1), m2, List.nil_append, n2, stripFrom_cons (inDcsData_ne n1)]
  have e1 : vteStep .dcsPass 0x9C = (.ground, []) := by decide +kernel
  have e2 : vteStep .dcsIgnore 0x9C = (.ground, []) := by decide +kernel
  rcases n1 with rfl | rfl
  · rw [e1]; rfl
  · rw [e2]; rfl

theorem step_cancel {s : VState} (hs : s ≠ .ground) {x : UInt8} (hx : x.toNat = 0x18 ∨ x.toNat = 0x1A) :
    vteStep s x = (.ground, []) := by
  have he : execute x = [] := by
    unfold execute
    rw [if_neg]
    rintro rfl
    exact absurd hx (by decide)
  cases s <;> first | exact absurd rfl hs | skip
  all_goals
    simp only [vteStep, isC0, between, Bool.or_eq_true, Bool.and_eq_true, decide_eq_true_eq, beq_iff_eq, anywhere, he]
    (repeat' split) <;> first | (exfalso; omega) | rfl

end TF
