import Verif.Lemmas.Strip
import Verif.Spec.Strip
import Verif.Props.Exact
import Verif.Props.Report

/-!
# C88: what the width of a line counts

The theorems about the user interface hold for any way of counting what a line shows that satisfies `VisMono` (and
`VisPlain`). These are proved here of `strip_ansi_escapes::strip`, which the code uses.
-/

namespace TF

open Spec

/-- A longer text shows what the shorter one shows, and perhaps more. -/
theorem C88_prefix (a b : Bytes) : stripAnsi a <+: stripAnsi (a ++ b) := by
  rw [stripAnsi_eq, stripAnsi_eq]
  exact stripFrom_prefix a.length _ _ _ (Nat.le_refl _)

theorem C88_mono : VisMono shownLen := fun a b => (C88_prefix a b).length_le

theorem control_iff (c : Char) : Control c ↔ c.toNat ≤ 0x1F ∨ (0x80 ≤ c.toNat ∧ c.toNat ≤ 0x9F) := by
  unfold Control
  omega

theorem groundChar_plain {c : Char} (h : ¬ Control c) : groundChar c = encodeChar c := by
  unfold groundChar
  rw [if_neg fun h' => h ((control_iff c).mpr h')]

theorem char_eq_newline {c : Char} (h : c.toNat = 10) : c = '\n' := by
  have := Char.ofNat_toNat c
  rw [h] at this
  exact this.symm

theorem groundChar_control {c : Char} (h : Control c) (hn : c ≠ '\n') : groundChar c = [] := by
  unfold groundChar
  rw [if_pos ((control_iff c).mp h), execute, if_neg]
  intro he
  have h' := congrArg UInt8.toNat he
  rw [toNat_ofNat_lt (by have := (control_iff c).mp h; omega)] at h'
  exact hn (char_eq_newline h')

theorem utf8Encode_lineFeeds (e : Bytes) : utf8Encode (lineFeeds e) = e.filter (· == 10) := by
  unfold lineFeeds
  induction e with
  | nil => rfl
  | cons x e ih =>
    by_cases hx : x = 10
    · subst hx
      have he : encodeChar '\n' = [10] := by decide +kernel
      rw [List.filter_cons_of_pos (by decide), List.map_cons, utf8Encode, List.flatMap_cons, he]
      exact congrArg (10 :: ·) ih
    · rw [List.filter_cons_of_neg (by simp [hx])]
      exact ih

/-- Characters are shown, control characters except line feeds are not, and neither are control sequences, operating
system commands, control strings and other escape sequences. -/
theorem C88_displays {b : Bytes} {s : Str} (h : Displays b s) : stripAnsi b = utf8Encode s := by
  rw [stripAnsi_eq]
  induction h with
  | nil => rfl
  | @char c b s hc h ih =>
    rw [stripFrom_encodeChar (by unfold Control at hc; omega), ih, groundChar_plain hc]
    simp [utf8Encode]
  | @newline b s h ih =>
    have he : encodeChar '\n' = [10] := by decide +kernel
    have := stripFrom_encodeChar (c := '\n') (by decide) b
    rw [he] at this
    rw [show (10 :: b : Bytes) = [10] ++ b from rfl, this, ih]
    rfl
  | @control c b s hc hn he h ih =>
    rw [stripFrom_encodeChar he, ih, groundChar_control hc hn]
    rfl
  | @sequence e b s he h ih =>
    obtain ⟨m, p, i, f, rfl, hm, hp, hi, h1, h2⟩ := he
    obtain ⟨m1, m2, rfl, hm1, -, hm2⟩ := List.filter_eq_cons_iff.mp hm
    have hm1 : m1.filter Counts = [] := List.filter_eq_nil_iff.mpr hm1
    have hf : (f == 10) = false := by rw [beq_eq_false_iff_ne]; rintro rfl; exact absurd h1 (by decide)
    have e1 : 0x1B :: (m1 ++ 0x5B :: m2) ++ [f] ++ b = (0x1B : UInt8) :: (m1 ++ (0x5B : UInt8) :: (m2 ++ f :: b)) := by simp
    rw [e1, stripFrom_esc _ _ (by decide), stripFrom_escape hm1, stripFrom_cons (by decide)]
    have e2 : vteStep .escape 0x5B = (.csiEntry, []) := by decide +kernel
    rw [e2, List.nil_append, stripFrom_csi (m := m2) ?_ f h1 h2 b, ih, utf8Encode_append, utf8Encode_lineFeeds]
    · have e3 : (0x1B :: (m1 ++ 0x5B :: m2) ++ [f]).filter (· == 10) =
          m1.filter (fun x => x == 10) ++ m2.filter (fun x => x == 10) := by
        simp [List.filter_append, List.filter_cons, hf]
      rw [e3, List.append_assoc]
    · rw [hm2]
      intro x hx
      rcases List.mem_append.mp hx with hx | hx
      · have := hp x hx; omega
      · have := hi x hx; omega
  | @command e b s he h ih =>
    obtain ⟨t, z, rfl, ht, hz⟩ := he
    have e1 : [0x1B, 0x5D] ++ t ++ z ++ b = (0x1B : UInt8) :: (0x5D : UInt8) :: (t ++ (z ++ b)) := by simp
    rw [e1, stripFrom_esc _ _ (by decide), stripFrom_cons (by decide)]
    have e2 : vteStep .escape 0x5D = (.osc, []) := by decide +kernel
    rw [e2, List.nil_append, stripFrom_bytes (by decide) (fun x hx => step_osc (ht x hx))]
    rcases hz with rfl | rfl
    · rw [List.singleton_append, stripFrom_cons (by decide)]
      have e3 : vteStep .osc 7 = (.ground, []) := by decide +kernel
      rw [e3, List.nil_append, ih]
    · rw [show ([0x1B, 0x5C] ++ b : Bytes) = 0x1B :: 0x5C :: b from rfl, stripFrom_cons (by decide)]
      have e3 : vteStep .osc 0x1B = (.escape, []) := by decide +kernel
      rw [e3, List.nil_append, stripFrom_cons (by decide)]
      have e4 : vteStep .escape 0x5C = (.ground, []) := by decide +kernel
      rw [e4, List.nil_append, ih]
  | @string e b s he h ih =>
    obtain ⟨o, t, rfl, ho, ht⟩ := he
    have e1 : [0x1B, o] ++ t ++ [0x1B, 0x5C] ++ b = (0x1B : UInt8) :: o :: (t ++ 0x1B :: 0x5C :: b) := by simp
    rw [e1, stripFrom_esc _ _ (by decide), stripFrom_cons (by decide)]
    simp only [List.mem_cons, List.not_mem_nil, or_false] at ho
    have p1 : vteStep .escape 0x50 = (.dcsEntry, []) := by decide +kernel
    have p2 : vteStep .escape 0x58 = (.sosPmApc, []) := by decide +kernel
    have p3 : vteStep .escape 0x5E = (.sosPmApc, []) := by decide +kernel
    have p4 : vteStep .escape 0x5F = (.sosPmApc, []) := by decide +kernel
    rcases ho with rfl | rfl | rfl | rfl
    · rw [p1, List.nil_append, stripFrom_string (by simp [inString]) t fun x hx => ⟨(ht x hx).1.resolve_right (by simp), (ht x hx).2⟩, ih]
    · rw [p2, List.nil_append, stripFrom_sosPmApc t fun x hx => (ht x hx).2, ih]
    · rw [p3, List.nil_append, stripFrom_sosPmApc t fun x hx => (ht x hx).2, ih]
    · rw [p4, List.nil_append, stripFrom_sosPmApc t fun x hx => (ht x hx).2, ih]
  | @device e b s he h ih =>
    obtain ⟨p, i, f, t, rfl, hp, hi, h1, h2, ht⟩ := he
    have e1 : [0x1B, 0x50] ++ p ++ i ++ [f] ++ t ++ [0x9C] ++ b =
        (0x1B : UInt8) :: (0x50 : UInt8) :: ((p ++ i) ++ f :: (t ++ 0x9C :: b)) := by simp
    have p1 : vteStep .escape 0x50 = (.dcsEntry, []) := by decide +kernel
    rw [e1, stripFrom_esc _ _ (by decide), stripFrom_cons (by decide), p1, List.nil_append, stripFrom_device hp hi h1 h2 ht, ih]
  | @escape e b s he h ih =>
    obtain ⟨m, i, f, rfl, hm, hi, h1, h2, hf⟩ := he
    have hf10 : (f == 10) = false := by rw [beq_eq_false_iff_ne]; rintro rfl; exact absurd h1 (by decide)
    cases i with
    | nil =>
      have e1 : 0x1B :: m ++ [f] ++ b = (0x1B : UInt8) :: (m ++ f :: b) := by simp
      rw [e1, stripFrom_esc _ _ (by decide), stripFrom_escape hm, stripFrom_cons (by decide),
        step_escape_final h1 h2 (hf rfl), List.nil_append, ih, utf8Encode_append, utf8Encode_lineFeeds]
      congr 1
      simp [List.filter_append, List.filter_cons, hf10]
    | cons x i =>
      obtain ⟨m1, m2, rfl, hm1, -, hm2⟩ := List.filter_eq_cons_iff.mp hm
      have hm1 : m1.filter Counts = [] := List.filter_eq_nil_iff.mpr hm1
      have hx := hi x (by simp)
      have hx10 : (x == 10) = false := by rw [beq_eq_false_iff_ne]; rintro rfl; exact absurd hx.1 (by decide)
      have e1 : 0x1B :: (m1 ++ x :: m2) ++ [f] ++ b = (0x1B : UInt8) :: (m1 ++ x :: (m2 ++ f :: b)) := by simp
      rw [e1, stripFrom_esc _ _ (by decide), stripFrom_escape hm1, stripFrom_cons (by decide), step_escape_int hx.1 hx.2,
        List.nil_append, stripFrom_escapeInt (m := m2) (by
          rw [hm2]
          intro y hy
          exact hi y (by simp [hy])) f h1 h2, ih, utf8Encode_append, utf8Encode_lineFeeds]
      have e3 : (0x1B :: (m1 ++ x :: m2) ++ [f]).filter (· == 10) =
          m1.filter (fun x => x == 10) ++ m2.filter (fun x => x == 10) := by
        simp [List.filter_append, List.filter_cons, hf10, hx10]
      rw [e3, List.append_assoc]

/-- Text without control characters. -/
def Spec.PlainText (s : Str) : Prop := ∀ c ∈ s, ¬ Control c

theorem displays_plain {s : Str} (h : PlainText s) : Displays (utf8Encode s) s := by
  induction s with
  | nil => exact .nil
  | cons c s ih =>
    have he : utf8Encode (c :: s) = encodeChar c ++ utf8Encode s := by simp [utf8Encode]
    rw [he]
    exact .char (h c (by simp)) (ih fun d hd => h d (by simp [hd]))

/-- Plain text is shown as it is. -/
theorem C88_plain_text {s : Str} (h : PlainText s) : stripAnsi (utf8Encode s) = utf8Encode s :=
  C88_displays (displays_plain h)

theorem encodeChar_ofNat {x : UInt8} (h : x.toNat < 128) : encodeChar (Char.ofNat x.toNat) = [x] ∧
    (Char.ofNat x.toNat).toNat = x.toNat := by
  have hv := toNat_ofNat_valid (n := x.toNat) (by left; omega)
  refine ⟨?_, hv⟩
  unfold encodeChar
  simp only [hv, h, if_true]
  simp

theorem C88_plain : VisPlain shownLen := by
  intro b hb
  have h : ∃ s, PlainText s ∧ utf8Encode s = b := by
    refine ⟨b.map fun x => Char.ofNat x.toNat, ?_, ?_⟩
    · intro c hc
      obtain ⟨x, hx, rfl⟩ := List.mem_map.mp hc
      have h1 := hb x hx
      rw [Control, (encodeChar_ofNat (by omega)).2]
      omega
    · induction b with
      | nil => rfl
      | cons x b ih =>
        have h1 := hb x (by simp)
        simp only [List.map_cons, utf8Encode, List.flatMap_cons]
        rw [(encodeChar_ofNat (by omega)).1]
        exact congrArg (x :: ·) (ih fun y hy => hb y (by simp [hy]))
  obtain ⟨s, h1, rfl⟩ := h
  exact congrArg List.length (C88_plain_text h1)

/-! ## Cutting a coloured line -/

theorem vteStep_length (s : VState) (x : UInt8) : (vteStep s x).2.length ≤ 1 := by
  have he : (execute x).length ≤ 1 := by unfold execute; split <;> simp
  cases s <;> simp only [vteStep, anywhere] <;> (repeat' split) <;> first | exact he | simp

theorem groundChar_length {x : UInt8} (h : x.toNat < 128) : (groundChar (Char.ofNat x.toNat)).length ≤ 1 := by
  unfold groundChar
  split
  · unfold execute; split <;> simp
  · rw [(encodeChar_ofNat h).1]; simp

theorem decodeOne_ascii {x : UInt8} (h : x.toNat < 128) (r : Bytes) : decodeOne (x :: r) = some (Char.ofNat x.toNat, r) := by
  have := decodeOne_encodeChar (Char.ofNat x.toNat) r
  rw [(encodeChar_ofNat h).1] at this
  exact this

/-- One more ASCII byte shows at most one byte more. -/
theorem stripFrom_snoc (a : Bytes) (ha : Ascii a) (x : UInt8) (hx : x.toNat < 0x80) (s : VState) :
    (stripFrom s (a ++ [x])).length ≤ (stripFrom s a).length + 1 := by
  induction a generalizing s with
  | nil =>
    rw [List.nil_append]
    by_cases hs : s = .ground
    · subst hs
      by_cases he : x.toNat = 0x1B
      · rw [stripFrom_esc _ _ he]; simp
      · rw [stripFrom_char he (decodeOne_ascii hx [])]
        simpa using groundChar_length hx
    · rw [stripFrom_cons hs]
      simpa using vteStep_length s x
  | cons y a ih =>
    have hy : y.toNat < 128 := ha y (by simp)
    have ih := fun s => ih (fun z hz => ha z (by simp [hz])) s
    rw [List.cons_append]
    by_cases hs : s = .ground
    · subst hs
      by_cases he : y.toNat = 0x1B
      · rw [stripFrom_esc _ _ he, stripFrom_esc _ _ he]; exact ih _
      · rw [stripFrom_char he (decodeOne_ascii hy _), stripFrom_char he (decodeOne_ascii hy _)]
        simp only [List.length_append]
        have := ih .ground
        omega
    · rw [stripFrom_cons hs, stripFrom_cons hs]
      simp only [List.length_append]
      have := ih (vteStep s y).1
      omega

/-- An ASCII line, coloured or not, is cut to a width without a panic, so that what is left of it shows the first `width`
bytes that the line shows. -/
theorem C88_cut (b : Bytes) (hb : Ascii b) (width : Nat) :
    ∃ p, prefixWithWidth shownLen b width = .ok p ∧ p <+: b ∧ stripAnsi p = (stripAnsi b).take width := by
  obtain ⟨p, h1, ⟨t, rfl⟩, h2, h3⟩ := C45_truncation_ascii shownLen C88_mono b hb width
  refine ⟨p, h1, ⟨t, rfl⟩, ?_⟩
  have hpre := C88_prefix p t
  suffices hl : (stripAnsi p).length = min width (stripAnsi (p ++ t)).length by
    have := List.prefix_iff_eq_take.mp hpre
    rw [this, hl]
    exact List.take_eq_take_min.symm
  rcases h2 with h2 | ⟨h2, h4⟩
  · have hle : shownLen p ≤ width := by
      rcases List.eq_nil_or_concat p with rfl | ⟨q, x, rfl⟩
      · simp [shownLen, stripAnsi_eq]
      · have hq := h3 q ⟨x :: t, by simp⟩ (by simp)
        have hx : x.toNat < 0x80 := hb x (by simp)
        have := stripFrom_snoc q (fun y hy => hb y (by simp [hy])) x hx .ground
        rw [List.concat_eq_append]
        simp only [shownLen, stripAnsi_eq] at hq ⊢
        omega
    have hm := hpre.length_le
    simp only [shownLen] at h2 hle
    omega
  · have : shownLen (p ++ t) = (stripAnsi p).length := by rw [shownLen, ← h2]
    simp only [shownLen] at h4 this
    omega

/-- A line of text that displays `s` is cut so that it displays the first `width` characters of it. -/
theorem C88_cut_text {b : Bytes} (hb : Ascii b) {s : Str} (h : Displays b s) (hs : Ascii (utf8Encode s)) (width : Nat) :
    ∃ p, prefixWithWidth shownLen b width = .ok p ∧ p <+: b ∧ stripAnsi p = utf8Encode (s.take width) := by
  obtain ⟨p, h1, h2, h3⟩ := C88_cut b hb width
  refine ⟨p, h1, h2, ?_⟩
  rw [h3, C88_displays h]
  clear h h1 h2 h3 hb
  induction s generalizing width with
  | nil => simp [utf8Encode]
  | cons c s ih =>
    have he : ∀ s, utf8Encode (c :: s) = encodeChar c ++ utf8Encode s := fun s => by simp [utf8Encode]
    rw [he] at hs ⊢
    obtain ⟨a, t, hc, -⟩ := encodeChar_cons c
    have h1 := (mem_encodeChar_ascii (c := c) (b := a) (by rw [hc]; simp) (hs a (by rw [hc]; simp))).1
    rw [h1] at hs ⊢
    cases width with
    | zero => simp [utf8Encode]
    | succ width =>
      rw [List.singleton_append, List.take_succ_cons, List.take_succ_cons, he, h1, ih (fun x hx => hs x (by simp [hx]))]
      rfl

/-- Whatever sequence an ASCII text ends in, CAN or SUB ends it. -/
theorem C88_cancel (a : Bytes) (ha : Ascii a) (x : UInt8) (hx : x = 0x18 ∨ x = 0x1A) (b : Bytes) :
    stripAnsi (a ++ x :: b) = stripAnsi a ++ stripAnsi b := by
  have hx' : x.toNat = 0x18 ∨ x.toNat = 0x1A := by rcases hx with rfl | rfl <;> decide
  have h : ∀ s, stripFrom s (a ++ x :: b) = stripFrom s a ++ stripFrom .ground b := by
    induction a with
    | nil =>
      intro s
      rw [List.nil_append, stripFrom_nil, List.nil_append]
      by_cases hs : s = .ground
      · subst hs
        have hg : groundChar (Char.ofNat x.toNat) = [] := by rcases hx with rfl | rfl <;> decide +kernel
        rw [stripFrom_char (by omega) (decodeOne_ascii (by omega) b), hg]
        rfl
      · rw [stripFrom_cons hs, step_cancel hs hx']
        rfl
    | cons y a ih =>
      have hy : y.toNat < 128 := ha y (by simp)
      have ih := fun s => ih (fun z hz => ha z (by simp [hz])) s
      intro s
      rw [List.cons_append]
      by_cases hs : s = .ground
      · subst hs
        by_cases he : y.toNat = 0x1B
        · rw [stripFrom_esc _ _ he, stripFrom_esc _ _ he]; exact ih _
        · rw [stripFrom_char he (decodeOne_ascii hy _), stripFrom_char he (decodeOne_ascii hy _), ih, List.append_assoc]
      · rw [stripFrom_cons hs, stripFrom_cons hs, ih, List.append_assoc]
  exact h .ground

/-! ## Other text -/

/-- Nothing is shown of a part of a character. -/
theorem stripFrom_part {c : Char} {p : Bytes} (hp : p <+: encodeChar c) (hne : p ≠ encodeChar c) : stripFrom .ground p = [] := by
  cases p with
  | nil => simp
  | cons a r =>
    obtain ⟨t, ht⟩ := hp
    have htn : t ≠ [] := fun h => hne (by rw [← ht, h, List.append_nil])
    have hc : encodeChar c = a :: (r ++ t) := by rw [← ht]; rfl
    have hnone : decodeOne (a :: r) = none := by
      cases hd : decodeOne (a :: r) with
      | none => rfl
      | some q =>
        exfalso
        have h1 := decodeOne_append (t := t) (c := q.1) (r := q.2) hd
        rw [ht] at h1
        have h2 := decodeOne_encodeChar c []
        rw [List.append_nil] at h2
        rw [h2] at h1
        simp only [Option.some.injEq, Prod.mk.injEq] at h1
        have h3 := congrArg List.length h1.2
        have := List.length_pos_iff.mpr htn
        simp at h3
        omega
    have hrt : r ≠ r ++ t := fun h => htn (by simpa using h)
    have ha : a.toNat ≠ 0x1B ∧ utf8Width a ≠ 0 := by
      rcases encodeChar_first hc with ⟨-, h⟩ | ⟨h1, h2, -⟩ | ⟨h1, h2, -⟩ | ⟨h1, h2, -⟩
      · exact absurd (List.append_eq_nil_iff.mp h).2 htn
      all_goals exact ⟨by omega, by omega⟩
    refine stripFrom_cut ha.1 hnone ⟨?_, ha.2⟩
    rcases hn : nextLen a r with ⟨k, ok⟩
    have hf := nextLen_false_of_decode hnone
    rw [hn] at hf
    simp only at hf
    subst hf
    have h1 := (nextLen_false_bound hn hc (List.prefix_rfl) (List.prefix_append r t)).1
    have h2 := (nextLen_false_begins hn).1
    simp only [List.length_take, List.length_cons] at h2
    simp only
    omega

/-- The bytes of a character after its first one are inside it. -/
theorem encodeChar_inside_all (c : Char) {m : Nat} (h0 : 0 < m) (hm : m < (encodeChar c).length) : Inside (encodeChar c) m := by
  have hcont : ∀ b : UInt8, isCont b = true → 0x80 ≤ b.toNat ∧ b.toNat < 0xC0 := fun b hb => by
    simpa [isCont] using hb
  have h3 : ∀ a b : UInt8, second3 a b = true → 0x80 ≤ b.toNat ∧ b.toNat < 0xC0 := fun a b hb => by
    simp [second3] at hb; omega
  have h4 : ∀ a b : UInt8, second4 a b = true → 0x80 ≤ b.toNat ∧ b.toNat < 0xC0 := fun a b hb => by
    simp [second4] at hb; omega
  rcases encodeChar_shape c with ⟨a, h, -⟩ | ⟨a, b, h, -, -, hb⟩ | ⟨a, b, d, h, -, -, hb, hd⟩ |
    ⟨a, b, d, e, h, -, -, hb, hd, he⟩ <;> rw [h] at hm ⊢ <;> simp only [List.length_cons, List.length_nil] at hm
  · omega
  · have : m = 1 := by omega
    subst this
    exact ⟨b, rfl, hcont b hb⟩
  · have : m = 1 ∨ m = 2 := by omega
    rcases this with rfl | rfl
    · exact ⟨b, rfl, h3 a b hb⟩
    · exact ⟨d, rfl, hcont d hd⟩
  · have : m = 1 ∨ m = 2 ∨ m = 3 := by omega
    rcases this with rfl | rfl | rfl
    · exact ⟨b, rfl, h4 a b hb⟩
    · exact ⟨d, rfl, hcont d hd⟩
    · exact ⟨e, rfl, hcont e he⟩

/-- Each character of a plain text shows something when it is complete. -/
theorem C88_all_show {s : Str} (h : PlainText s) : AllShow shownLen (utf8Encode s) := by
  induction s with
  | nil => intro m hm; simp [utf8Encode] at hm
  | cons c s ih =>
    have he : utf8Encode (c :: s) = encodeChar c ++ utf8Encode s := by simp [utf8Encode]
    rw [he]
    have hc := h c (by simp)
    have hne : c.toNat ≠ 0x1B := by unfold Control at hc; omega
    intro m hm hin
    by_cases h1 : m < (encodeChar c).length
    · have hm1 : m + 1 = (encodeChar c).length := by
        by_contra hlt
        refine hin ?_
        obtain ⟨x, hx, hx'⟩ := encodeChar_inside_all c (m := m + 1) (by omega) (by omega)
        exact ⟨x, by rw [List.getElem?_append_left (by omega)]; exact hx, hx'⟩
      rw [List.take_append_of_le_length (by omega), hm1, List.take_left']
      · have g1 : shownLen ((encodeChar c).take m) = 0 := by
          rw [shownLen, stripAnsi_eq, stripFrom_part (List.take_prefix _ _) fun hh => by
            have := congrArg List.length hh
            rw [List.length_take] at this
            omega]
          rfl
        have g2 := stripFrom_encodeChar hne []
        rw [List.append_nil, stripFrom_nil, List.append_nil, groundChar_plain hc] at g2
        rw [g1, shownLen, stripAnsi_eq, g2]
        exact List.length_pos_iff.mpr (encodeChar_ne_nil c)
      · rfl
    · obtain ⟨k, rfl⟩ : ∃ k, m = (encodeChar c).length + k := ⟨m - (encodeChar c).length, by omega⟩
      have hk : k < (utf8Encode s).length := by rw [List.length_append] at hm; omega
      have hin' : ¬ Inside (utf8Encode s) (k + 1) := by
        rintro ⟨x, hx, hx'⟩
        refine hin ⟨x, ?_, hx'⟩
        rw [List.getElem?_append_right (by omega)]
        rw [← hx]
        congr 1
        omega
      have := ih (fun d hd => h d (by simp [hd])) k hk hin'
      rw [Nat.add_assoc, List.take_length_add_append, List.take_length_add_append]
      simp only [shownLen, stripAnsi_eq] at this ⊢
      rw [stripFrom_encodeChar hne, stripFrom_encodeChar hne]
      simp only [List.length_append]
      omega

/-- A plain text can be cut to any width without a panic exactly if it is ASCII. -/
theorem C88_safe_iff {s : Str} (h : PlainText s) :
    (∀ width, prefixWithWidth shownLen (utf8Encode s) width ≠ .panic) ↔ Ascii (utf8Encode s) :=
  C45_safe_iff shownLen C88_mono s (C88_all_show h)

/-- A part of a plain text shows no more bytes than it has. -/
theorem shownLen_le {s : Str} (h : PlainText s) {p : Bytes} (hp : p <+: utf8Encode s) : shownLen p ≤ p.length := by
  induction s generalizing p with
  | nil =>
    have : p = [] := List.prefix_nil.mp (by simpa [utf8Encode] using hp)
    subst this
    exact Nat.le_refl _
  | cons c s ih =>
    have he : utf8Encode (c :: s) = encodeChar c ++ utf8Encode s := by simp [utf8Encode]
    rw [he] at hp
    have hc := h c (by simp)
    rcases Nat.le_total p.length (encodeChar c).length with hl | hl
    · have hp := List.prefix_of_prefix_length_le hp (List.prefix_append _ _) hl
      by_cases hpe : p = encodeChar c
      · have g := stripFrom_encodeChar (c := c) (by unfold Control at hc; omega) []
        rw [List.append_nil, stripFrom_nil, List.append_nil, groundChar_plain hc] at g
        rw [hpe, shownLen, stripAnsi_eq, g]
      · rw [shownLen, stripAnsi_eq, stripFrom_part hp hpe]
        simp
    · obtain ⟨q, rfl⟩ := List.prefix_of_prefix_length_le (List.prefix_append _ _) hp hl
      have := ih (fun d hd => h d (by simp [hd])) ((List.prefix_append_right_inj _).mp hp)
      simp only [shownLen, stripAnsi_eq] at this ⊢
      rw [stripFrom_encodeChar (by unfold Control at hc; omega), groundChar_plain hc]
      simp only [List.length_append]
      omega

/-- For a target whose name is not ASCII there is a width of the terminal at which displaying and replaying panic. -/
theorem C88_heading_panics (y : Sys) (hy : y.vis = shownLen) (target : Str) (ht : PlainText target)
    (ha : ¬ Ascii (utf8Encode target)) :
    ∃ w, w ≤ (utf8Encode target).length ∧
      ∀ (o : Opts) (e : Exe) (r : List (Exe × Str)) (s : RSt),
        replayLoop o { y with columns := some w } true ((e, target) :: r) s = (.panic, s) := by
  refine C85_heading_panics y (hy ▸ C88_mono) target (fun b hb => ?_) ha ?_
  · rw [hy]
    exact shownLen_le ht hb
  · rw [hy]
    refine C88_all_show fun c hc => ?_
    rcases List.mem_append.mp hc with hc | hc
    · exact ht c hc
    · have : c = ' ' := by simpa using hc
      subst this
      unfold Control
      decide

/-! ## Cases -/

/-- A red `abc` with a title set before it, and a carriage return. -/
example : Displays (utf8Encode c%"\x1b]0;t\x07\x1b[1;31mabc\x1b[0m\rd") c%"abcd" ∧
    stripAnsi (utf8Encode c%"\x1b]0;t\x07\x1b[1;31mabc\x1b[0m\rd") = utf8Encode c%"abcd" ∧
    prefixWithWidth shownLen (utf8Encode c%"\x1b[1;31mabc\x1b[0m\rd") 2 = .ok (utf8Encode c%"\x1b[1;31mab") := by
  have h : Displays (utf8Encode c%"\x1b]0;t\x07\x1b[1;31mabc\x1b[0m\rd") c%"abcd" := by
    have e : utf8Encode c%"\x1b]0;t\x07\x1b[1;31mabc\x1b[0m\rd" =
        ([0x1B, 0x5D, 0x30, 0x3B, 0x74, 7] : Bytes) ++ (([0x1B, 0x5B, 0x31, 0x3B, 0x33, 0x31, 0x6D] : Bytes) ++
          (encodeChar 'a' ++ (encodeChar 'b' ++ (encodeChar 'c' ++ (([0x1B, 0x5B, 0x30, 0x6D] : Bytes) ++
            (encodeChar '\r' ++ (encodeChar 'd' ++ []))))))) := by decide +kernel
    rw [e]
    have hc : ∀ c : Char, 0x20 ≤ c.toNat → c.toNat < 0x80 → ¬ Control c := fun c h1 h2 => by unfold Control; omega
    refine .command ⟨[0x30, 0x3B, 0x74], [7], rfl, by decide, .inl rfl⟩
      (.sequence ⟨[0x5B, 0x31, 0x3B, 0x33, 0x31], [0x31, 0x3B, 0x33, 0x31], [], 0x6D, rfl, rfl, by decide, by decide, by decide, by decide⟩
        (.char (hc _ (by decide) (by decide)) (.char (hc _ (by decide) (by decide)) (.char (hc _ (by decide) (by decide))
          (.sequence ⟨[0x5B, 0x30], [0x30], [], 0x6D, rfl, rfl, by decide, by decide, by decide, by decide⟩
            (.control (.inl (by decide)) (by decide) (by decide) (.char (hc _ (by decide) (by decide)) .nil)))))))
  exact ⟨h, C88_displays h, by decide +kernel⟩

/-- An invalid byte shows three bytes, half a character at the end nothing. -/
example : shownLen [0xFF] = 3 ∧ shownLen [0x61, 0xE2, 0x82] = 1 ∧ stripAnsi [0xE2, 0x82, 0x41] = utf8Encode c%"�A" := by
  decide +kernel

/-- A device control string between two letters. -/
example : Displays (0x61 :: ([0x1B, 0x50, 0x31, 0x3B, 0x32, 0x7C, 0x78, 0x9C] ++ [0x62])) c%"ab" :=
  .char (c := 'a') (by unfold Control; decide) (.device ⟨[0x31, 0x3B, 0x32], [], 0x7C, [0x78], rfl, by decide, by simp, by decide, by decide,
    by decide⟩ (.char (c := 'b') (by unfold Control; decide) .nil))

/-- A name with an accent. -/
example : PlainText c%"aé" ∧ ¬ Ascii (utf8Encode c%"aé") := by
  have he : utf8Encode c%"aé" = [0x61, 0xC3, 0xA9] := by decide +kernel
  refine ⟨?_, by rw [he]; exact fun h => absurd (h 0xC3 (by simp)) (by decide)⟩
  intro c hc
  simp only [List.mem_cons, List.not_mem_nil, or_false] at hc
  rcases hc with rfl | rfl <;> unfold Control <;> decide

end TF
