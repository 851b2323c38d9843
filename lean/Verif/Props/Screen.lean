import Verif.Props.Strip
import Verif.Spec.Screen

/-!
# C106: what the terminal shows
-/

namespace TF

open Spec

/-! ## Lines -/

theorem lineBytes_cons (p : Piece) (l : List Piece) : lineBytes (p :: l) = p.bytes ++ lineBytes l := by simp [lineBytes]

theorem lineBytes_append (l l' : List Piece) : lineBytes (l ++ l') = lineBytes l ++ lineBytes l' := by simp [lineBytes]

theorem lineText_append (l l' : List Piece) : lineText (l ++ l') = lineText l ++ lineText l' := by
  induction l with
  | nil => rfl
  | cons p l ih => cases p <;> simp [lineText, ih]

theorem lineText_ok {l : List Piece} (h : ∀ p ∈ l, p.Ok) : ∀ x ∈ lineText l, 32 ≤ x.toNat ∧ x.toNat < 127 := by
  induction l with
  | nil => intro x hx; cases hx
  | cons p l ih =>
    have ih := ih fun q hq => h q (List.mem_cons_of_mem _ hq)
    cases p with
    | ch y =>
      intro x hx
      rcases List.mem_cons.mp hx with rfl | hx
      · exact h (.ch x) (by simp)
      · exact ih x hx
    | sgr ps => exact ih

theorem lineBytes_ascii {l : List Piece} (h : ∀ p ∈ l, p.Ok) : Ascii (lineBytes l) := by
  intro x hx
  obtain ⟨p, hp, hx⟩ := List.mem_flatMap.mp hx
  have ho := h p hp
  cases p with
  | ch y =>
    have := List.mem_singleton.mp hx
    subst this
    have := ho.2
    omega
  | sgr ps =>
    simp only [Piece.bytes, List.mem_cons, List.mem_append, List.not_mem_nil, or_false] at hx
    rcases hx with rfl | rfl | hx | rfl
    · decide
    · decide
    · have := ho x hx; omega
    · decide

/-- What a line shows is its characters. -/
theorem strip_line {l : List Piece} (h : ∀ p ∈ l, p.Ok) : stripAnsi (lineBytes l) = lineText l := by
  have key : ∀ {l : List Piece}, (∀ p ∈ l, p.Ok) → ∃ s, Displays (lineBytes l) s ∧ utf8Encode s = lineText l := by
    intro l h
    induction l with
    | nil => exact ⟨[], .nil, rfl⟩
    | cons p l ih =>
      obtain ⟨s, h1, h2⟩ := ih fun q hq => h q (List.mem_cons_of_mem _ hq)
      have ho := h p (by simp)
      rw [lineBytes_cons]
      cases p with
      | ch x =>
        have hx : x.toNat < 128 := by have := ho.2; omega
        obtain ⟨e1, e2⟩ := encodeChar_ofNat hx
        refine ⟨Char.ofNat x.toNat :: s, ?_, ?_⟩
        · rw [show Piece.bytes (.ch x) = encodeChar (Char.ofNat x.toNat) from e1.symm]
          refine .char ?_ h1
          have := ho.1
          have := ho.2
          unfold Control
          omega
        · have : utf8Encode (Char.ofNat x.toNat :: s) = encodeChar (Char.ofNat x.toNat) ++ utf8Encode s := by simp [utf8Encode]
          rw [this, e1, h2]; rfl
      | sgr ps =>
        have hc : ∀ x ∈ ps, Counts x = true := by
          intro x hx
          have := ho x hx
          simp only [Counts, Bool.or_eq_true, Bool.and_eq_true, decide_eq_true_eq, bne_iff_ne, beq_iff_eq]
          exact .inl (.inl (.inl ⟨by omega, by omega⟩))
        have hf : lineFeeds (Piece.bytes (.sgr ps)) = [] := by
          have : (Piece.bytes (.sgr ps)).filter (· == 10) = [] := by
            rw [List.filter_eq_nil_iff]
            intro x hx
            simp only [Piece.bytes, List.mem_cons, List.mem_append, List.not_mem_nil, or_false] at hx
            rcases hx with rfl | rfl | hx | rfl
            · decide
            · decide
            · have := ho x hx
              intro hc
              rw [beq_iff_eq] at hc
              subst hc
              exact absurd this.1 (by decide)
            · decide
          simp [lineFeeds, this]
        refine ⟨lineFeeds (Piece.bytes (.sgr ps)) ++ s, .sequence ?_ h1, by rw [hf]; exact h2⟩
        refine ⟨0x5B :: ps, ps, [], 0x6D, by simp [Piece.bytes], ?_, fun x hx => ?_, by simp, by decide, by decide⟩
        · rw [List.filter_cons_of_pos (by decide), List.filter_eq_self.mpr hc]; simp
        · have := ho x hx; omega
  obtain ⟨s, h1, h2⟩ := key h
  rw [C88_displays h1, h2]

theorem cut_prefix (w : Nat) (l : List Piece) : cutLine w l <+: l := by
  induction l generalizing w with
  | nil => cases w <;> exact List.prefix_refl _
  | cons p l ih =>
    cases w with
    | zero => exact List.nil_prefix
    | succ w => cases p <;> exact List.cons_prefix_cons.mpr ⟨rfl, ih _⟩

theorem cut_text (w : Nat) (l : List Piece) : lineText (cutLine w l) = (lineText l).take w := by
  induction l generalizing w with
  | nil => cases w <;> rfl
  | cons p l ih =>
    cases w with
    | zero => simp [cutLine, lineText]
    | succ w => cases p <;> simp [cutLine, lineText, ih]

theorem cut_all {w : Nat} {l : List Piece} (h : (lineText l).length < w) : cutLine w l = l := by
  induction l generalizing w with
  | nil => cases w <;> rfl
  | cons p l ih =>
    cases w with
    | zero => simp at h
    | succ w =>
      cases p with
      | ch x => simp only [lineText, List.length_cons] at h; rw [cutLine, ih (by omega)]
      | sgr ps => rw [cutLine, ih h]

theorem cut_last {w : Nat} {l : List Piece} (h : w + 1 ≤ (lineText l).length) :
    ∃ l' x, cutLine (w + 1) l = l' ++ [.ch x] ∧ (lineText l').length = w := by
  induction l generalizing w with
  | nil => simp [lineText] at h
  | cons p l ih =>
    cases p with
    | ch x =>
      cases w with
      | zero => exact ⟨[], x, by simp [cutLine], rfl⟩
      | succ w =>
        simp only [lineText, List.length_cons] at h
        obtain ⟨l', y, h1, h2⟩ := ih (w := w) (by omega)
        exact ⟨.ch x :: l', y, by rw [cutLine, h1]; rfl, by simp [lineText, h2]⟩
    | sgr ps =>
      obtain ⟨l', y, h1, h2⟩ := ih (w := w) h
      exact ⟨.sgr ps :: l', y, by rw [cutLine, h1]; rfl, h2⟩

theorem shortest_unique {vis : Bytes → Nat} {b p q : Bytes} {w : Nat} (hp : ShortestShowing vis b w p)
    (hq : ShortestShowing vis b w q) : p = q := by
  have key : ∀ {p q : Bytes}, ShortestShowing vis b w p → ShortestShowing vis b w q → ¬ p.length < q.length := by
    intro p q hp hq hl
    have h1 := hq.2.2 p hp.1 hl
    rcases hp.2.1 with h2 | ⟨h2, -⟩
    · omega
    · have := hq.1.length_le
      rw [h2] at hl
      omega
  have he : p.length = q.length := by have := key hp hq; have := key hq hp; omega
  rw [List.prefix_iff_eq_take.mp hp.1, List.prefix_iff_eq_take.mp hq.1, he]

/-- A coloured line is cut after the last character for which there is room, so that colours set after it are lost. -/
theorem C106_cut {l : List Piece} (h : ∀ p ∈ l, p.Ok) (w : Nat) :
    prefixWithWidth shownLen (lineBytes l) w = .ok (lineBytes (cutLine w l)) := by
  obtain ⟨p, h1, h2⟩ := C45_truncation_ascii shownLen C88_mono (lineBytes l) (lineBytes_ascii h) w
  rw [h1]
  congr 1
  refine shortest_unique h2 ?_
  have hpre := cut_prefix w l
  have hok : ∀ p ∈ cutLine w l, p.Ok := fun p hp => h p (hpre.subset hp)
  have hb : lineBytes (cutLine w l) <+: lineBytes l := by
    obtain ⟨t, ht⟩ := hpre
    exact ⟨lineBytes t, by rw [← lineBytes_append, ht]⟩
  have hv : shownLen (lineBytes (cutLine w l)) = min w (lineText l).length := by
    rw [shownLen, strip_line hok, cut_text, List.length_take]
  have hvl : shownLen (lineBytes l) = (lineText l).length := by rw [shownLen, strip_line h]
  by_cases hw : (lineText l).length < w
  · have hc := cut_all hw
    refine ⟨hb, .inr ⟨by rw [hc], by omega⟩, fun q hq _ => ?_⟩
    obtain ⟨t, ht⟩ := hq
    have := C88_mono q t
    rw [ht] at this
    omega
  · refine ⟨hb, .inl (by omega), fun q hq hl => ?_⟩
    cases w with
    | zero => simp [cutLine, lineBytes] at hl
    | succ w =>
      obtain ⟨l', x, e1, e2⟩ := cut_last (w := w) (l := l) (by omega)
      have hok' : ∀ p ∈ l', p.Ok := fun p hp => hok p (by rw [e1]; simp [hp])
      have hq' : q <+: lineBytes l' := by
        have h3 : lineBytes l' <+: lineBytes l := by
          refine List.IsPrefix.trans ?_ hb
          rw [e1, lineBytes_append]
          exact List.prefix_append _ _
        refine List.prefix_of_prefix_length_le hq h3 ?_
        rw [e1, lineBytes_append, List.length_append] at hl
        have : (lineBytes [Piece.ch x]).length = 1 := rfl
        omega
      obtain ⟨t, ht⟩ := hq'
      have := C88_mono q t
      rw [ht, shownLen, shownLen, strip_line hok', e2] at this
      rw [shownLen]
      omega

/-! ## Drawing -/

variable {Pen : Type} {sgr : Bytes → Pen → Pen}

/-- What bytes do to a terminal is determined. -/
theorem draws_unique {b : Bytes} {s t t' : Screen Pen} (h : Draws sgr b s t) (h' : Draws sgr b s t') : t = t' := by
  induction h generalizing t' with
  | done s => cases h'; rfl
  | @char x b s t h1 h2 _ ih =>
    generalize hb : x :: b = c at h'
    cases h' with
    | done => cases hb
    | char _ _ h => cases hb; exact ih h
    | colour _ _ => cases hb; exact absurd h1 (by decide)
    | home _ => cases hb; exact absurd h1 (by decide)
    | erase _ => cases hb; exact absurd h1 (by decide)
    | newline _ => cases hb; exact absurd h1 (by decide)
  | @colour ps b s t h1 _ ih =>
    generalize hb : [0x1B, 0x5B] ++ ps ++ [0x6D] ++ b = c at h'
    cases h' with
    | done => simp at hb
    | char h2 _ _ =>
      simp only [List.cons_append, List.nil_append, List.cons.injEq] at hb
      rw [← hb.1] at h2; exact absurd h2 (by decide)
    | @colour ps' b' _ _ h2 h =>
      simp only [List.cons_append, List.nil_append, List.cons.injEq, true_and, List.append_assoc] at hb
      have key : ∀ (ps ps' : Bytes), (∀ x ∈ ps, 0x30 ≤ x.toNat ∧ x.toNat < 0x3C) → (∀ x ∈ ps', 0x30 ≤ x.toNat ∧ x.toNat < 0x3C) →
          ps ++ 0x6D :: b = ps' ++ 0x6D :: b' → ps = ps' ∧ b = b' := by
        intro ps
        induction ps with
        | nil =>
          intro ps' _ g hg
          cases ps' with
          | nil => exact ⟨rfl, by simpa using hg⟩
          | cons y ps' =>
            simp only [List.nil_append, List.cons_append, List.cons.injEq] at hg
            have := (g y (by simp)).2
            rw [← hg.1] at this; exact absurd this (by decide)
        | cons x ps ih =>
          intro ps' g' g hg
          cases ps' with
          | nil =>
            simp only [List.nil_append, List.cons_append, List.cons.injEq] at hg
            have := (g' x (by simp)).2
            rw [hg.1] at this; exact absurd this (by decide)
          | cons y ps' =>
            simp only [List.cons_append, List.cons.injEq] at hg
            obtain ⟨e1, e2⟩ := ih ps' (fun z hz => g' z (by simp [hz])) (fun z hz => g z (by simp [hz])) hg.2
            exact ⟨by rw [hg.1, e1], e2⟩
      obtain ⟨rfl, rfl⟩ := key ps ps' h1 h2 hb
      exact ih h
    | home _ =>
      simp only [List.cons_append, List.nil_append, List.cons.injEq, true_and, List.append_assoc] at hb
      cases ps with
      | nil => simp at hb
      | cons x ps =>
        simp only [List.cons_append, List.cons.injEq] at hb
        have := (h1 x (by simp)).2
        rw [hb.1] at this; exact absurd this (by decide)
    | erase _ =>
      simp only [List.cons_append, List.nil_append, List.cons.injEq, true_and, List.append_assoc] at hb
      cases ps with
      | nil => simp at hb
      | cons x ps =>
        simp only [List.cons_append, List.cons.injEq] at hb
        cases ps with
        | nil => simp at hb
        | cons y ps =>
          simp only [List.cons_append, List.cons.injEq] at hb
          have := (h1 y (by simp)).2
          rw [hb.2.1] at this; exact absurd this (by decide)
    | newline _ => simp at hb
  | @home b s t _ ih =>
    generalize hb : [0x1B, 0x5B, 0x48] ++ b = c at h'
    cases h' with
    | done => simp at hb
    | char h2 _ _ =>
      simp only [List.cons_append, List.nil_append, List.cons.injEq] at hb
      rw [← hb.1] at h2; exact absurd h2 (by decide)
    | @colour ps' b' _ _ h2 h =>
      simp only [List.cons_append, List.nil_append, List.cons.injEq, true_and, List.append_assoc] at hb
      cases ps' with
      | nil => simp at hb
      | cons x ps =>
        simp only [List.cons_append, List.cons.injEq] at hb
        have := (h2 x (by simp)).2
        rw [← hb.1] at this; exact absurd this (by decide)
    | home h =>
      simp only [List.cons_append, List.nil_append, List.cons.injEq, true_and] at hb
      subst hb; exact ih h
    | erase _ => simp at hb
    | newline _ => simp at hb
  | @erase b s t _ ih =>
    generalize hb : [0x1B, 0x5B, 0x30, 0x4B] ++ b = c at h'
    cases h' with
    | done => simp at hb
    | char h2 _ _ =>
      simp only [List.cons_append, List.nil_append, List.cons.injEq] at hb
      rw [← hb.1] at h2; exact absurd h2 (by decide)
    | @colour ps' b' _ _ h2 h =>
      simp only [List.cons_append, List.nil_append, List.cons.injEq, true_and, List.append_assoc] at hb
      cases ps' with
      | nil => simp at hb
      | cons x ps =>
        simp only [List.cons_append, List.cons.injEq] at hb
        cases ps with
        | nil => simp at hb
        | cons y ps =>
          simp only [List.cons_append, List.cons.injEq] at hb
          have := (h2 y (by simp)).2
          rw [← hb.2.1] at this; exact absurd this (by decide)
    | home _ => simp at hb
    | erase h =>
      simp only [List.cons_append, List.nil_append, List.cons.injEq, true_and] at hb
      subst hb; exact ih h
    | newline _ => simp at hb
  | @newline b s t _ ih =>
    generalize hb : (10 : UInt8) :: b = c at h'
    cases h' with
    | done => simp at hb
    | char h2 _ _ =>
      simp only [List.cons.injEq] at hb
      rw [← hb.1] at h2; exact absurd h2 (by decide)
    | colour _ _ => simp at hb
    | home _ => simp at hb
    | erase _ => simp at hb
    | newline h => cases hb; exact ih h

/-- The terminal after some pieces. -/
def drawPieces (sgr : Bytes → Pen → Pen) : List Piece → Screen Pen → Screen Pen
  | [], s => s
  | .ch x :: l, s => drawPieces sgr l (s.put x)
  | .sgr ps :: l, s => drawPieces sgr l { s with pen := sgr ps s.pen }

theorem draws_line {l : List Piece} (h : ∀ p ∈ l, p.Ok) {b : Bytes} {s t : Screen Pen} (ht : Draws sgr b (drawPieces sgr l s) t) :
    Draws sgr (lineBytes l ++ b) s t := by
  induction l generalizing s with
  | nil => exact ht
  | cons p l ih =>
    have ho := h p (by simp)
    have ih := fun s => @ih (fun q hq => h q (List.mem_cons_of_mem _ hq)) s
    rw [lineBytes_cons]
    cases p with
    | ch x => exact .char ho.1 ho.2 (ih _ ht)
    | sgr ps =>
      have e : Piece.bytes (.sgr ps) ++ lineBytes l ++ b = [0x1B, 0x5B] ++ ps ++ [0x6D] ++ (lineBytes l ++ b) := by
        simp [Piece.bytes]
      rw [e]
      exact .colour ho (ih _ ht)

/-- The cursor after `k` characters of a row. -/
def At (s : Screen Pen) (r k : Nat) : Prop :=
  s.row = r ∧ (k < s.cols ∧ s.col = k ∧ s.full = false ∨ k = s.cols ∧ s.col + 1 = s.cols ∧ s.full = true)

theorem drawPieces_at {l : List Piece} {s : Screen Pen} {r k : Nat} (ha : At s r k) (hk : k + (lineText l).length ≤ s.cols) :
    At (drawPieces sgr l s) r (k + (lineText l).length) ∧ (drawPieces sgr l s).rows = s.rows ∧
      (drawPieces sgr l s).cols = s.cols ∧ (drawPieces sgr l s).pen = penAfter sgr s.pen l ∧
      ∀ i j, (drawPieces sgr l s).cell i j =
        if i = r ∧ k ≤ j ∧ j < k + (lineText l).length then
          match (painted sgr s.pen l)[j - k]? with
          | some (x, q) => (some x, q)
          | none => s.cell i j
        else s.cell i j := by
  induction l generalizing s k with
  | nil =>
    refine ⟨by simpa [drawPieces, lineText] using ha, rfl, rfl, rfl, fun i j => ?_⟩
    rw [if_neg (by simp only [lineText, List.length_nil]; omega)]
    rfl
  | cons p l ih =>
    cases p with
    | sgr ps =>
      have := @ih { s with pen := sgr ps s.pen } k ha hk
      exact this
    | ch x =>
      have hlen : (lineText (.ch x :: l)).length = (lineText l).length + 1 := rfl
      rw [hlen] at hk
      obtain ⟨h1, ⟨h2, h3, h4⟩ | ⟨h2, -, -⟩⟩ := ha
      · have hput : s.put x = s.write x := by unfold Screen.put; rw [h4]; rfl
        have hat : At (s.put x) r (k + 1) := by
          rw [hput]
          unfold Screen.write
          by_cases hc : s.col + 1 < s.cols
          · rw [if_pos hc]
            exact ⟨h1, .inl ⟨by simp only; omega, by simp only; omega, h4⟩⟩
          · rw [if_neg hc]
            exact ⟨h1, .inr ⟨by simp only; omega, by simp only; omega, rfl⟩⟩
        have hf : (s.put x).rows = s.rows ∧ (s.put x).cols = s.cols ∧ (s.put x).pen = s.pen ∧
            ∀ i j, (s.put x).cell i j = if i = s.row ∧ j = s.col then (some x, s.pen) else s.cell i j := by
          rw [hput]
          unfold Screen.write
          split <;> exact ⟨rfl, rfl, rfl, fun _ _ => rfl⟩
        obtain ⟨f1, f2, f3, f4⟩ := hf
        obtain ⟨g1, g2, g3, g4, g5⟩ := @ih (s.put x) (k + 1) hat (by rw [f2]; omega)
        have e : k + 1 + (lineText l).length = k + (lineText (.ch x :: l)).length := by
          omega
        rw [e] at g1
        refine ⟨g1, by rw [← f1]; exact g2, by rw [← f2]; exact g3, by rw [drawPieces, g4, f3]; rfl, fun i j => ?_⟩
        rw [drawPieces, g5, f3]
        by_cases hi : i = r
        · subst hi
          by_cases hj : j = k
          · subst hj
            rw [if_neg (by omega), f4, if_pos ⟨h1.symm, h3.symm⟩, if_pos (by omega)]
            simp [painted]
          · have hcell : (s.put x).cell i j = s.cell i j := by rw [f4, if_neg (by omega)]
            by_cases hr : k + 1 ≤ j ∧ j < k + 1 + (lineText l).length
            · rw [if_pos ⟨rfl, hr⟩, if_pos (by omega)]
              have : j - k = (j - (k + 1)) + 1 := by omega
              rw [this, painted, List.getElem?_cons_succ, hcell]
            · rw [if_neg (by simpa using hr), if_neg (by omega), hcell]
        · rw [if_neg (by simp [hi]), if_neg (by simp [hi]), f4, if_neg (by omega)]
      · omega


/-- What a row and the line feed after it do. -/
theorem row_done {l : List Piece} {s : Screen Pen} {r : Nat} (ha : At s r 0) (hc : 0 < s.cols) (hr : r + 1 < s.rows)
    (hl : (lineText l).length ≤ s.cols) :
    At (drawPieces sgr l s).erase.newline (r + 1) 0 ∧ (drawPieces sgr l s).erase.newline.rows = s.rows ∧
      (drawPieces sgr l s).erase.newline.cols = s.cols ∧ (drawPieces sgr l s).erase.newline.pen = penAfter sgr s.pen l ∧
      RowShows sgr (drawPieces sgr l s).erase.newline r s.pen l ∧
      ∀ i, i ≠ r → ∀ j, (drawPieces sgr l s).erase.newline.cell i j = s.cell i j := by
  obtain ⟨⟨g1, g2⟩, g3, g4, g5, g6⟩ := @drawPieces_at Pen sgr l s r 0 ha (by omega)
  generalize hu : drawPieces sgr l s = u at *
  have hnl : u.erase.newline = { u.erase with row := u.row + 1, col := 0, full := false } := by
    unfold Screen.newline
    rw [if_pos (show u.erase.row + 1 < u.erase.rows by show u.row + 1 < u.rows; omega)]
    rfl
  have hcell : ∀ i j, u.erase.newline.cell i j = if i = u.row ∧ u.col ≤ j then (none, u.pen) else u.cell i j := by
    intro i j; rw [hnl]; rfl
  have hcols : u.erase.newline.cols = s.cols := by rw [hnl]; exact g4
  refine ⟨?_, by rw [hnl]; exact g3, hcols, by rw [hnl]; exact g5, ?_, ?_⟩
  · rw [hnl]
    exact ⟨by simp only; omega, .inl ⟨by show 0 < u.cols; omega, rfl, rfl⟩⟩
  · intro j hj
    rw [hcols] at hj ⊢
    have hp : ∀ (l : List Piece) (p : Pen), (painted sgr p l).length = (lineText l).length := by
      intro l
      induction l with
      | nil => intro p; rfl
      | cons q l ih => intro p; cases q <;> simp [painted, lineText, ih]
    rw [hcell, g1]
    by_cases hjl : j < (lineText l).length
    · rw [List.getElem?_eq_getElem (by rw [hp]; exact hjl)]
      by_cases hj1 : j + 1 < s.cols
      · simp only
        rw [if_pos hj1, if_neg (by omega), g6, if_pos (by omega), Nat.sub_zero,
          List.getElem?_eq_getElem (by rw [hp]; exact hjl)]
      · simp only
        have hcj : u.col ≤ j := by rcases g2 with ⟨g, -, -⟩ | ⟨-, g, -⟩ <;> omega
        rw [if_neg hj1, if_pos (by simpa using hcj), g5]
    · rw [List.getElem?_eq_none (by rw [hp]; omega), if_pos (by omega), g5]
  · intro i hi j
    rw [hcell, if_neg (by omega), g6, if_neg (by omega)]

/-- The bytes of some rows. -/
def rowsBytes (L : List (List Piece)) : Bytes := L.flatMap fun l => lineBytes l ++ [0x1B, 0x5B, 0x30, 0x4B] ++ [10]

theorem rowShows_of_cells {s t : Screen Pen} {i : Nat} {p : Pen} {l : List Piece} (h : RowShows sgr s i p l) (hc : t.cols = s.cols)
    (he : ∀ j, t.cell i j = s.cell i j) : RowShows sgr t i p l := by
  intro j hj
  rw [hc] at hj ⊢
  rw [he]
  exact h j hj

theorem rows_drawn (L : List (List Piece)) : ∀ {s : Screen Pen} {r : Nat}, (∀ l ∈ L, (∀ p ∈ l, p.Ok) ∧ (lineText l).length ≤ s.cols) →
    At s r 0 → 0 < s.cols → r + L.length < s.rows →
    ∃ t, Draws sgr (rowsBytes L) s t ∧ At t (r + L.length) 0 ∧ t.rows = s.rows ∧ t.cols = s.cols ∧
      t.pen = L.foldl (penAfter sgr) s.pen ∧
      (∀ k l, L[k]? = some l → RowShows sgr t (r + k) ((L.take k).foldl (penAfter sgr) s.pen) l) ∧
      ∀ i, i < r ∨ r + L.length ≤ i → ∀ j, t.cell i j = s.cell i j := by
  induction L with
  | nil =>
    intro s r _ ha _ _
    exact ⟨s, .done s, ha, rfl, rfl, rfl, fun k l h => (by simp at h), fun _ _ _ => rfl⟩
  | cons l L ih =>
    intro s r hL ha hc hr
    rw [List.length_cons] at hr
    obtain ⟨h1, h2, h3, h4, h5, h6⟩ := @row_done Pen sgr l s r ha hc (by omega) (hL l (by simp)).2
    generalize hu : (drawPieces sgr l s).erase.newline = u at *
    obtain ⟨t, g1, g2, g3, g4, g5, g6, g7⟩ := @ih u (r + 1) (fun l' hl' => by rw [h3]; exact hL l' (by simp [hl'])) h1
      (by omega) (by omega)
    refine ⟨t, ?_, ?_, by omega, by omega, ?_, ?_, ?_⟩
    · have e : rowsBytes (l :: L) = lineBytes l ++ ([0x1B, 0x5B, 0x30, 0x4B] ++ (10 :: rowsBytes L)) := by
        simp [rowsBytes]
      rw [e]
      refine draws_line (hL l (by simp)).1 (.erase (.newline ?_))
      rw [hu]; exact g1
    · rw [List.length_cons]
      have : r + (L.length + 1) = r + 1 + L.length := by omega
      rw [this]; exact g2
    · rw [g5, h4]; rfl
    · intro k l' hk
      cases k with
      | zero =>
        simp only [List.getElem?_cons_zero, Option.some.injEq] at hk
        subst hk
        exact rowShows_of_cells h5 (by omega) fun j => g7 r (.inl (by omega)) j
      | succ k =>
        have := g6 k l' (by simpa using hk)
        rw [h4] at this
        have e : r + (k + 1) = r + 1 + k := by omega
        rw [e]
        exact this
    · intro i hi j
      rw [List.length_cons] at hi
      rw [g7 i (by omega) j, h6 i (by omega) j]

/-! ## Pages -/

theorem lineBytes_chars (b : Bytes) : lineBytes (b.map .ch) = b := by
  induction b with
  | nil => rfl
  | cons x b ih => rw [List.map_cons, lineBytes_cons, ih]; rfl

theorem lineText_chars (b : Bytes) : lineText (b.map .ch) = b := by
  induction b with
  | nil => rfl
  | cons x b ih => rw [List.map_cons, lineText, ih]

theorem cut_chars (w : Nat) (b : Bytes) : cutLine w (b.map .ch) = (b.take w).map .ch := by
  induction b generalizing w with
  | nil => cases w <;> rfl
  | cons x b ih => cases w with
    | zero => rfl
    | succ w => rw [List.map_cons, cutLine, ih]; rfl

theorem divider_line {name : Bytes} (h : ∀ x ∈ name, 32 ≤ x.toNat ∧ x.toNat < 127) (cols : Nat) :
    dividerWithWidth shownLen name cols = .ok (lineBytes (headingLine cols name)) := by
  unfold dividerWithWidth headingLine
  simp only
  by_cases hw : (name ++ [32]).length ≥ cols
  · rw [if_pos hw]
    have hok : ∀ p ∈ (name ++ [32]).map Piece.ch, p.Ok := by
      intro p hp
      obtain ⟨x, hx, rfl⟩ := List.mem_map.mp hp
      rcases List.mem_append.mp hx with hx | hx
      · exact h x hx
      · rw [List.mem_singleton.mp hx]; exact ⟨by decide, by decide⟩
    have := C106_cut hok cols
    rw [lineBytes_chars, cut_chars] at this
    rw [this]
    congr 3
    rw [show name ++ 32 :: List.replicate cols 45 = (name ++ [32]) ++ List.replicate cols 45 by simp, List.take_append_of_le_length hw]
  · rw [if_neg hw, lineBytes_chars]
    congr 1
    rw [show name ++ 32 :: List.replicate cols 45 = (name ++ [32]) ++ List.replicate cols 45 by simp, List.take_append,
      List.take_of_length_le (by omega), List.take_replicate, Nat.min_eq_left (by omega)]

theorem childLines_line {cols : Nat} {lines : List (List Piece)} (h : ∀ l ∈ lines, ∀ p ∈ l, p.Ok) (is : List Nat) :
    childLines shownLen cols (lines.map lineBytes) is = .ok (is.map fun i => match lines[i]? with
      | some l => lineBytes (cutLine cols l)
      | none => []) := by
  induction is with
  | nil => rfl
  | cons i is ih =>
    rw [childLines, ih, List.getElem?_map]
    cases hi : lines[i]? with
    | none => simp [rowOf, hi]
    | some l =>
      simp only [Option.map_some, rowOf, C106_cut (h l (List.mem_of_getElem? hi)), Out.ok_bind, List.map_cons, hi]

theorem section_rows (cols share : Nat) (lines : List (List Piece)) :
    ((List.range share).map fun i => match (lastN share lines)[i]? with
      | some l => lineBytes (cutLine cols l)
      | none => []) =
    ((lastN share lines).map (cutLine cols) ++ List.replicate (share - lines.length) []).map lineBytes := by
  have hlen : (lastN share lines).length = min share lines.length := by simp only [lastN, List.length_drop]; omega
  apply List.ext_getElem?
  intro i
  rw [List.getElem?_map, List.getElem?_map]
  by_cases hi : i < share
  · rw [List.getElem?_range hi]
    by_cases hl : i < (lastN share lines).length
    · rw [List.getElem?_append_left (by simpa using hl), List.getElem?_map]
      simp only [Option.map_some, List.getElem?_eq_getElem hl]
    · rw [List.getElem?_append_right (by simpa using hl), List.getElem?_replicate,
        if_pos (by rw [List.length_map]; omega)]
      simp only [Option.map_some, List.getElem?_eq_none (Nat.le_of_not_lt hl)]
      rfl
  · rw [List.getElem?_eq_none (by simpa using hi), List.getElem?_eq_none]
    · rfl
    · rw [List.length_append, List.length_map, List.length_replicate]; omega

/-- A target with its lines, as bytes. -/
def childBytes (c : Bytes × List (List Piece)) : Bytes × List Bytes := (c.1, c.2.map lineBytes)

theorem refreshChildren_page {cols avail n : Nat} {cs : List (Bytes × List (List Piece))}
    (h : ∀ c ∈ cs, (∀ x ∈ c.1, 32 ≤ x.toNat ∧ x.toNat < 127) ∧ ∀ l ∈ c.2, ∀ p ∈ l, p.Ok) (i : Nat) :
    ∃ bufs, refreshChildren shownLen cols avail n i (cs.map childBytes) =
      .ok ((pageLines cols (childRows avail n) i cs).map lineBytes, bufs) := by
  induction cs generalizing i with
  | nil => exact ⟨[], rfl⟩
  | cons c cs ih =>
    obtain ⟨bufs, hb⟩ := ih (fun c hc => h c (List.mem_cons_of_mem _ hc)) (i + 1)
    obtain ⟨h1, h2⟩ := h c (by simp)
    obtain ⟨name, lines⟩ := c
    have hdrop : (lines.map lineBytes).drop ((lines.map lineBytes).length - childRows avail n i) =
        (lastN (childRows avail n i) lines).map lineBytes := by
      rw [lastN, List.map_drop, List.length_map]
    refine ⟨(lastN (childRows avail n i) lines).map lineBytes :: bufs, ?_⟩
    rw [List.map_cons, childBytes, refreshChildren, divider_line h1, Out.ok_bind]
    simp only
    rw [hdrop, childLines_line (lines := lastN (childRows avail n i) lines) (fun l hl => h2 l (List.mem_of_mem_drop hl)), Out.ok_bind, hb, Out.ok_bind, section_rows]
    simp [pageLines, sectionLines]

theorem page_length (cols avail n : Nat) (cs : List (Bytes × List (List Piece))) (i : Nat) :
    (pageLines cols (childRows avail n) i cs).length =
      ((List.range cs.length).map fun k => childRows avail n (i + k)).sum + cs.length := by
  induction cs generalizing i with
  | nil => rfl
  | cons c cs ih =>
    rw [pageLines, List.length_append, ih, List.length_cons, List.range_succ_eq_map, List.map_cons, List.sum_cons, List.map_map]
    have e : (fun k => childRows avail n (i + k)) ∘ Nat.succ = fun k => childRows avail n (i + 1 + k) := by
      funext k
      simp only [Function.comp, Nat.succ_eq_add_one]
      congr 1
      omega
    rw [e, sectionLines, List.length_cons, List.length_append, List.length_map, List.length_replicate, lastN,
      List.length_drop]
    have e0 : childRows avail n (i + 0) = childRows avail n i := rfl
    omega

theorem page_ok {cols : Nat} {share : Nat → Nat} {cs : List (Bytes × List (List Piece))}
    (h : ∀ c ∈ cs, (∀ x ∈ c.1, 32 ≤ x.toNat ∧ x.toNat < 127) ∧ ∀ l ∈ c.2, ∀ p ∈ l, p.Ok) (i : Nat) :
    ∀ l ∈ pageLines cols share i cs, (∀ p ∈ l, p.Ok) ∧ (lineText l).length ≤ cols := by
  induction cs generalizing i with
  | nil => intro l hl; cases hl
  | cons c cs ih =>
    intro l hl
    obtain ⟨h1, h2⟩ := h c (by simp)
    rw [pageLines, List.mem_append] at hl
    rcases hl with hl | hl
    · rw [sectionLines, List.mem_cons, List.mem_append] at hl
      rcases hl with rfl | hl | hl
      · refine ⟨?_, by rw [headingLine, lineText_chars, List.length_take]; omega⟩
        intro p hp
        obtain ⟨x, hx, rfl⟩ := List.mem_map.mp hp
        have hx := List.mem_of_mem_take hx
        rw [List.mem_append, List.mem_cons] at hx
        rcases hx with hx | rfl | hx
        · exact h1 x hx
        · exact ⟨by decide, by decide⟩
        · rw [(List.mem_replicate.mp hx).2]; exact ⟨by decide, by decide⟩
      · obtain ⟨l', hl', rfl⟩ := List.mem_map.mp hl
        have hl' : l' ∈ c.2 := List.mem_of_mem_drop hl'
        exact ⟨fun p hp => h2 l' hl' p ((cut_prefix cols l').subset hp), by rw [cut_text, List.length_take]; omega⟩
      · rw [(List.mem_replicate.mp hl).2]
        exact ⟨fun p hp => (by cases hp), by simp [lineText]⟩
    · exact ih (fun c hc => h c (List.mem_cons_of_mem _ hc)) (i + 1) l hl

/-! ## Claims -/

/-- **C106.** With printable names and coloured lines, on a terminal with more rows than fuzzers, the page is written: the cursor
goes home; for each fuzzer there is a heading with its name, and its last lines, cut to the width, as many as its share; shares
differ by at most one; each row is followed by the sequence that erases the rest of it. One row is left free. -/
theorem C106_page (rows cols : Nat) (cs : List (Bytes × List (List Piece))) (hcs : cs ≠ []) (hr : cs.length < rows)
    (h : ∀ c ∈ cs, (∀ x ∈ c.1, 32 ≤ x.toNat ∧ x.toNat < 127) ∧ ∀ l ∈ c.2, ∀ p ∈ l, p.Ok) :
    ∃ share bufs, (∀ i j, i < cs.length → j < cs.length → share i ≤ share j + 1) ∧
      (pageLines cols share 0 cs).length + 1 = rows ∧
      refreshOutput shownLen false (some (rows, cols)) cs.length (cs.map childBytes) =
        .ok ([0x1B, 0x5B, 0x48] ++ rowsBytes (pageLines cols share 0 cs), bufs) := by
  obtain ⟨bufs, hb⟩ := @refreshChildren_page cols (rows - (cs.length + 1)) cs.length cs h 0
  refine ⟨childRows (rows - (cs.length + 1)) cs.length, bufs, ?_, ?_, ?_⟩
  · intro i j _ _
    unfold childRows
    split <;> split <;> omega
  · rw [page_length]
    simp only [Nat.zero_add]
    rw [sum_childRows _ _ (List.length_pos_iff.mpr hcs)]
    omega
  · unfold refreshOutput refresh
    simp only [Bool.false_eq_true, if_false]
    rw [if_neg (by omega)]
    simp only [assert, List.length_map, beq_self_eq_true, if_true, Out.ok_bind]
    rw [hb, Out.ok_bind]
    simp only [cursorToHomePosition, clearToEndOfLine, rowsBytes, List.flatMap_map]

/-- **C106.** After the page has been written, whatever was on the terminal: each row shows its line and nothing else, except that
the last column is always empty; the bottom row, where the cursor is, is as it was. Nothing has scrolled. -/
theorem C106_screen (sgr : Bytes → Pen → Pen) (S : Screen Pen) (hc : 0 < S.cols) (L : List (List Piece)) (hlen : L.length + 1 = S.rows)
    (hL : ∀ l ∈ L, (∀ p ∈ l, p.Ok) ∧ (lineText l).length ≤ S.cols) :
    ∃ t, (∀ t', Draws sgr ([0x1B, 0x5B, 0x48] ++ rowsBytes L) S t' ↔ t' = t) ∧ t.rows = S.rows ∧ t.cols = S.cols ∧
      t.row + 1 = S.rows ∧ t.col = 0 ∧ t.full = false ∧
      (∀ k l, L[k]? = some l → RowShows sgr t k ((L.take k).foldl (penAfter sgr) S.pen) l) ∧
      (∀ j, t.cell (S.rows - 1) j = S.cell (S.rows - 1) j) ∧
      ∀ i, i + 1 < S.rows → (t.cell i (S.cols - 1)).1 = none := by
  obtain ⟨t, h1, ⟨h2, h3⟩, h4, h5, h6, h7, h8⟩ := @rows_drawn Pen sgr L S.home 0 hL ⟨rfl, .inl ⟨hc, rfl, rfl⟩⟩ hc
    (by show 0 + L.length < S.rows; omega)
  have hd : Draws sgr ([0x1B, 0x5B, 0x48] ++ rowsBytes L) S t := .home h1
  have h5' : t.cols = S.cols := h5
  refine ⟨t, fun t' => ⟨fun h => draws_unique h hd, fun h => h ▸ hd⟩, h4, h5, by omega, by omega, ?_, ?_, ?_, ?_⟩
  · rcases h3 with ⟨-, -, h3⟩ | ⟨h3, -, -⟩
    · exact h3
    · omega
  · intro k l hk
    have := h7 k l hk
    rw [Nat.zero_add] at this
    exact this
  · intro j
    exact h8 (S.rows - 1) (.inr (by omega)) j
  · intro i hi
    obtain ⟨l, hl⟩ : ∃ l, L[i]? = some l := ⟨L[i]'(by omega), List.getElem?_eq_getElem _⟩
    have := h7 i l hl (S.cols - 1) (by omega)
    rw [Nat.zero_add] at this
    rw [this, h5']
    split
    · rw [if_neg (by omega)]
    · rfl

/-- **C106.** Nothing is left of what was shown before: on two terminals of the same size, and with the same pen, the rows of the
page are the same afterwards. -/
theorem C106_fresh (sgr : Bytes → Pen → Pen) (S S' : Screen Pen) (hr : S'.rows = S.rows) (hcols : S'.cols = S.cols) (hp : S'.pen = S.pen)
    (hc : 0 < S.cols) (L : List (List Piece)) (hlen : L.length + 1 = S.rows)
    (hL : ∀ l ∈ L, (∀ p ∈ l, p.Ok) ∧ (lineText l).length ≤ S.cols) (t t' : Screen Pen)
    (h : Draws sgr ([0x1B, 0x5B, 0x48] ++ rowsBytes L) S t) (h' : Draws sgr ([0x1B, 0x5B, 0x48] ++ rowsBytes L) S' t') :
    ∀ i, i + 1 < S.rows → ∀ j < S.cols, t.cell i j = t'.cell i j := by
  obtain ⟨u, h1, -, h2, -, -, -, h3, -⟩ := C106_screen sgr S hc L hlen hL
  obtain ⟨u', h1', -, h2', -, -, -, h3', -⟩ := C106_screen sgr S' (by omega) L (by omega) (by rw [hcols]; exact hL)
  obtain rfl := (h1 t).mp h
  obtain rfl := (h1' t').mp h'
  intro i hi j hj
  obtain ⟨l, hl⟩ : ∃ l, L[i]? = some l := ⟨L[i]'(by omega), List.getElem?_eq_getElem _⟩
  have e1 := h3 i l hl j (by omega)
  have e2 := h3' i l hl j (by omega)
  rw [e1, e2, h2, h2', hcols, hp]

/-- **C106.** If there are as many fuzzers as rows, or more, or none, only the cursor goes home: what is shown stays. -/
theorem C106_too_small (sgr : Bytes → Pen → Pen) (S : Screen Pen) (vis : Bytes → Nat) (cols : Nat) (cs : List (Bytes × List Bytes))
    (h : cs = [] ∨ S.rows ≤ cs.length) :
    refreshOutput vis false (some (S.rows, cols)) cs.length cs = .ok ([0x1B, 0x5B, 0x48], cs.map Prod.snd) ∧
      ∀ t, Draws sgr [0x1B, 0x5B, 0x48] S t ↔ t = S.home := by
  refine ⟨?_, fun t => ⟨fun ht => draws_unique ht (.home (.done _)), fun ht => ht ▸ .home (.done _)⟩⟩
  unfold refreshOutput refresh
  simp only [Bool.false_eq_true, if_false]
  by_cases hr : S.rows < cs.length + 1
  · rw [if_pos hr]; rfl
  · obtain rfl : cs = [] := h.resolve_right (by omega)
    rw [if_neg hr]; rfl

/-- **C106.** Without user interface nothing is written. -/
theorem C106_off (vis : Bytes → Nat) (term : Option (Nat × Nat)) (n : Nat) (cs : List (Bytes × List Bytes)) :
    refreshOutput vis true term n cs = .ok ([], cs.map Prod.snd) := rfl

theorem painted_chars (p : Pen) (b : Bytes) : painted sgr p (b.map .ch) = b.map fun x => (x, p) := by
  induction b with
  | nil => rfl
  | cons x b ih => simp [painted, ih]

theorem penAfter_chars (p : Pen) (b : Bytes) : penAfter sgr p (b.map .ch) = p := by
  induction b with
  | nil => rfl
  | cons x b ih => simp [penAfter, ih]

/-- **C106 (limit).** A line that sets a colour, fills the width, and sets the colour back, does not set it back: what follows,
for instance the heading of the next target, has that colour. -/
theorem C106_colour_leaks (sgr : Bytes → Pen → Pen) (S : Screen Pen) (hc : 0 < S.cols) (L : List (List Piece)) (hlen : L.length + 1 = S.rows)
    (hL : ∀ l ∈ L, (∀ p ∈ l, p.Ok) ∧ (lineText l).length ≤ S.cols) (t : Screen Pen)
    (h : Draws sgr ([0x1B, 0x5B, 0x48] ++ rowsBytes L) S t) (on off text next : Bytes) (k : Nat) (hw : S.cols ≤ text.length)
    (hk : L[k]? = some (cutLine S.cols (.sgr on :: text.map .ch ++ [.sgr off]))) (hn : L[k + 1]? = some (next.map .ch)) :
    ∀ j, j + 1 < S.cols → ∀ x, next[j]? = some x →
      t.cell (k + 1) j = (some x, sgr on ((L.take k).foldl (penAfter sgr) S.pen)) := by
  obtain ⟨u, h1, -, h2, -, -, -, h3, -⟩ := C106_screen sgr S hc L hlen hL
  obtain rfl := (h1 t).mp h
  intro j hj x hx
  have e := h3 (k + 1) _ hn j (by omega)
  have hcut : cutLine S.cols (.sgr on :: text.map .ch ++ [.sgr off]) = .sgr on :: (text.take S.cols).map .ch := by
    obtain ⟨w, hw'⟩ : ∃ w, S.cols = w + 1 := ⟨S.cols - 1, by omega⟩
    rw [hw'] at hw ⊢
    rw [List.cons_append, cutLine, ← cut_chars]
    have : ∀ (w : Nat) (b : Bytes), w ≤ b.length → cutLine w (b.map .ch ++ [.sgr off]) = cutLine w (b.map .ch) := by
      intro w b
      induction b generalizing w with
      | nil => intro hb; obtain rfl : w = 0 := by simpa using hb
               rfl
      | cons y b ih =>
        intro hb
        cases w with
        | zero => rfl
        | succ w => rw [List.map_cons, List.cons_append, cutLine, cutLine, ih w (by simpa using hb)]
    rw [this (w + 1) text hw]
  have hlt : k < L.length := by
    by_contra hc
    rw [List.getElem?_eq_none (by omega)] at hk; cases hk
  have hpen : (L.take (k + 1)).foldl (penAfter sgr) S.pen = sgr on ((L.take k).foldl (penAfter sgr) S.pen) := by
    have : L.take (k + 1) = L.take k ++ [.sgr on :: (text.take S.cols).map .ch] := by
      rw [List.take_add_one, hk, hcut]; rfl
    rw [this, List.foldl_append, List.foldl_cons, List.foldl_nil, penAfter, penAfter_chars]
  rw [e, hpen, painted_chars, List.getElem?_map, hx]
  simp only [Option.map_some]
  rw [if_pos (by omega)]

/-- **C106.** If every line leaves the pen as it found it and is shorter than the width, all headings are drawn with that pen, and
it is left so. -/
theorem C106_headings_plain (sgr : Bytes → Pen → Pen) (S : Screen Pen) (hc : 0 < S.cols) (share : Nat → Nat)
    (cs : List (Bytes × List (List Piece))) (hlen : (pageLines S.cols share 0 cs).length + 1 = S.rows)
    (hcs : ∀ c ∈ cs, (∀ x ∈ c.1, 32 ≤ x.toNat ∧ x.toNat < 127) ∧
      ∀ l ∈ c.2, (∀ p ∈ l, p.Ok) ∧ (lineText l).length < S.cols ∧ penAfter sgr S.pen l = S.pen) (t : Screen Pen)
    (h : Draws sgr ([0x1B, 0x5B, 0x48] ++ rowsBytes (pageLines S.cols share 0 cs)) S t) :
    t.pen = S.pen ∧ ∀ k name, (pageLines S.cols share 0 cs)[k]? = some (headingLine S.cols name) →
      ∀ j, j + 1 < S.cols → t.cell k j = ((name ++ 32 :: List.replicate S.cols 45)[j]?, S.pen) := by
  have hpl : ∀ l ∈ pageLines S.cols share 0 cs, penAfter sgr S.pen l = S.pen := by
    have key : ∀ (cs : List (Bytes × List (List Piece))) (i : Nat),
        (∀ c ∈ cs, ∀ l ∈ c.2, (lineText l).length < S.cols ∧ penAfter sgr S.pen l = S.pen) →
        ∀ l ∈ pageLines S.cols share i cs, penAfter sgr S.pen l = S.pen := by
      intro cs
      induction cs with
      | nil => intro i _ l hl; cases hl
      | cons c cs ih =>
        intro i hcs l hl
        rw [pageLines, List.mem_append, sectionLines, List.mem_cons, List.mem_append] at hl
        rcases hl with (rfl | hl | hl) | hl
        · exact penAfter_chars _ _
        · obtain ⟨l', hl', rfl⟩ := List.mem_map.mp hl
          obtain ⟨g1, g2⟩ := hcs c (by simp) l' (List.mem_of_mem_drop hl')
          rw [cut_all g1]; exact g2
        · rw [(List.mem_replicate.mp hl).2]; rfl
        · exact ih (i + 1) (fun c hc => hcs c (List.mem_cons_of_mem _ hc)) l hl
    exact key cs 0 fun c hc l hl => (hcs c hc).2 l hl |>.2
  have hfold : ∀ L : List (List Piece), (∀ l ∈ L, penAfter sgr S.pen l = S.pen) → L.foldl (penAfter sgr) S.pen = S.pen := by
    intro L
    induction L with
    | nil => intro _; rfl
    | cons l L ih => intro hL; rw [List.foldl_cons, hL l (by simp), ih fun l' hl' => hL l' (by simp [hl'])]
  have hL := @page_ok S.cols share cs (fun c hc => ⟨(hcs c hc).1, fun l hl => ((hcs c hc).2 l hl).1⟩) 0
  generalize pageLines S.cols share 0 cs = L at *
  obtain ⟨u, h1, -, h4, h5, h6, h7, h8⟩ := @rows_drawn Pen sgr L S.home 0 hL ⟨rfl, .inl ⟨hc, rfl, rfl⟩⟩ hc
    (by show 0 + L.length < S.rows; omega)
  obtain rfl := draws_unique h (.home h1)
  refine ⟨h6.trans (hfold L hpl), fun k name hk j hj => ?_⟩
  have e := h7 k _ hk j (by rw [h5]; show j < S.cols; omega)
  rw [Nat.zero_add, show S.home.pen = S.pen from rfl, hfold _ fun l hl => hpl l (List.mem_of_mem_take hl), h5,
    show S.home.cols = S.cols from rfl, headingLine, painted_chars, List.getElem?_map, List.getElem?_take, if_pos (by omega)] at e
  obtain ⟨x, hx⟩ : ∃ x, (name ++ 32 :: List.replicate S.cols 45)[j]? = some x :=
    ⟨_, List.getElem?_eq_getElem (by simp; omega)⟩
  rw [e, hx]
  simp only [Option.map_some]
  rw [if_pos hj]

/-! ## Examples -/

namespace ScreenDemo

def ab : Bytes := [97, 98]
def cd : Bytes := [99, 100]
def lost : Bytes := [108, 111, 115, 116]
def abcdef : Bytes := [97, 98, 99, 100, 101, 102]
def abcde : Bytes := [97, 98, 99, 100, 101]
def okay : Bytes := [111, 107]
def red : Bytes := [51, 49]
def plain : Bytes := [48]
def x : Bytes := [120]
def abHead : Bytes := [97, 98, 32, 45, 45, 45]
def cdHead : Bytes := [99, 100, 32, 45, 45, 45]

/-- `31` is red, `0` the default. -/
def colour (ps : Bytes) (p : Nat) : Nat := if ps = red then 1 else if ps = plain then 0 else p

/-- Six rows and six columns, full of `#`. -/
def S : Screen Nat := { rows := 6, cols := 6, cell := fun _ _ => (some 35, 0), row := 5, col := 0, full := false, pen := 0 }

/-- The last line of the first target is red and fills the width. -/
def cs : List (Bytes × List (List Piece)) :=
  [(ab, [lost.map .ch, x.map .ch, .sgr red :: abcdef.map .ch ++ [.sgr plain]]), (cd, [okay.map .ch])]

instance (p : Piece) : Decidable p.Ok := by
  cases p
  · exact inferInstanceAs (Decidable (_ ∧ _))
  · exact inferInstanceAs (Decidable (∀ x ∈ _, _))

theorem ok : ∀ c ∈ cs, (∀ x ∈ c.1, 32 ≤ x.toNat ∧ x.toNat < 127) ∧ ∀ l ∈ c.2, ∀ p ∈ l, p.Ok := by decide +kernel

/-- Two lines of the first target and one of the second. -/
def page : List (List Piece) := pageLines 6 (childRows 3 2) 0 cs

example : refreshOutput shownLen false (some (6, 6)) 2 (cs.map childBytes) =
    .ok ([0x1B, 0x5B, 0x48] ++ rowsBytes page, [[x, lineBytes (.sgr red :: abcdef.map .ch ++ [.sgr plain])], [okay]]) := by
  decide +kernel

example : page.map lineText = [abHead, x, abcdef, cdHead, okay] := by decide +kernel

/-- The heading `cd ---` is red, and its last dash is missing. -/
example : ∃ t, Draws colour ([0x1B, 0x5B, 0x48] ++ rowsBytes page) S t ∧ t.cell 3 0 = (some 99, 1) ∧ (t.cell 3 5).1 = none ∧
    t.cell 1 0 = (some 120, 0) ∧ (t.cell 1 1).1 = none ∧ t.cell 5 0 = (some 35, 0) := by
  have hL := @page_ok 6 (childRows 3 2) cs ok 0
  obtain ⟨t, h1, -, h2, -, -, -, h3, h4, h5⟩ := C106_screen colour S (by decide) page (by decide) hL
  have hd := (h1 t).mpr rfl
  have g1 := h3 1 _ rfl 0 (by rw [h2]; decide)
  have g2 := h3 1 _ rfl 1 (by rw [h2]; decide)
  rw [h2] at g1 g2
  refine ⟨t, hd, ?_, h5 3 (by decide), g1, by rw [g2]; rfl, h4 0⟩
  exact C106_colour_leaks colour S (by decide) page (by decide) hL t hd red plain abcdef cdHead 2 (by decide) rfl rfl
    0 (by decide) 99 rfl

/-- A shorter red line. -/
def short : List (Bytes × List (List Piece)) := [(ab, [.sgr red :: abcde.map .ch ++ [.sgr plain]]), (cd, [])]

/-- The heading is not red. -/
example : ∃ t, Draws colour ([0x1B, 0x5B, 0x48] ++ rowsBytes (pageLines 6 (childRows 3 2) 0 short)) S t ∧ t.pen = 0 ∧
    t.cell 3 0 = (some 99, 0) := by
  have hcs : ∀ c ∈ short, (∀ x ∈ c.1, 32 ≤ x.toNat ∧ x.toNat < 127) ∧
      ∀ l ∈ c.2, (∀ p ∈ l, p.Ok) ∧ (lineText l).length < S.cols ∧ penAfter colour S.pen l = S.pen := by decide +kernel
  have hL := @page_ok 6 (childRows 3 2) _ (fun c hc => ⟨(hcs c hc).1, fun l hl => ((hcs c hc).2 l hl).1⟩) 0
  obtain ⟨t, h1, -⟩ := C106_screen colour S (by decide) _ (by decide) hL
  obtain ⟨g1, g2⟩ := C106_headings_plain colour S (by decide) (childRows 3 2) _ (by decide) hcs t ((h1 t).mpr rfl)
  exact ⟨t, (h1 t).mpr rfl, g1, g2 3 cd rfl 0 (by decide)⟩

end ScreenDemo

end TF
