import Verif.Model.Ui
import Verif.Spec.Ui
import Verif.Lemmas.Utf8
import Mathlib.Tactic.Common

/-!
# The user interface (C44, C45)
-/

namespace TF

open Spec

/-! ## C45 -/

theorem isBoundary_ascii {b : Bytes} (h : Ascii b) {i : Nat} (hi : i ≤ b.length) : isBoundary b i = true := by
  unfold isBoundary
  cases hx : b[i]? with
  | none =>
    have := List.getElem?_eq_none_iff.mp hx
    simp; omega
  | some x =>
    have := h x (List.mem_of_getElem? hx)
    simp [this]

theorem sliceTo_ascii {b : Bytes} (h : Ascii b) {i : Nat} (hi : i ≤ b.length) :
    sliceTo b i = .ok (b.take i) := by
  simp [sliceTo, isBoundary_ascii h hi]

/-- The search: the result is between the bounds, everything below it shows too little, and it shows
enough unless it is the upper bound. -/
theorem widthSearch_spec (vis : Bytes → Nat) (hm : VisMono vis) (b : Bytes) (hb : Ascii b) (width : Nat) :
    ∀ k min max, max - min = k → min ≤ max → max ≤ b.length →
      (∀ j < min, vis (b.take j) < width) →
      ∃ r, widthSearch vis b width min max = .ok r ∧ min ≤ r ∧ r ≤ max ∧
        (∀ j < r, vis (b.take j) < width) ∧ (r < max → width ≤ vis (b.take r)) := by
  intro k
  induction k using Nat.strongRecOn with
  | _ k ih =>
    intro min max hk hle hlen hlow
    rw [widthSearch]
    by_cases h : min < max
    · simp only [h, dif_pos]
      rw [sliceTo_ascii hb (by omega)]
      simp only
      have mono : ∀ i j, i ≤ j → vis (b.take i) ≤ vis (b.take j) := by
        intro i j hij
        have h := List.take_append_drop i (b.take j)
        rw [List.take_take, Nat.min_eq_left hij] at h
        rw [← h]
        exact hm _ _
      by_cases hv : vis (b.take ((min + max) / 2)) < width
      · rw [if_pos hv]
        obtain ⟨r, h1, h2, h3, h4, h5⟩ := ih (max - ((min + max) / 2 + 1)) (by omega)
          ((min + max) / 2 + 1) max rfl (by omega) hlen (by
            intro j hj
            exact Nat.lt_of_le_of_lt (mono j _ (by omega)) hv)
        exact ⟨r, h1, by omega, h3, h4, h5⟩
      · rw [if_neg hv]
        obtain ⟨r, h1, h2, h3, h4, h5⟩ := ih ((min + max) / 2 - min) (by omega)
          min ((min + max) / 2) rfl (by omega) (by omega) hlow
        refine ⟨r, h1, h2, by omega, h4, ?_⟩
        intro hr
        by_cases hr' : r < (min + max) / 2
        · exact h5 hr'
        · have : r = (min + max) / 2 := by omega
          rw [this]; omega
    · have he : min = max := by omega
      rw [dif_neg h, if_pos he]
      exact ⟨min, rfl, Nat.le_refl _, hle, hlow, fun hr => absurd hr h⟩

/-- **C45.** For ASCII text and any way of counting visible bytes that never shrinks with more text,
cutting to a width returns the shortest prefix showing that many visible bytes, or the whole text if
it shows fewer. Partial: text with other characters is not covered (`C45_panics_on_other_text`). -/
theorem C45_truncation_ascii (vis : Bytes → Nat) (hm : VisMono vis) (b : Bytes) (hb : Ascii b) (width : Nat) :
    ∃ p, prefixWithWidth vis b width = .ok p ∧ ShortestShowing vis b width p := by
  obtain ⟨r, h1, -, h3, h4, h5⟩ := widthSearch_spec vis hm b hb width _ 0 b.length rfl (by omega)
    (Nat.le_refl _) (by omega)
  refine ⟨b.take r, ?_, List.take_prefix _ _, ?_, ?_⟩
  · unfold prefixWithWidth
    rw [h1, Out.ok_bind, sliceTo_ascii hb h3]
  · by_cases hr : r < b.length
    · exact Or.inl (h5 hr)
    · have : r = b.length := by omega
      rw [this, List.take_length]
      by_cases hv : width ≤ vis b
      · exact Or.inl hv
      · exact Or.inr ⟨rfl, by omega⟩
  · intro q hq hlen
    rw [List.length_take, Nat.min_eq_left h3] at hlen
    have : q = b.take q.length := List.prefix_iff_eq_take.mp hq
    rw [this]
    exact h4 _ hlen

/-- **C45 (divider).** For plain ASCII target names the divider fills the width exactly: it shows `width`
bytes and begins with the name (cut to the width). -/
theorem C45_divider_ascii (vis : Bytes → Nat) (hm : VisMono vis) (hp : VisPlain vis) (target : Bytes)
    (ht : ∀ x ∈ target, 32 ≤ x.toNat ∧ x.toNat < 127) (width : Nat) :
    ∃ d, dividerWithWidth vis target width = .ok d ∧ d.length = width ∧ vis d = width ∧
      target.take width <+: d := by
  have hpre : ∀ x ∈ target ++ [32], 32 ≤ x.toNat ∧ x.toNat < 127 := by
    intro x hx
    rcases List.mem_append.mp hx with h | h
    · exact ht x h
    · simp at h; subst h; decide
  have hascii : Ascii (target ++ [32]) := fun x hx => by have := hpre x hx; omega
  unfold dividerWithWidth
  simp only
  by_cases hw : (target ++ [32]).length ≥ width
  · rw [if_pos hw]
    obtain ⟨p, h1, h2, h3, h4⟩ := C45_truncation_ascii vis hm _ hascii width
    have hvp : vis p = p.length := hp p fun x hx => hpre x (h2.subset hx)
    have hlen : p.length = width := by
      have hge : width ≤ p.length := by
        rcases h3 with h3 | ⟨h3, h5⟩
        · omega
        · rw [h3]; exact hw
      by_contra hne
      have hlt : width < p.length := by omega
      have := h4 (p.take width) ((List.take_prefix _ _).trans h2) (by simp; omega)
      rw [hp (p.take width) fun x hx => hpre x (h2.subset (List.mem_of_mem_take hx))] at this
      simp at this
      omega
    refine ⟨p, h1, hlen, by omega, ?_⟩
    have he : p = (target ++ [32]).take width := by
      rw [List.prefix_iff_eq_take] at h2; rw [h2, hlen]
    rw [he, List.take_append]
    exact List.prefix_append _ _
  · rw [if_neg hw]
    have hlen : (target ++ [(32 : UInt8)] ++ List.replicate (width - (target ++ [(32 : UInt8)]).length) (45 : UInt8)).length = width := by
      simp only [List.length_append, List.length_replicate] at hw ⊢
      omega
    refine ⟨_, rfl, hlen, ?_, ?_⟩
    · rw [hp, hlen]
      intro x hx
      rcases List.mem_append.mp hx with h | h
      · exact hpre x h
      · rw [List.mem_replicate] at h; rw [h.2]; decide
    · have : target.take width = target := List.take_of_length_le (by simp at hw; omega)
      rw [this, List.append_assoc]
      exact List.prefix_append _ _

/-- **C45 (limit).** For text that is not ASCII the code panics: cutting `é` (two bytes) to width 1 slices
inside the character – however visible bytes are counted. -/
theorem C45_panics_on_other_text (vis : Bytes → Nat) : prefixWithWidth vis (utf8Encode c%"é") 1 = .panic := by
  have h : utf8Encode c%"é" = [0xC3, 0xA9] := by decide +kernel
  rw [h]
  unfold prefixWithWidth
  rw [widthSearch]
  rfl

/-- A simplified escape-sequence filter for non-vacuity: drops `ESC [ ... letter` and control characters,
counts the rest. (0: text, 1: after ESC, 2: inside a sequence.) -/
def exVisFrom : Nat → Bytes → Nat
  | _, [] => 0
  | 0, x :: xs =>
    if x = 27 then exVisFrom 1 xs else if x.toNat < 32 then exVisFrom 0 xs else 1 + exVisFrom 0 xs
  | 1, x :: xs => if x = 91 then exVisFrom 2 xs else exVisFrom 0 xs
  | k + 2, x :: xs => if 64 ≤ x.toNat ∧ x.toNat < 127 then exVisFrom 0 xs else exVisFrom (k + 2) xs

def exVis (b : Bytes) : Nat := exVisFrom 0 b

theorem exVis_mono : VisMono exVis := by
  have : ∀ (a b : Bytes) (s : Nat), exVisFrom s a ≤ exVisFrom s (a ++ b) := by
    intro a b
    induction a with
    | nil => intro s; cases s <;> simp [exVisFrom]
    | cons x xs ih =>
      intro s
      rw [List.cons_append]
      match s with
      | 0 =>
        simp only [exVisFrom]
        split
        · exact ih 1
        · split
          · exact ih 0
          · exact Nat.add_le_add_left (ih 0) 1
      | 1 => simp only [exVisFrom]; split <;> exact ih _
      | k + 2 => simp only [exVisFrom]; split <;> exact ih _
  exact fun a b => this a b 0

theorem exVis_plain : VisPlain exVis := by
  intro b hb
  unfold exVis
  induction b with
  | nil => rfl
  | cons x xs ih =>
    have hx := hb x List.mem_cons_self
    have h27 : x ≠ 27 := by rintro rfl; simp at hx
    simp only [exVisFrom, h27, if_false, Nat.not_lt.mpr hx.1, List.length_cons]
    rw [ih fun y hy => hb y (List.mem_cons_of_mem _ hy)]
    omega

/-- Non-vacuity of C45: a coloured line cut to three visible bytes keeps the colour sequence. -/
example : VisMono exVis ∧ VisPlain exVis ∧ Ascii [27, 91, 51, 49, 109, 97, 98, 99, 100] ∧
    prefixWithWidth exVis [27, 91, 51, 49, 109, 97, 98, 99, 100] 3 =
      .ok [27, 91, 51, 49, 109, 97, 98, 99] :=
  ⟨exVis_mono, exVis_plain, by unfold Ascii; decide, by decide +kernel⟩

/-! ## C44 -/

theorem childLines_length {vis : Bytes → Nat} {cols : Nat} {buf : List Bytes} {is : List Nat} {rows : List Bytes}
    (h : childLines vis cols buf is = .ok rows) : rows.length = is.length := by
  induction is generalizing rows with
  | nil => simp [childLines] at h; simp [← h]
  | cons i is ih =>
    unfold childLines at h
    cases h1 : rowOf vis cols buf[i]? with
    | ok row =>
      rw [h1, Out.ok_bind] at h
      cases h2 : childLines vis cols buf is with
      | ok r =>
        rw [h2, Out.ok_bind] at h
        simp only [Out.ok.injEq] at h
        subst h
        simp [ih h2]
      | _ => rw [h2] at h; cases h
    | _ => rw [h1] at h; cases h

/-- What the rows of one child show. -/
theorem childLines_spec {vis : Bytes → Nat} {cols : Nat} {buf : List Bytes} {is : List Nat} {rows : List Bytes}
    (h : childLines vis cols buf is = .ok rows) (j : Nat) (hj : j < is.length) :
    match buf[is[j]]? with
    | some line => prefixWithWidth vis line cols = .ok (rows[j]?.getD [])
    | none => rows[j]? = some [] := by
  induction is generalizing rows j with
  | nil => simp at hj
  | cons i is ih =>
    unfold childLines at h
    cases h1 : rowOf vis cols buf[i]? with
    | ok row =>
      rw [h1, Out.ok_bind] at h
      cases h2 : childLines vis cols buf is with
      | ok r =>
        rw [h2, Out.ok_bind] at h
        simp only [Out.ok.injEq] at h
        subst h
        cases j with
        | zero =>
          simp only [List.getElem_cons_zero, List.getElem?_cons_zero, Option.getD_some, Option.some.injEq]
          cases hb : buf[i]? with
          | none => rw [hb] at h1; simpa [rowOf] using h1.symm
          | some line => rw [hb] at h1; exact h1
        | succ j =>
          have := ih h2 j (by simpa using hj)
          simpa using this
      | _ => rw [h2] at h; cases h
    | _ => rw [h1] at h; cases h

/-- One child's section of the screen: the divider, then its last lines, one per row, then empty rows; and
the buffer is cut to those lines. -/
def SectionShows (vis : Bytes → Nat) (cols : Nat) (child : Bytes × List Bytes) (share : Nat)
    (sect : List Bytes) (buf' : List Bytes) : Prop :=
  buf' = lastN share child.2 ∧ sect.length = share + 1 ∧
    dividerWithWidth vis child.1 cols = .ok (sect[0]?.getD []) ∧
    ∀ j < share, match (lastN share child.2)[j]? with
      | some line => prefixWithWidth vis line cols = .ok (sect[j + 1]?.getD [])
      | none => sect[j + 1]? = some []

theorem refreshChildren_spec {vis : Bytes → Nat} {cols avail n : Nat} {cs : List (Bytes × List Bytes)}
    {i : Nat} {rows : List Bytes} {bufs : List (List Bytes)}
    (h : refreshChildren vis cols avail n i cs = .ok (rows, bufs)) :
    ∃ sects : List (List Bytes), rows = sects.flatten ∧ sects.length = cs.length ∧
      bufs.length = cs.length ∧
      ∀ (k : Nat) (child : Bytes × List Bytes), cs[k]? = some child →
        ∃ sect buf', sects[k]? = some sect ∧ bufs[k]? = some buf' ∧
          SectionShows vis cols child (childRows avail n (i + k)) sect buf' := by
  induction cs generalizing i rows bufs with
  | nil =>
    simp only [refreshChildren, Out.ok.injEq, Prod.mk.injEq] at h
    exact ⟨[], by simp [← h.1], rfl, by simp [← h.2], by simp⟩
  | cons c cs ih =>
    obtain ⟨target, buf⟩ := c
    unfold refreshChildren at h
    cases h1 : dividerWithWidth vis target cols with
    | ok head =>
      rw [h1, Out.ok_bind] at h
      simp only at h
      cases h2 : childLines vis cols (buf.drop (buf.length - childRows avail n i))
          (List.range (childRows avail n i)) with
      | ok rs =>
        rw [h2, Out.ok_bind] at h
        cases h3 : refreshChildren vis cols avail n (i + 1) cs with
        | ok p =>
          obtain ⟨rest, bufs'⟩ := p
          rw [h3, Out.ok_bind] at h
          simp only [Out.ok.injEq, Prod.mk.injEq] at h
          obtain ⟨sects, e1, e2, e3, e4⟩ := ih h3
          refine ⟨(head :: rs) :: sects, ?_, by simp [e2], by rw [← h.2]; simp [e3], ?_⟩
          · rw [← h.1, e1]; simp
          · intro k child hk
            cases k with
            | zero =>
              simp only [List.getElem?_cons_zero, Option.some.injEq] at hk
              subst hk
              refine ⟨head :: rs, _, by simp, by rw [← h.2]; simp; rfl, ?_⟩
              have hl := childLines_length h2
              refine ⟨rfl, by simpa using hl, by simpa using h1, ?_⟩
              intro j hj
              have := childLines_spec h2 j (by simpa using hj)
              simpa [lastN] using this
            | succ k =>
              obtain ⟨sect, buf', s1, s2, s3⟩ := e4 k child (by simpa using hk)
              refine ⟨sect, buf', by simpa using s1, by rw [← h.2]; simpa using s2, ?_⟩
              rw [show i + (k + 1) = i + 1 + k by omega]
              exact s3
        | _ => rw [h3] at h; cases h
      | _ => rw [h2] at h; cases h
    | _ => rw [h1] at h; cases h

/-- The shares add up. -/
theorem sum_childRows (avail n : Nat) (hn : 0 < n) :
    ((List.range n).map (childRows avail n)).sum = avail := by
  have key : ∀ m, m ≤ n → ((List.range m).map (childRows avail n)).sum =
      m * (avail / n) + min m (avail % n) := by
    intro m hm
    induction m with
    | zero => simp
    | succ m ih =>
      rw [List.range_succ, List.map_append, List.sum_append, ih (by omega)]
      simp only [List.map_cons, List.map_nil, List.sum_cons, List.sum_nil, childRows]
      have : (m + 1) * (avail / n) = m * (avail / n) + avail / n := Nat.succ_mul _ _
      split <;> omega
  rw [key n (Nat.le_refl _), Nat.min_eq_right (Nat.le_of_lt (Nat.mod_lt _ hn))]
  exact Nat.div_add_mod _ _

/-- **C44.** A successful refresh on a terminal of `rows` rows either prints nothing and keeps the buffers
(user interface off, no fuzzers, or more fuzzers than rows), or prints exactly `rows - 1` rows: one section per
fuzzer, in order, consisting of its divider and its last lines. The sections' heights differ by at most
one, and each buffer is cut to what is shown. -/
theorem C44_refresh_fits (vis : Bytes → Nat) (noUi : Bool) (term : Option (Nat × Nat))
    (cs : List (Bytes × List Bytes)) (out : List Bytes) (bufs : List (List Bytes))
    (h : refresh vis noUi term cs.length cs = .ok (out, bufs)) :
    (out = [] ∧ bufs = cs.map Prod.snd ∧
      (noUi = true ∨ cs = [] ∨ ∃ r c, term = some (r, c) ∧ r ≤ cs.length)) ∨
    (noUi = false ∧ ∃ rows cols, term = some (rows, cols) ∧ out.length = rows - 1 ∧
      ∃ (sects : List (List Bytes)) (share : Nat → Nat),
        out = sects.flatten ∧ sects.length = cs.length ∧ bufs.length = cs.length ∧
        (∀ i j, i < cs.length → j < cs.length → share i ≤ share j + 1) ∧
        ∀ (k : Nat) (child : Bytes × List Bytes), cs[k]? = some child →
          ∃ sect buf', sects[k]? = some sect ∧ bufs[k]? = some buf' ∧
            SectionShows vis cols child (share k) sect buf') := by
  unfold refresh at h
  cases noUi with
  | true =>
    simp only [if_true, Out.ok.injEq, Prod.mk.injEq] at h
    exact Or.inl ⟨h.1.symm, h.2.symm, Or.inl rfl⟩
  | false =>
    simp only [Bool.false_eq_true, if_false] at h
    cases term with
    | none => cases h
    | some p =>
      obtain ⟨rows, cols⟩ := p
      simp only at h
      by_cases hr : rows < cs.length + 1
      · rw [if_pos hr] at h
        simp only [Out.ok.injEq, Prod.mk.injEq] at h
        exact Or.inl ⟨h.1.symm, h.2.symm, Or.inr (Or.inr ⟨rows, cols, rfl, by omega⟩)⟩
      · rw [if_neg hr] at h
        simp only [assert, beq_self_eq_true, if_true, Out.ok_bind] at h
        obtain ⟨sects, e1, e2, e3, e4⟩ := refreshChildren_spec h
        by_cases hcs : cs = []
        · subst hcs
          simp only [refreshChildren, Out.ok.injEq, Prod.mk.injEq] at h
          exact Or.inl ⟨h.1.symm, by simpa using h.2.symm, Or.inr (Or.inl rfl)⟩
        · refine Or.inr ⟨rfl, rows, cols, rfl, ?_, sects, childRows (rows - (cs.length + 1)) cs.length,
            e1, e2, e3, ?_, ?_⟩
          · have hpos : 0 < cs.length := List.length_pos_iff.mpr hcs
            have hl : sects.map List.length =
                (List.range cs.length).map fun k => childRows (rows - (cs.length + 1)) cs.length k + 1 := by
              apply List.ext_getElem?
              intro k
              rw [List.getElem?_map, List.getElem?_map]
              by_cases hk : k < cs.length
              · obtain ⟨sect, buf', s1, -, s3⟩ := e4 k cs[k] (List.getElem?_eq_getElem hk)
                rw [s1, List.getElem?_range hk]
                simp [s3.2.1]
              · rw [List.getElem?_eq_none (by omega), List.getElem?_eq_none (by simp; omega)]
                rfl
            rw [e1, List.length_flatten, hl]
            have : ∀ (m : Nat) (f : Nat → Nat), ((List.range m).map fun k => f k + 1).sum =
                ((List.range m).map f).sum + m := by
              intro m f
              induction m with
              | zero => rfl
              | succ m ih => simp [List.range_succ, ih]; omega
            rw [this, sum_childRows _ _ hpos]
            omega
          · intro i j _ _
            unfold childRows
            split <;> split <;> omega
          · intro k child hk
            have := e4 k child hk
            rwa [Nat.zero_add] at this

/-- **C44 (it does succeed).** With a terminal and ASCII text, refresh succeeds. -/
theorem C44_refresh_succeeds (vis : Bytes → Nat) (hm : VisMono vis) (noUi : Bool) (rows cols : Nat)
    (cs : List (Bytes × List Bytes)) (hascii : ∀ c ∈ cs, Ascii c.1 ∧ ∀ l ∈ c.2, Ascii l) :
    ∃ r, refresh vis noUi (some (rows, cols)) cs.length cs = .ok r := by
  have hpw : ∀ b, Ascii b → ∃ p, prefixWithWidth vis b cols = .ok p := fun b hb =>
    (C45_truncation_ascii vis hm b hb cols).imp fun _ h => h.1
  have hdiv : ∀ b, Ascii b → ∃ p, dividerWithWidth vis b cols = .ok p := by
    intro b hb
    unfold dividerWithWidth
    simp only
    split
    · refine hpw _ ?_
      intro x hx
      rcases List.mem_append.mp hx with h | h
      · exact hb x h
      · simp at h; subst h; decide
    · exact ⟨_, rfl⟩
  have hlines : ∀ buf : List Bytes, (∀ l ∈ buf, Ascii l) → ∀ is, ∃ r, childLines vis cols buf is = .ok r := by
    intro buf hbuf is
    induction is with
    | nil => exact ⟨[], rfl⟩
    | cons i is ih =>
      obtain ⟨r, hr⟩ := ih
      unfold childLines
      cases hb : buf[i]? with
      | none => exact ⟨[] :: r, by simp [rowOf, hr]⟩
      | some line =>
        obtain ⟨p, hp⟩ := hpw line (hbuf line (List.mem_of_getElem? hb))
        exact ⟨p :: r, by simp [rowOf, hp, hr]⟩
  have hall : ∀ (avail n i : Nat) (cs : List (Bytes × List Bytes)),
      (∀ c ∈ cs, Ascii c.1 ∧ ∀ l ∈ c.2, Ascii l) → ∃ r, refreshChildren vis cols avail n i cs = .ok r := by
    intro avail n i cs hcs
    induction cs generalizing i with
    | nil => exact ⟨_, rfl⟩
    | cons c cs ih =>
      obtain ⟨target, buf⟩ := c
      obtain ⟨d, hd⟩ := hdiv target (hcs _ List.mem_cons_self).1
      obtain ⟨rs, hrs⟩ := hlines (buf.drop (buf.length - childRows avail n i))
        (fun l hl => (hcs _ List.mem_cons_self).2 l (List.mem_of_mem_drop hl))
        (List.range (childRows avail n i))
      obtain ⟨r, hr⟩ := ih (i + 1) fun c hc => hcs c (List.mem_cons_of_mem _ hc)
      obtain ⟨a, b⟩ := r
      unfold refreshChildren
      rw [hd, Out.ok_bind]
      simp only
      rw [hrs, Out.ok_bind, hr, Out.ok_bind]
      exact ⟨_, rfl⟩
  unfold refresh
  cases noUi with
  | true => exact ⟨_, rfl⟩
  | false =>
    simp only [Bool.false_eq_true, if_false]
    split
    · exact ⟨_, rfl⟩
    · simp only [assert, beq_self_eq_true, if_true, Out.ok_bind]
      exact hall _ _ _ cs hascii

/-- Non-vacuity of C44: two fuzzers on a terminal with 8 rows and 4 columns. -/
example : refresh exVis false (some (8, 4)) 2 [([97], [[98], [99], [100], [101]]), ([102], [])] =
    .ok ([[97, 32, 45, 45], [99], [100], [101], [102, 32, 45, 45], [], []], [[[99], [100], [101]], []]) := by
  decide +kernel

end TF
