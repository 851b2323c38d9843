import Verif.Spec.Bincode
import Verif.Props.PostcardWire

/-!
# C76: the format with the feature `serde_bincode`
-/

namespace TF

open Spec

/-! ## Numbers -/

theorem little_iff {k n : Nat} {b : Bytes} : Little k n b ↔ b.length = k ∧ leValue b = n := by
  constructor
  · intro h
    induction h with
    | nil => exact ⟨rfl, rfl⟩
    | cons x h ih => exact ⟨by rw [List.length_cons, ih.1], by rw [leValue, ih.2]⟩
  · rintro ⟨rfl, rfl⟩
    induction b with
    | nil => exact .nil
    | cons x b ih => exact .cons x ih

theorem Spec.Little.lt {k n : Nat} {b : Bytes} (h : Little k n b) : n < 256 ^ k := by
  induction h with
  | nil => decide
  | cons x h ih =>
    have := x.toNat_lt
    rw [Nat.pow_succ]
    omega

theorem Spec.Little.unique {k n : Nat} {b b' : Bytes} (h : Little k n b) (h' : Little k n b') : b = b' := by
  induction h generalizing b' with
  | nil => cases h'; rfl
  | @cons k n r x h ih =>
    generalize hm : x.toNat + 256 * n = m at h'
    generalize hk : k + 1 = l at h'
    cases h' with
    | nil => cases hk
    | @cons k' n' r' y h' =>
      have h1 := x.toNat_lt
      have h2 := y.toNat_lt
      obtain rfl : k = k' := by omega
      obtain rfl : n = n' := by omega
      obtain rfl : x = y := UInt8.toNat_inj.mp (by omega)
      rw [ih h']

theorem leBytes_little : ∀ {k n : Nat}, n < 256 ^ k → Little k n (leBytes k n)
  | 0, n, h => by
    have : n = 0 := by simpa using h
    subst this
    exact .nil
  | k + 1, n, h => by
    have e : (UInt8.ofNat (n % 256)).toNat = n % 256 := toNat_ofNat_lt (Nat.mod_lt _ (by decide))
    have := Little.cons (UInt8.ofNat (n % 256)) (leBytes_little (k := k) (n := n / 256)
      ((Nat.div_lt_iff_lt_mul (by decide)).mpr (by rwa [Nat.pow_succ] at h)))
    rw [e, Nat.mod_add_div] at this
    exact this

theorem octets_cap (w : Wd) : 256 ^ octets w = 2 * half w := by cases w <;> rfl

theorem octets_bits (w : Wd) : w.bits / 8 = octets w := by cases w <;> rfl

theorem octets_le {u w : Wd} : octets u ≤ octets w ↔ u.bits ≤ w.bits := by cases u <;> cases w <;> decide

theorem capacity_mono {u w : Wd} (h : octets u ≤ octets w) : 2 * half u ≤ 2 * half w := by
  rw [← octets_cap, ← octets_cap]; exact Nat.pow_le_pow_right (by decide) h

theorem Spec.TaggedNum.lt {n : Nat} {t : Option Wd} {b : Bytes} (h : TaggedNum n t b) : n < capacity t := by
  cases h with
  | one x hx => simp only [capacity]; omega
  | more w h => simp only [capacity, ← octets_cap]; exact h.lt

theorem capacity_inj {t u : Option Wd} (h : capacity t = capacity u) : t = u := by
  cases t with
  | none => cases u with
    | none => rfl
    | some u => cases u <;> simp [capacity, half] at h
  | some t => cases u with
    | none => cases t <;> simp [capacity, half] at h
    | some u => cases t <;> cases u <;> first | rfl | simp [capacity, half] at h

theorem Spec.TaggedNum.unique {n : Nat} {t : Option Wd} {b b' : Bytes} (h : TaggedNum n t b) (h' : TaggedNum n t b') : b = b' := by
  cases h with
  | one x hx =>
    generalize hm : x.toNat = m at h'
    cases h' with
    | one y hy => rw [UInt8.toNat_inj.mp hm]
  | more w h => cases h' with
    | more _ h' => rw [h.unique h']

theorem Spec.Tight.unique {n : Nat} {b b' : Bytes} (h : Tight n b) (h' : Tight n b') : b = b' := by
  obtain ⟨t, h1, h2⟩ := h
  obtain ⟨t', h1', h2'⟩ := h'
  obtain rfl := capacity_inj (Nat.le_antisymm (h2 t' h1'.lt) (h2' t h1.lt))
  exact h1.unique h1'

theorem binVarint_tight {n : Nat} (h : n < 2 ^ 128) : Tight n (binVarint n) := by
  unfold binVarint
  have cases' : ∀ t', n < capacity t' → (∀ w, t' = some w → n < 2 * half w) ∧ (t' = none → n < 251) :=
    fun t' h => ⟨fun w e => by subst e; exact h, fun e => by subst e; exact h⟩
  split
  · next h1 =>
    have e : (UInt8.ofNat n).toNat = n := toNat_ofNat_lt (by omega)
    refine ⟨none, ?_, ?_⟩
    · have := TaggedNum.one (UInt8.ofNat n) (by omega)
      rwa [e] at this
    · intro t' _
      cases t' with
      | none => exact Nat.le_refl _
      | some w => cases w <;> decide
  · next h1 =>
    have big : ∀ (w : Wd), n < 256 ^ octets w → (∀ u, n < 2 * half u → octets w ≤ octets u) →
        Tight n (tag w :: leBytes (octets w) n) := by
      intro w hw hu
      refine ⟨some w, .more w (leBytes_little hw), ?_⟩
      intro t' ht
      cases t' with
      | none => simp only [capacity] at ht; omega
      | some u => exact capacity_mono (hu u ht)
    split
    · next h2 => exact big .w16 h2 fun u hu => by cases u <;> decide
    · next h2 =>
      split
      · next h3 =>
        exact big .w32 h3 fun u hu => by
          cases u <;> first | decide | (simp only [half] at hu; omega)
      · next h3 =>
        split
        · next h4 =>
          exact big .w64 h4 fun u hu => by
            cases u <;> first | decide | (simp only [half] at hu; omega)
        · next h4 =>
          exact big .w128 h fun u hu => by
            cases u <;> first | decide | (simp only [half] at hu; omega)

theorem takeExact_iff {n : Nat} {b x r : Bytes} : takeExact n b = some (x, r) ↔ b = x ++ r ∧ x.length = n := by
  unfold takeExact
  split
  · next hn =>
    simp only [Option.some.injEq, Prod.mk.injEq]
    constructor
    · rintro ⟨rfl, rfl⟩; exact ⟨(List.take_append_drop n b).symm, by simp [hn]⟩
    · rintro ⟨rfl, rfl⟩; simp
  · next hn =>
    simp only [reduceCtorEq, false_iff]
    rintro ⟨rfl, rfl⟩
    simp at hn

theorem takeLe_iff {k n : Nat} {b r : Bytes} : takeLe k b = some (n, r) ↔ ∃ pre, b = pre ++ r ∧ Little k n pre := by
  unfold takeLe
  simp only [Option.bind_eq_bind, Option.bind_eq_some_iff, Option.some.injEq, Prod.mk.injEq, Prod.exists, takeExact_iff,
    little_iff]
  constructor
  · rintro ⟨x, r', ⟨h1, h2⟩, h3, rfl⟩; exact ⟨x, h1, h2, h3⟩
  · rintro ⟨x, h1, h2, h3⟩; exact ⟨x, r, ⟨h1, h2⟩, h3, rfl⟩

theorem takeBinVarint_iff (w : Wd) {n : Nat} {b r : Bytes} :
    takeBinVarint w.bits b = some (n, r) ↔ ∃ pre, b = pre ++ r ∧ BinNumber w n pre := by
  cases b with
  | nil =>
    simp only [takeBinVarint, reduceCtorEq, false_iff]
    rintro ⟨pre, h, t, ht, -⟩
    cases ht <;> simp at h
  | cons x b =>
    have tagged : ∀ u : Wd, x = tag u → ((∃ pre, x :: b = pre ++ r ∧ BinNumber w n pre) ↔
        u.bits ≤ w.bits ∧ takeLe (octets u) b = some (n, r)) := by
      rintro u rfl
      rw [takeLe_iff]
      constructor
      · rintro ⟨pre, h, t, ht, hu⟩
        cases ht with
        | one y hy =>
          simp only [List.cons_append, List.nil_append, List.cons.injEq] at h
          obtain ⟨rfl, -⟩ := h
          cases u <;> exact absurd hy (by decide)
        | more u' hl =>
          simp only [List.cons_append, List.cons.injEq] at h
          obtain rfl : u = u' := by revert h; cases u <;> cases u' <;> simp [tag]
          exact ⟨octets_le.mp (hu u rfl), _, h.2, hl⟩
      · rintro ⟨h1, pre, rfl, h3⟩
        exact ⟨_, rfl, some u, .more u h3, by rintro _ ⟨⟩; exact octets_le.mpr h1⟩
    have hif : ∀ (u : Wd), (if u.bits ≤ w.bits then takeLe (octets u) b else none) = some (n, r) ↔
        u.bits ≤ w.bits ∧ takeLe (octets u) b = some (n, r) := by
      intro u; split <;> simp [*]
    rw [takeBinVarint]
    split
    · next h1 =>
      simp only [Option.some.injEq, Prod.mk.injEq]
      constructor
      · rintro ⟨rfl, rfl⟩; exact ⟨[x], rfl, none, .one x h1, by simp⟩
      · rintro ⟨pre, h, t, ht, hu⟩
        cases ht with
        | one y hy =>
          simp only [List.cons_append, List.nil_append, List.cons.injEq] at h
          obtain ⟨rfl, rfl⟩ := h
          exact ⟨rfl, rfl⟩
        | more u hl =>
          simp only [List.cons_append, List.cons.injEq] at h
          obtain ⟨rfl, -⟩ := h
          cases u <;> exact absurd h1 (by decide)
    · next h1 =>
      split
      · next h2 => rw [tagged .w16 h2]; exact hif .w16
      · split
        · next h2 => rw [tagged .w32 h2]; exact hif .w32
        · split
          · next h2 => rw [tagged .w64 h2]; exact hif .w64
          · split
            · next h2 => rw [tagged .w128 h2]; exact hif .w128
            · next g1 g2 g3 g4 =>
              simp only [reduceCtorEq, false_iff]
              rintro ⟨pre, h, t, ht, hu⟩
              cases ht with
              | one y hy =>
                simp only [List.cons_append, List.nil_append, List.cons.injEq] at h
                obtain ⟨rfl, -⟩ := h
                exact h1 hy
              | more u hl =>
                simp only [List.cons_append, List.cons.injEq] at h
                obtain ⟨rfl, -⟩ := h
                cases u
                · exact g1 rfl
                · exact g2 rfl
                · exact g3 rfl
                · exact g4 rfl

theorem claim_iff {lim n used used' : Nat} : claim lim n used = some used' ↔ used' = used + n ∧ used' ≤ lim := by
  unfold claim
  split
  · simp only [Option.some.injEq]; omega
  · simp only [reduceCtorEq, false_iff]; omega

theorem takeNum_iff (w : Wd) {lim n used used' : Nat} {b r : Bytes} : takeNum lim w.bits used b = some (n, used', r) ↔
    ∃ pre, b = pre ++ r ∧ BinNumber w n pre ∧ used' = used + octets w ∧ used' ≤ lim := by
  unfold takeNum
  simp only [Option.bind_eq_bind, Option.bind_eq_some_iff, Option.some.injEq, Prod.mk.injEq, Prod.exists, claim_iff,
    octets_bits, takeBinVarint_iff]
  constructor
  · rintro ⟨u, ⟨h1, h2⟩, m, r', ⟨pre, h3, h4⟩, rfl, rfl, rfl⟩; exact ⟨pre, h3, h4, h1, h2⟩
  · rintro ⟨pre, h3, h4, h1, h2⟩; exact ⟨used', ⟨h1, h2⟩, n, r, ⟨pre, h3, h4⟩, rfl, rfl, rfl⟩

theorem takeClaimed_iff {lim n used used' : Nat} {b x r : Bytes} : takeClaimed lim n used b = some (x, used', r) ↔
    b = x ++ r ∧ x.length = n ∧ used' = used + n ∧ used' ≤ lim := by
  unfold takeClaimed
  simp only [Option.bind_eq_bind, Option.bind_eq_some_iff, Option.some.injEq, Prod.mk.injEq, Prod.exists, claim_iff,
    takeExact_iff]
  constructor
  · rintro ⟨u, ⟨h1, h2⟩, m, r', ⟨h3, h4⟩, rfl, rfl, rfl⟩; exact ⟨h3, h4, h1, h2⟩
  · rintro ⟨h3, h4, h1, h2⟩; exact ⟨used', ⟨h1, h2⟩, x, r, ⟨h3, h4⟩, rfl, rfl, rfl⟩

theorem takeClaimed_one {lim used : Nat} (x : UInt8) (r : Bytes) (h : used + 1 ≤ lim) :
    takeClaimed lim 1 used ([x] ++ r) = some ([x], used + 1, r) := takeClaimed_iff.mpr ⟨rfl, rfl, rfl, h⟩

/-! ## Characters -/

theorem charWidth_encode (c : Char) : ∃ b x, encodeChar c = b :: x ∧ charWidth b = x.length + 1 ∧
    (x = [] → Char.ofNat b.toNat = c) := by
  have hlt := char_lt c
  unfold encodeChar
  simp only
  split
  · next h =>
    refine ⟨_, _, rfl, ?_, fun _ => ?_⟩
    · rw [charWidth, toNat_ofNat_lt (by omega), if_pos h]; rfl
    · rw [toNat_ofNat_lt (by omega), Char.ofNat_toNat]
  · split
    · next h1 h2 =>
      refine ⟨_, _, rfl, ?_, fun h => by cases h⟩
      rw [charWidth, toNat_ofNat_lt (by omega), if_neg (by omega), if_neg (by omega), if_pos (by omega)]; rfl
    · split
      · next h1 h2 h3 =>
        refine ⟨_, _, rfl, ?_, fun h => by cases h⟩
        rw [charWidth, toNat_ofNat_lt (by omega), if_neg (by omega), if_neg (by omega), if_neg (by omega),
          if_pos (by omega)]; rfl
      · next h1 h2 h3 =>
        refine ⟨_, _, rfl, ?_, fun h => by cases h⟩
        rw [charWidth, toNat_ofNat_lt (by omega), if_neg (by omega), if_neg (by omega), if_neg (by omega),
          if_neg (by omega), if_pos (by omega)]; rfl

theorem encodeChar_ascii {b : UInt8} (h : b.toNat < 0x80) : encodeChar (Char.ofNat b.toNat) = [b] := by
  have e : (Char.ofNat b.toNat).toNat = b.toNat := by
    have hv : b.toNat.isValidChar := by simp only [Nat.isValidChar]; omega
    simp [Char.ofNat, hv, Char.ofNatAux, Char.toNat]
  unfold encodeChar
  simp only [e, if_pos h]
  simp

theorem takeChar_iff {lim used used' : Nat} {b r : Bytes} {c : Char} : takeChar lim used b = some (c, used', r) ↔
    b = encodeChar c ++ r ∧ used' = used + (encodeChar c).length ∧ used' ≤ lim := by
  obtain ⟨d, x, hc, hw, ha⟩ := charWidth_encode c
  cases b with
  | nil => simp [takeChar, hc]
  | cons e b =>
    simp only [takeChar]
    constructor
    · intro h
      split at h
      · cases h
      · next h0 =>
        simp only [Option.bind_eq_bind] at h
        obtain ⟨u, h1, h⟩ := Option.bind_eq_some_iff.mp h
        rw [claim_iff] at h1
        split at h
        · next h1w =>
          simp only [Option.some.injEq, Prod.mk.injEq] at h
          obtain ⟨rfl, rfl, rfl⟩ := h
          have hlt : e.toNat < 0x80 := by
            unfold charWidth at h1w
            split at h1w
            · assumption
            · repeat' (split at h1w; · simp at h1w)
              simp at h1w
          rw [encodeChar_ascii hlt]
          exact ⟨rfl, by rw [h1.1, h1w]; rfl, h1.2⟩
        · next hn1 =>
          obtain ⟨⟨y, r'⟩, h2, h5⟩ := Option.bind_eq_some_iff.mp h
          clear h
          simp only at h5
          obtain ⟨rfl, hy⟩ := takeExact_iff.mp h2
          split at h5
          · next c' t hu =>
            simp only [Option.some.injEq, Prod.mk.injEq] at h5
            obtain ⟨rfl, rfl, rfl⟩ := h5
            have hu := utf8Decode_iff.mp hu
            have hu' : e :: y = encodeChar c' ++ utf8Encode t := by rw [hu]; simp [utf8Encode]
            rw [hc, List.cons_append, List.cons.injEq] at hu'
            obtain ⟨rfl, rfl⟩ := hu'
            have hl : (x ++ utf8Encode t).length = x.length := by rw [hy]; omega
            rw [List.length_append] at hl
            have ht : utf8Encode t = [] := List.length_eq_zero_iff.mp (by omega)
            rw [ht, List.append_nil, hc]
            exact ⟨rfl, by rw [h1.1, hw]; rfl, h1.2⟩
          · cases h5
    · rintro ⟨h, h1, h2⟩
      rw [hc, List.cons_append, List.cons.injEq] at h
      obtain ⟨rfl, rfl⟩ := h
      rw [hc, List.length_cons] at h1
      rw [if_neg (by omega), hw, claim_iff.mpr ⟨h1, h2⟩]
      simp only [Option.bind_eq_bind, Option.bind_some]
      split
      · next h3 =>
        have hx : x = [] := List.length_eq_zero_iff.mp (by omega)
        rw [ha hx, hx]; rfl
      · rw [takeExact_iff.mpr ⟨rfl, by omega⟩]
        simp only [Option.bind_some]
        rw [← hc, ← utf8Encode_singleton, utf8Decode_encode]

/-! ## Writing -/

mutual

theorem binWrites_benc : ∀ {v : SVal} {s : Sch}, Conforms v s → BinWrites v v.benc
  | _, _, .bool b => by cases b; exacts [.false, .true]
  | _, _, .byte b => .byte b
  | _, _, .uint (n := n) (w := w) h => .uint (binVarint_tight (by cases w <;> (simp only [half] at h; omega)))
  | _, _, .int (z := z) (w := w) h1 h2 => by
    refine .int (zigzag_iff.mpr rfl) (binVarint_tight ?_)
    rw [half_eq] at h1 h2
    exact Nat.lt_of_lt_of_le (zigzag_lt h1 h2) (by cases w <;> decide)
  | _, _, .float (b := b) h => .float b
  | _, _, .char c => by
    have := BinWrites.char c
    rwa [utf8Encode_singleton] at this
  | _, _, .string (s := s) h => .string s (binVarint_tight (by omega))
  | _, _, .bytes (b := b) h => .bytes b (binVarint_tight (by omega))
  | _, _, .unit => .unit
  | _, _, .none s => .none
  | _, _, .some h => .some (binWrites_benc h)
  | _, _, .seq hl h => .seq (binVarint_tight (by omega)) (binWritesAll_benc h)
  | _, _, .tuple h => .tuple (binWritesEach_benc h)
  | _, _, .variant hi h => .variant (binVarint_tight (by omega)) (binWritesNth_benc h)

theorem binWritesAll_benc : ∀ {vs : SVals} {s : Sch}, AllConform vs s → BinWritesAll vs vs.benc
  | _, _, .nil s => .nil
  | _, _, .cons h hr => .cons (binWrites_benc h) (binWritesAll_benc hr)

theorem binWritesEach_benc : ∀ {vs : SVals} {ss : Schs}, EachConforms vs ss → BinWritesAll vs vs.benc
  | _, _, .nil => .nil
  | _, _, .cons h hr => .cons (binWrites_benc h) (binWritesEach_benc hr)

theorem binWritesNth_benc : ∀ {v : SVal} {ss : Schs} {i : Nat}, NthConforms v ss i → BinWrites v v.benc
  | _, _, _, .here ss h => binWrites_benc h
  | _, _, _, .there s h => binWritesNth_benc h

end

mutual

theorem binWrites_unique : ∀ {v : SVal} {b b' : Bytes}, BinWrites v b → BinWrites v b' → b = b'
  | _, _, _, .false, .false => rfl
  | _, _, _, .true, .true => rfl
  | _, _, _, .byte _, .byte _ => rfl
  | _, _, _, .uint h, .uint h' => h.unique h'
  | _, _, _, .int hz h, .int hz' h' => by
    rw [zigzag_iff] at hz hz'
    subst hz hz'
    exact h.unique h'
  | _, _, _, .float _, .float _ => rfl
  | _, _, _, .char _, .char _ => rfl
  | _, _, _, .string c h, .string _ h' => by rw [h.unique h']
  | _, _, _, .bytes c h, .bytes _ h' => by rw [h.unique h']
  | _, _, _, .unit, .unit => rfl
  | _, _, _, .none, .none => rfl
  | _, _, _, .some h, .some h' => by rw [binWrites_unique h h']
  | _, _, _, .seq hl h, .seq hl' h' => by rw [hl.unique hl', binWritesAll_unique h h']
  | _, _, _, .tuple h, .tuple h' => by rw [binWritesAll_unique h h']
  | _, _, _, .variant hi h, .variant hi' h' => by rw [hi.unique hi', binWrites_unique h h']

theorem binWritesAll_unique : ∀ {vs : SVals} {b b' : Bytes}, BinWritesAll vs b → BinWritesAll vs b' → b = b'
  | _, _, _, .nil, .nil => rfl
  | _, _, _, .cons h hr, .cons h' hr' => by rw [binWrites_unique h h', binWritesAll_unique hr hr']

end

/-- **C76.** What is written for a value is what the wire format says, and the format leaves no choice. -/
theorem C76_writes (s : Sch) (v : SVal) (h : Conforms v s) (b : Bytes) : binSerialize v = b ↔ BinWrites v b :=
  ⟨fun hb => hb ▸ binWrites_benc h, fun hb => binWrites_unique (binWrites_benc h) hb⟩

/-! ## Reading -/

theorem decN_binReads (lim : Nat) (s : Sch) (hs : ∀ {used : Nat} {b : Bytes} {v : SVal} {used' : Nat} {r : Bytes},
    used ≤ lim → s.bdec lim used b = some (v, used', r) →
      ∃ k pre, b = pre ++ r ∧ BinReads s v k pre ∧ used' = used + k ∧ used' ≤ lim) :
    ∀ (n : Nat) {used : Nat} {b : Bytes} {vs : SVals} {used' : Nat} {r : Bytes}, used ≤ lim →
      decN (s.bdec lim) n used b = some (vs, used', r) →
      vs.length = n ∧ ∃ k pre, b = pre ++ r ∧ BinReadsMany s vs k pre ∧ used' = used + k ∧ used' ≤ lim
  | 0, used, b, v, used', r, hl, h => by
    simp only [decN, Option.some.injEq, Prod.mk.injEq] at h
    obtain ⟨rfl, rfl, rfl⟩ := h; exact ⟨rfl, 0, [], rfl, .nil s, rfl, hl⟩
  | n + 1, used, b, v, used', r, hl, h => by
    simp only [decN, Option.bind_eq_bind] at h
    obtain ⟨⟨x, bu, b'⟩, h1, h⟩ := Option.bind_eq_some_iff.mp h
    obtain ⟨⟨xs, bu', b''⟩, h2, h⟩ := Option.bind_eq_some_iff.mp h
    simp only [Option.some.injEq, Prod.mk.injEq] at h
    obtain ⟨rfl, rfl, rfl⟩ := h
    obtain ⟨k, pre, rfl, h3, rfl, hl'⟩ := hs hl h1
    obtain ⟨h5, k', pre', e, h6, rfl, h7⟩ := decN_binReads lim s hs n hl' h2
    simp only at e
    subst e
    exact ⟨by rw [SVals.length, h5], k + k', pre ++ pre', by simp, .cons h3 h6, by omega, h7⟩

mutual

theorem bdec_reads (lim : Nat) : ∀ (s : Sch) {used : Nat} {b : Bytes} {v : SVal} {used' : Nat} {r : Bytes}, used ≤ lim →
    s.bdec lim used b = some (v, used', r) →
      ∃ k pre, b = pre ++ r ∧ BinReads s v k pre ∧ used' = used + k ∧ used' ≤ lim
  | .bool, used, b, v, used', r, hl, h => by
    simp only [Sch.bdec, Option.bind_eq_bind] at h
    obtain ⟨⟨x, u, b'⟩, h1, h⟩ := Option.bind_eq_some_iff.mp h
    obtain ⟨rfl, -, rfl, h3⟩ := takeClaimed_iff.mp h1
    simp only at h
    split at h <;> simp only [Option.some.injEq, Prod.mk.injEq, reduceCtorEq] at h
    · obtain ⟨rfl, rfl, rfl⟩ := h; exact ⟨1, [0], rfl, .false, rfl, h3⟩
    · obtain ⟨rfl, rfl, rfl⟩ := h; exact ⟨1, [1], rfl, .true, rfl, h3⟩
  | .byte, used, b, v, used', r, hl, h => by
    simp only [Sch.bdec, Option.bind_eq_bind] at h
    obtain ⟨⟨x, u, b'⟩, h1, h⟩ := Option.bind_eq_some_iff.mp h
    obtain ⟨rfl, -, rfl, h3⟩ := takeClaimed_iff.mp h1
    simp only at h
    split at h <;> simp only [Option.some.injEq, Prod.mk.injEq, reduceCtorEq] at h
    obtain ⟨rfl, rfl, rfl⟩ := h; exact ⟨1, [_], rfl, .byte _, rfl, h3⟩
  | .uint w, used, b, v, used', r, hl, h => by
    simp only [Sch.bdec, Option.bind_eq_bind] at h
    obtain ⟨⟨n, u, b'⟩, h1, h⟩ := Option.bind_eq_some_iff.mp h
    simp only [Option.some.injEq, Prod.mk.injEq] at h
    obtain ⟨rfl, rfl, rfl⟩ := h
    obtain ⟨pre, rfl, hn, h2, h3⟩ := (takeNum_iff w).mp h1
    exact ⟨_, pre, rfl, .uint hn, h2, h3⟩
  | .int w, used, b, v, used', r, hl, h => by
    simp only [Sch.bdec, Option.bind_eq_bind] at h
    obtain ⟨⟨n, u, b'⟩, h1, h⟩ := Option.bind_eq_some_iff.mp h
    simp only [Option.some.injEq, Prod.mk.injEq] at h
    obtain ⟨rfl, rfl, rfl⟩ := h
    obtain ⟨pre, rfl, hn, h2, h3⟩ := (takeNum_iff w).mp h1
    exact ⟨_, pre, rfl, .int (zigzag_iff'.mpr rfl) hn, h2, h3⟩
  | .float n, used, b, v, used', r, hl, h => by
    simp only [Sch.bdec, Option.bind_eq_bind] at h
    obtain ⟨⟨x, u, b'⟩, h1, h⟩ := Option.bind_eq_some_iff.mp h
    simp only [Option.some.injEq, Prod.mk.injEq] at h
    obtain ⟨rfl, rfl, rfl⟩ := h
    obtain ⟨rfl, h2, h3, h4⟩ := takeClaimed_iff.mp h1
    exact ⟨_, x, rfl, .float h2, h3, h4⟩
  | .char, used, b, v, used', r, hl, h => by
    simp only [Sch.bdec, Option.bind_eq_bind] at h
    obtain ⟨⟨c, u, b'⟩, h1, h⟩ := Option.bind_eq_some_iff.mp h
    simp only [Option.some.injEq, Prod.mk.injEq] at h
    obtain ⟨rfl, rfl, rfl⟩ := h
    obtain ⟨rfl, h3, h4⟩ := takeChar_iff.mp h1
    have := BinReads.char c
    rw [utf8Encode_singleton] at this
    exact ⟨_, _, rfl, this, h3, h4⟩
  | .string, used, b, v, used', r, hl, h => by
    simp only [Sch.bdec, Option.bind_eq_bind] at h
    obtain ⟨⟨n, u, b'⟩, h0, h⟩ := Option.bind_eq_some_iff.mp h
    obtain ⟨⟨x, u', b'⟩, h1, h⟩ := Option.bind_eq_some_iff.mp h
    obtain ⟨t, hx, h⟩ := Option.bind_eq_some_iff.mp h
    simp only [Option.some.injEq, Prod.mk.injEq] at h
    obtain ⟨rfl, rfl, rfl⟩ := h
    obtain ⟨rfl, rfl, rfl, h3⟩ := takeClaimed_iff.mp h1
    obtain ⟨pre, rfl, hn, rfl, -⟩ := (takeNum_iff .w64).mp h0
    obtain rfl : x = _ := utf8Decode_iff.mp hx
    exact ⟨_, pre ++ utf8Encode t, by simp, .string t hn, by simp [octets, Nat.add_assoc], h3⟩
  | .bytes, used, b, v, used', r, hl, h => by
    simp only [Sch.bdec, Option.bind_eq_bind] at h
    obtain ⟨⟨n, u, b'⟩, h0, h⟩ := Option.bind_eq_some_iff.mp h
    obtain ⟨⟨x, u', b'⟩, h1, h⟩ := Option.bind_eq_some_iff.mp h
    simp only [Option.some.injEq, Prod.mk.injEq] at h
    obtain ⟨rfl, rfl, rfl⟩ := h
    obtain ⟨rfl, rfl, rfl, h3⟩ := takeClaimed_iff.mp h1
    obtain ⟨pre, rfl, hn, rfl, -⟩ := (takeNum_iff .w64).mp h0
    exact ⟨_, pre ++ x, by simp, .bytes x hn, by simp [octets, Nat.add_assoc], h3⟩
  | .unit, used, b, v, used', r, hl, h => by
    simp only [Sch.bdec, Option.some.injEq, Prod.mk.injEq] at h
    obtain ⟨rfl, rfl, rfl⟩ := h; exact ⟨0, [], rfl, .unit, rfl, hl⟩
  | .option s, used, b, v, used', r, hl, h => by
    simp only [Sch.bdec, Option.bind_eq_bind] at h
    obtain ⟨⟨x, u, b'⟩, h1, h⟩ := Option.bind_eq_some_iff.mp h
    obtain ⟨rfl, -, rfl, h3⟩ := takeClaimed_iff.mp h1
    simp only at h
    split at h
    · simp only [Option.some.injEq, Prod.mk.injEq] at h
      obtain ⟨rfl, rfl, rfl⟩ := h; exact ⟨1, [0], rfl, .none s, rfl, h3⟩
    · obtain ⟨⟨x, u, b'⟩, h1, h⟩ := Option.bind_eq_some_iff.mp h
      simp only [Option.some.injEq, Prod.mk.injEq] at h
      obtain ⟨rfl, rfl, rfl⟩ := h
      obtain ⟨k, pre, rfl, h2, rfl, h4⟩ := bdec_reads lim s h3 h1
      exact ⟨1 + k, 1 :: pre, rfl, .some h2, by omega, h4⟩
    · cases h
  | .seq s, used, b, v, used', r, hl, h => by
    simp only [Sch.bdec, Option.bind_eq_bind] at h
    obtain ⟨⟨n, u, b'⟩, h0, h⟩ := Option.bind_eq_some_iff.mp h
    obtain ⟨⟨x, u', b'⟩, h1, h⟩ := Option.bind_eq_some_iff.mp h
    simp only [Option.some.injEq, Prod.mk.injEq] at h
    obtain ⟨rfl, rfl, rfl⟩ := h
    obtain ⟨pre', rfl, hn, rfl, hl'⟩ := (takeNum_iff .w64).mp h0
    obtain ⟨rfl, k, pre, e, h3, rfl, h4⟩ := decN_binReads lim s (fun hl h => bdec_reads lim s hl h) n hl' h1
    exact ⟨8 + k, pre' ++ pre, by simp only at e; rw [e]; simp, .seq hn h3, by simp [octets, Nat.add_assoc], h4⟩
  | .tuple ss, used, b, v, used', r, hl, h => by
    simp only [Sch.bdec, Option.bind_eq_bind] at h
    obtain ⟨⟨x, u, b'⟩, h1, h⟩ := Option.bind_eq_some_iff.mp h
    simp only [Option.some.injEq, Prod.mk.injEq] at h
    obtain ⟨rfl, rfl, rfl⟩ := h
    obtain ⟨k, pre, rfl, h2, h3⟩ := bdecAll_reads lim ss hl h1
    exact ⟨k, pre, rfl, .tuple h2, h3⟩
  | .enum ss, used, b, v, used', r, hl, h => by
    simp only [Sch.bdec, Option.bind_eq_bind] at h
    obtain ⟨⟨i, u, b'⟩, h0, h⟩ := Option.bind_eq_some_iff.mp h
    obtain ⟨⟨x, u', b'⟩, h1, h⟩ := Option.bind_eq_some_iff.mp h
    simp only [Option.some.injEq, Prod.mk.injEq] at h
    obtain ⟨rfl, rfl, rfl⟩ := h
    obtain ⟨pre', rfl, hn, rfl, hl'⟩ := (takeNum_iff .w32).mp h0
    obtain ⟨k, pre, e, h2, rfl, h3⟩ := bdecNth_reads lim ss hl' h1
    exact ⟨4 + k, pre' ++ pre, by simp only at e; rw [e]; simp, .variant hn h2, by simp [octets, Nat.add_assoc], h3⟩

theorem bdecAll_reads (lim : Nat) : ∀ (ss : Schs) {used : Nat} {b : Bytes} {vs : SVals} {used' : Nat} {r : Bytes},
    used ≤ lim → ss.bdecAll lim used b = some (vs, used', r) →
      ∃ k pre, b = pre ++ r ∧ BinReadsEach ss vs k pre ∧ used' = used + k ∧ used' ≤ lim
  | .nil, used, b, v, used', r, hl, h => by
    simp only [Schs.bdecAll, Option.some.injEq, Prod.mk.injEq] at h
    obtain ⟨rfl, rfl, rfl⟩ := h; exact ⟨0, [], rfl, .nil, rfl, hl⟩
  | .cons s ss, used, b, v, used', r, hl, h => by
    simp only [Schs.bdecAll, Option.bind_eq_bind] at h
    obtain ⟨⟨x, u, b'⟩, h1, h⟩ := Option.bind_eq_some_iff.mp h
    obtain ⟨⟨xs, u', b''⟩, h2, h⟩ := Option.bind_eq_some_iff.mp h
    simp only [Option.some.injEq, Prod.mk.injEq] at h
    obtain ⟨rfl, rfl, rfl⟩ := h
    obtain ⟨k, pre, rfl, h3, rfl, hl'⟩ := bdec_reads lim s hl h1
    obtain ⟨k', pre', e, h6, rfl, h7⟩ := bdecAll_reads lim ss hl' h2
    simp only at e
    subst e
    exact ⟨k + k', pre ++ pre', by simp, .cons h3 h6, by omega, h7⟩

theorem bdecNth_reads (lim : Nat) : ∀ (ss : Schs) {i used : Nat} {b : Bytes} {v : SVal} {used' : Nat} {r : Bytes},
    used ≤ lim → ss.bdecNth lim i used b = some (v, used', r) →
      ∃ k pre, b = pre ++ r ∧ BinReadsNth ss i v k pre ∧ used' = used + k ∧ used' ≤ lim
  | .nil, i, used, b, v, used', r, hl, h => by simp [Schs.bdecNth] at h
  | .cons s ss, 0, used, b, v, used', r, hl, h => by
    rw [Schs.bdecNth] at h
    obtain ⟨k, pre, h1, h2, h3⟩ := bdec_reads lim s hl h
    exact ⟨k, pre, h1, .here ss h2, h3⟩
  | .cons s ss, i + 1, used, b, v, used', r, hl, h => by
    rw [Schs.bdecNth] at h
    obtain ⟨k, pre, h1, h2, h3⟩ := bdecNth_reads lim ss hl h
    exact ⟨k, pre, h1, .there s h2, h3⟩

end

mutual

theorem reads_bdec (lim : Nat) : ∀ {s : Sch} {v : SVal} {k : Nat} {pre : Bytes}, BinReads s v k pre →
    ∀ (used : Nat) (r : Bytes), used + k ≤ lim → s.bdec lim used (pre ++ r) = some (v, used + k, r)
  | _, _, _, _, .false, used, r, hl => by
    rw [Sch.bdec, takeClaimed_one _ r hl]; rfl
  | _, _, _, _, .true, used, r, hl => by
    rw [Sch.bdec, takeClaimed_one _ r hl]; rfl
  | _, _, _, _, .byte x, used, r, hl => by
    rw [Sch.bdec, takeClaimed_one _ r hl]; rfl
  | _, _, _, _, .uint (w := w) h, used, r, hl => by
    rw [Sch.bdec, (takeNum_iff w).mpr ⟨_, rfl, h, rfl, hl⟩]; rfl
  | _, _, _, _, .int (w := w) hz h, used, r, hl => by
    rw [Sch.bdec, (takeNum_iff w).mpr ⟨_, rfl, h, rfl, hl⟩, zigzag_iff'.mp hz]; rfl
  | _, _, _, _, .float (b := b) h, used, r, hl => by
    rw [Sch.bdec, takeClaimed_iff.mpr ⟨rfl, h, rfl, hl⟩]; rfl
  | _, _, _, _, .char c, used, r, hl => by
    rw [utf8Encode_singleton] at hl ⊢
    rw [Sch.bdec, takeChar_iff.mpr ⟨rfl, rfl, hl⟩]; rfl
  | _, _, _, _, .string s h, used, r, hl => by
    rw [Sch.bdec, List.append_assoc, show 64 = Wd.bits .w64 from rfl,
      (takeNum_iff .w64).mpr ⟨_, rfl, h, rfl, by simp only [octets]; omega⟩]
    simp only [Option.bind_eq_bind, Option.bind_some]
    rw [takeClaimed_iff.mpr ⟨rfl, rfl, rfl, by simp only [octets]; omega⟩]
    simp only [Option.bind_some]
    rw [utf8Decode_encode]
    simp [octets, Nat.add_assoc]
  | _, _, _, _, .bytes b h, used, r, hl => by
    rw [Sch.bdec, List.append_assoc, show 64 = Wd.bits .w64 from rfl,
      (takeNum_iff .w64).mpr ⟨_, rfl, h, rfl, by simp only [octets]; omega⟩]
    simp only [Option.bind_eq_bind, Option.bind_some]
    rw [takeClaimed_iff.mpr ⟨rfl, rfl, rfl, by simp only [octets]; omega⟩]
    simp [octets, Nat.add_assoc]
  | _, _, _, _, .unit, used, r, hl => rfl
  | _, _, _, _, .none s, used, r, hl => by
    rw [Sch.bdec, takeClaimed_one _ r hl]; rfl
  | _, _, _, _, .some (k := k) (b := b) h, used, r, hl => by
    rw [Sch.bdec, show (1 :: b) ++ r = [1] ++ (b ++ r) from rfl, takeClaimed_one _ _ (by omega)]
    simp only [Option.bind_eq_bind, Option.bind_some]
    rw [reads_bdec lim h (used + 1) r (by omega)]
    simp [Nat.add_assoc]
  | _, _, _, _, .seq hn h, used, r, hl => by
    rw [Sch.bdec, List.append_assoc, show 64 = Wd.bits .w64 from rfl,
      (takeNum_iff .w64).mpr ⟨_, rfl, hn, rfl, by simp only [octets]; omega⟩]
    simp only [Option.bind_eq_bind, Option.bind_some]
    rw [readsMany_bdec lim h _ r (by simp only [octets]; omega)]
    simp [octets, Nat.add_assoc]
  | _, _, _, _, .tuple h, used, r, hl => by
    rw [Sch.bdec, readsEach_bdec lim h used r hl]; rfl
  | _, _, _, _, .variant hn h, used, r, hl => by
    rw [Sch.bdec, List.append_assoc, show 32 = Wd.bits .w32 from rfl,
      (takeNum_iff .w32).mpr ⟨_, rfl, hn, rfl, by simp only [octets]; omega⟩]
    simp only [Option.bind_eq_bind, Option.bind_some]
    rw [readsNth_bdec lim h _ r (by simp only [octets]; omega)]
    simp [octets, Nat.add_assoc]

theorem readsMany_bdec (lim : Nat) : ∀ {s : Sch} {vs : SVals} {k : Nat} {pre : Bytes}, BinReadsMany s vs k pre →
    ∀ (used : Nat) (r : Bytes), used + k ≤ lim → decN (s.bdec lim) vs.length used (pre ++ r) = some (vs, used + k, r)
  | _, _, _, _, .nil s, used, r, hl => rfl
  | _, _, _, _, .cons h hr, used, r, hl => by
    rw [SVals.length, decN, List.append_assoc, reads_bdec lim h used _ (by omega)]
    simp only [Option.bind_eq_bind, Option.bind_some]
    rw [readsMany_bdec lim hr _ r (by omega)]
    simp [Nat.add_assoc]

theorem readsEach_bdec (lim : Nat) : ∀ {ss : Schs} {vs : SVals} {k : Nat} {pre : Bytes}, BinReadsEach ss vs k pre →
    ∀ (used : Nat) (r : Bytes), used + k ≤ lim → ss.bdecAll lim used (pre ++ r) = some (vs, used + k, r)
  | _, _, _, _, .nil, used, r, hl => rfl
  | _, _, _, _, .cons h hr, used, r, hl => by
    rw [Schs.bdecAll, List.append_assoc, reads_bdec lim h used _ (by omega)]
    simp only [Option.bind_eq_bind, Option.bind_some]
    rw [readsEach_bdec lim hr _ r (by omega)]
    simp [Nat.add_assoc]

theorem readsNth_bdec (lim : Nat) : ∀ {ss : Schs} {i : Nat} {v : SVal} {k : Nat} {pre : Bytes}, BinReadsNth ss i v k pre →
    ∀ (used : Nat) (r : Bytes), used + k ≤ lim → ss.bdecNth lim i used (pre ++ r) = some (v, used + k, r)
  | _, _, _, _, _, .here ss h, used, r, hl => by rw [Schs.bdecNth]; exact reads_bdec lim h used r hl
  | _, _, _, _, _, .there s h, used, r, hl => by rw [Schs.bdecNth]; exact readsNth_bdec lim h used r hl

end

/-- **C76.** Exactly which files are read as a value, and as which one: those that begin with a text of the grammar for
which at most 1 GiB is claimed. What follows the text does not matter. -/
theorem C76_reads (s : Sch) (b : Bytes) (v : SVal) :
    binDeserialize s b = some v ↔ ∃ k pre r, b = pre ++ r ∧ BinReads s v k pre ∧ k ≤ 2 ^ 30 := by
  unfold binDeserialize
  rw [Option.map_eq_some_iff]
  constructor
  · rintro ⟨⟨v', u, r⟩, h, rfl⟩
    obtain ⟨k, pre, h1, h2, h3, h4⟩ := bdec_reads byteLimit s (Nat.zero_le _) h
    exact ⟨k, pre, r, h1, h2, by rw [Nat.zero_add] at h3; subst h3; exact h4⟩
  · rintro ⟨k, pre, r, rfl, h2, h3⟩
    exact ⟨(v, _, r), reads_bdec byteLimit h2 0 r (by rw [Nat.zero_add]; exact h3), rfl⟩

/-! ## Both -/

theorem Spec.Tight.number {n : Nat} {b : Bytes} (h : Tight n b) (w : Wd) (hn : n < 2 * half w) : BinNumber w n b := by
  obtain ⟨t, h1, h2⟩ := h
  refine ⟨t, h1, ?_⟩
  rintro u rfl
  have := h2 (some w) hn
  simp only [capacity, ← octets_cap] at this
  exact (Nat.pow_le_pow_iff_right (by decide)).mp this

theorem Spec.BinNumber.lt {w : Wd} {n : Nat} {b : Bytes} (h : BinNumber w n b) : n < 2 * half w := by
  obtain ⟨t, h1, h2⟩ := h
  have := h1.lt
  cases t with
  | none => exact Nat.lt_of_lt_of_le this (by cases w <;> decide)
  | some u => exact Nat.lt_of_lt_of_le this (capacity_mono (h2 u rfl))

theorem two_half_64 : 2 * half .w64 = 2 ^ 64 := rfl
theorem two_half_32 : 2 * half .w32 = 2 ^ 32 := rfl

mutual

theorem conforms_binReads : ∀ {v : SVal} {s : Sch}, Conforms v s → BinReads s v (claimed s v) v.benc
  | _, _, .bool b => by cases b; exacts [.false, .true]
  | _, _, .byte b => .byte b
  | _, _, .uint (n := n) (w := w) h =>
    .uint ((binVarint_tight (by cases w <;> (simp only [half] at h; omega))).number w h)
  | _, _, .int (z := z) (w := w) h1 h2 => by
    rw [half_eq] at h1 h2
    have hz := zigzag_lt h1 h2
    rw [Nat.sub_add_cancel (by cases w <;> decide)] at hz
    exact .int (zigzag_iff.mpr rfl) ((binVarint_tight (Nat.lt_of_lt_of_le hz (by cases w <;> decide))).number w
      (by rwa [two_half]))
  | _, _, .float (b := b) h => .float h
  | _, _, .char c => by
    rw [SVal.benc, ← utf8Encode_singleton]
    exact .char c
  | _, _, .string (s := s) h => .string s ((binVarint_tight (by omega)).number .w64 h)
  | _, _, .bytes (b := b) h => .bytes b ((binVarint_tight (by omega)).number .w64 h)
  | _, _, .unit => .unit
  | _, _, .none s => .none s
  | _, _, .some h => .some (conforms_binReads h)
  | _, _, .seq hl h => .seq ((binVarint_tight (by omega)).number .w64 hl) (conforms_binReadsMany h)
  | _, _, .tuple h => .tuple (conforms_binReadsEach h)
  | _, _, .variant hi h => .variant ((binVarint_tight (by omega)).number .w32 hi) (conforms_binReadsNth h)

theorem conforms_binReadsMany : ∀ {vs : SVals} {s : Sch}, AllConform vs s → BinReadsMany s vs (total (claimed s) vs) vs.benc
  | _, _, .nil s => .nil s
  | _, _, .cons h hr => .cons (conforms_binReads h) (conforms_binReadsMany hr)

theorem conforms_binReadsEach : ∀ {vs : SVals} {ss : Schs}, EachConforms vs ss →
    BinReadsEach ss vs (claimedEach ss vs) vs.benc
  | _, _, .nil => .nil
  | _, _, .cons h hr => .cons (conforms_binReads h) (conforms_binReadsEach hr)

theorem conforms_binReadsNth : ∀ {v : SVal} {ss : Schs} {i : Nat}, NthConforms v ss i →
    BinReadsNth ss i v (claimedNth ss i v) v.benc
  | _, _, _, .here ss h => .here ss (conforms_binReads h)
  | _, _, _, .there s h => .there s (conforms_binReadsNth h)

end

mutual

theorem binReads_conforms : ∀ {s : Sch} {v : SVal} {k : Nat} {b : Bytes}, BinReads s v k b →
    Conforms v s ∧ k = claimed s v
  | _, _, _, _, .false => ⟨.bool _, rfl⟩
  | _, _, _, _, .true => ⟨.bool _, rfl⟩
  | _, _, _, _, .byte x => ⟨.byte _, rfl⟩
  | _, _, _, _, .uint h => ⟨.uint h.lt, rfl⟩
  | _, _, _, _, .int (w := w) (n := n) hz h => by
    have h2 := h.lt
    rw [two_half] at h2
    have h3 := unzigzag_range (n := n) (k := w.bits - 1) (by rw [Nat.sub_add_cancel (by cases w <;> decide)]; exact h2)
    rw [← half_eq, ← zigzag_iff'.mp hz] at h3
    exact ⟨.int h3.1 h3.2, rfl⟩
  | _, _, _, _, .float h => ⟨.float h, rfl⟩
  | _, _, _, _, .char c => ⟨.char c, rfl⟩
  | _, _, _, _, .string s h => ⟨.string h.lt, rfl⟩
  | _, _, _, _, .bytes s h => ⟨.bytes h.lt, rfl⟩
  | _, _, _, _, .unit => ⟨.unit, rfl⟩
  | _, _, _, _, .none s => ⟨.none s, rfl⟩
  | _, _, _, _, .some h => ⟨.some (binReads_conforms h).1, by rw [claimed, (binReads_conforms h).2]⟩
  | _, _, _, _, .seq hn h => ⟨.seq hn.lt (binReadsMany_conforms h).1, by rw [claimed, (binReadsMany_conforms h).2]⟩
  | _, _, _, _, .tuple h => ⟨.tuple (binReadsEach_conforms h).1, by rw [claimed, (binReadsEach_conforms h).2]⟩
  | _, _, _, _, .variant hn h => ⟨.variant hn.lt (binReadsNth_conforms h).1, by rw [claimed, (binReadsNth_conforms h).2]⟩

theorem binReadsMany_conforms : ∀ {s : Sch} {vs : SVals} {k : Nat} {b : Bytes}, BinReadsMany s vs k b →
    AllConform vs s ∧ k = total (claimed s) vs
  | _, _, _, _, .nil s => ⟨.nil s, rfl⟩
  | _, _, _, _, .cons h hr => ⟨.cons (binReads_conforms h).1 (binReadsMany_conforms hr).1, by
      rw [total, (binReads_conforms h).2, (binReadsMany_conforms hr).2]⟩

theorem binReadsEach_conforms : ∀ {ss : Schs} {vs : SVals} {k : Nat} {b : Bytes}, BinReadsEach ss vs k b →
    EachConforms vs ss ∧ k = claimedEach ss vs
  | _, _, _, _, .nil => ⟨.nil, rfl⟩
  | _, _, _, _, .cons h hr => ⟨.cons (binReads_conforms h).1 (binReadsEach_conforms hr).1, by
      rw [claimedEach, (binReads_conforms h).2, (binReadsEach_conforms hr).2]⟩

theorem binReadsNth_conforms : ∀ {ss : Schs} {i : Nat} {v : SVal} {k : Nat} {b : Bytes}, BinReadsNth ss i v k b →
    NthConforms v ss i ∧ k = claimedNth ss i v
  | _, _, _, _, _, .here ss h => ⟨.here ss (binReads_conforms h).1, by rw [claimedNth, (binReads_conforms h).2]⟩
  | _, _, _, _, _, .there s h => ⟨.there s (binReadsNth_conforms h).1, by rw [claimedNth, (binReadsNth_conforms h).2]⟩

end

/-- Texts of a schema are not prefixes of each other. -/
theorem binReads_prefix {s : Sch} {v w : SVal} {k l : Nat} {a b r r' : Bytes} (h : BinReads s v k a) (h' : BinReads s w l b)
    (e : a ++ r = b ++ r') : v = w ∧ r = r' := by
  have h1 := reads_bdec (k + l) h 0 r (by omega)
  have h2 := reads_bdec (k + l) h' 0 r' (by omega)
  rw [e, h2] at h1
  simp only [Option.some.injEq, Prod.mk.injEq] at h1
  exact ⟨h1.1.symm, h1.2.2.symm⟩

/-- **C76.** For every schema, every value that conforms to it and whatever follows in the input: if at most 1 GiB is
claimed for the value, what is read is the value; otherwise, nothing is read. -/
theorem C76_round_trip (s : Sch) (v : SVal) (h : Conforms v s) (r : Bytes) :
    (claimed s v ≤ 2 ^ 30 → binDeserialize s (binSerialize v ++ r) = some v) ∧
      (2 ^ 30 < claimed s v → binDeserialize s (binSerialize v ++ r) = none) := by
  constructor
  · intro hk
    exact (C76_reads s _ v).mpr ⟨_, _, r, rfl, conforms_binReads h, hk⟩
  · intro hk
    cases hd : binDeserialize s (binSerialize v ++ r) with
    | none => rfl
    | some w =>
      obtain ⟨k, pre, r', e, hw, hl⟩ := (C76_reads s _ w).mp hd
      obtain ⟨rfl, -⟩ := binReads_prefix (conforms_binReads h) hw e
      have := (binReads_conforms hw).2
      omega

/-- **C76.** Different values of a type are serialised differently, and neither is a prefix of the other. -/
theorem C76_prefix_free (s : Sch) (v w : SVal) (hv : Conforms v s) (hw : Conforms w s) (r r' : Bytes)
    (h : binSerialize v ++ r = binSerialize w ++ r') : v = w ∧ r = r' :=
  binReads_prefix (conforms_binReads hv) (conforms_binReads hw) h

/-- **C76.** Whatever bytes are read as a value of a type: it is a value of the type, and serialising it gives bytes that
are read as the same value. -/
theorem C76_read_stable (s : Sch) (b : Bytes) (v : SVal) (h : binDeserialize s b = some v) (r : Bytes) :
    Conforms v s ∧ binDeserialize s (binSerialize v ++ r) = some v := by
  obtain ⟨k, pre, r', -, hv, hl⟩ := (C76_reads s b v).mp h
  obtain ⟨h1, h2⟩ := binReads_conforms hv
  exact ⟨h1, (C76_round_trip s v h1 r).1 (by omega)⟩

end TF
