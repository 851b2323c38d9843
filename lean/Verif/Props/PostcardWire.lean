import Verif.Spec.PostcardWire
import Verif.Props.Postcard

/-!
# C16: the wire format

What is written, and what is read, as given by the grammars of `Spec/PostcardWire.lean`.
-/

namespace TF

open Spec

/-! ## Numbers -/

theorem Spec.Leb.ne_nil {n : Nat} {b : Bytes} (h : Leb n b) : b ≠ [] := by cases h <;> simp

theorem leb_zero {n : Nat} {b : Bytes} (h : Leb n b) (hn : n = 0) : b.getLast? = some 0 := by
  induction h with
  | last x hx =>
    have : x = 0 := UInt8.toNat_inj.mp (by simpa using hn)
    subst this; rfl
  | more x hx h ih =>
    have hr := ih (by omega)
    rw [List.getLast?_cons, hr]; rfl

theorem Spec.Shortest.unique {n : Nat} {b b' : Bytes} (h : Shortest n b) (h' : Shortest n b') : b = b' := by
  obtain ⟨h, hs⟩ := h
  obtain ⟨h', hs'⟩ := h'
  have tail : ∀ {x : UInt8} {m : Nat} {r : Bytes}, Leb m r → ((x :: r).getLast? = some 0 → x :: r = [0]) →
      m ≠ 0 ∧ (r.getLast? = some 0 → r = [0]) := by
    intro x m r hr hx
    have e : ∀ z, r.getLast? = some z → (x :: r).getLast? = some z := by
      intro z hz; rw [List.getLast?_cons, hz]; rfl
    have hn := Leb.ne_nil hr
    have hno : r.getLast? ≠ some 0 := by
      intro h0
      have := hx (e _ h0)
      simp only [List.cons.injEq] at this
      exact hn this.2
    exact ⟨fun h0 => hno (leb_zero hr h0), fun h0 => absurd h0 hno⟩
  induction h generalizing b' with
  | last x hx =>
    generalize hm : x.toNat = m at h'
    cases h' with
    | last y hy => rw [UInt8.toNat_inj.mp hm]
    | more y hy hr =>
      obtain ⟨h0, -⟩ := tail hr hs'
      omega
  | @more n r x hx h ih =>
    obtain ⟨h0, h1⟩ := tail h hs
    generalize hm : x.toNat - 128 + 128 * n = m at h'
    cases h' with
    | last y hy => omega
    | @more n' r' y hy hr =>
      obtain ⟨h0', h1'⟩ := tail hr hs'
      have hx' := x.toNat_lt
      have hy' := y.toNat_lt
      have e1 : n = n' := by omega
      have e2 : x = y := UInt8.toNat_inj.mp (by omega)
      subst e1 e2
      rw [ih h1 hr h1']

theorem varintF_shortest : ∀ (f n : Nat), n < 128 ^ (f + 1) → Shortest n (varintF f n)
  | 0, n, h => by
    have h : n < 128 := by simpa using h
    have e : (UInt8.ofNat n).toNat = n := toNat_ofNat_lt (by omega)
    refine ⟨?_, ?_⟩
    · have := Leb.last (UInt8.ofNat n) (by omega)
      rwa [e] at this
    · simp [varintF]
  | f + 1, n, h => by
    rw [varintF]
    split
    · next h =>
      have e : (UInt8.ofNat n).toNat = n := toNat_ofNat_lt (by omega)
      refine ⟨?_, by simp⟩
      have := Leb.last (UInt8.ofNat n) (by omega)
      rwa [e] at this
    · next hn =>
      have e : (UInt8.ofNat (n % 128 + 128)).toNat = n % 128 + 128 := toNat_ofNat_lt (by omega)
      have hlt : n / 128 < 128 ^ (f + 1) := by
        rw [Nat.div_lt_iff_lt_mul (by decide), ← Nat.pow_succ]; exact h
      obtain ⟨h1, h2⟩ := varintF_shortest f (n / 128) hlt
      refine ⟨?_, ?_⟩
      · have := Leb.more (UInt8.ofNat (n % 128 + 128)) (by omega) h1
        rw [e] at this
        rwa [show n % 128 + 128 - 128 + 128 * (n / 128) = n by omega] at this
      · intro h0
        exfalso
        have hne := Leb.ne_nil h1
        have h3 : (varintF f (n / 128)).getLast? = some 0 := by
          rw [List.getLast?_cons] at h0
          cases hl : (varintF f (n / 128)).getLast? with
          | none => exact absurd (List.getLast?_eq_none_iff.mp hl) hne
          | some z => rw [hl] at h0; simpa using h0
        rw [h2 h3] at h1
        generalize hm : n / 128 = m at h1
        generalize hb : ([0] : Bytes) = b at h1
        cases h1 with
        | last x hx =>
          simp only [List.cons.injEq, and_true] at hb
          subst hb
          have : n / 128 = 0 := hm
          omega
        | more x hx hr =>
          simp only [List.cons.injEq] at hb
          exact absurd hb.2.symm hr.ne_nil

theorem varint_shortest {n : Nat} (h : n < 2 ^ 128) : Shortest n (varint n) :=
  varintF_shortest 18 n (Nat.lt_of_lt_of_le h (by decide))

theorem shortest_iff {n : Nat} {b : Bytes} (h : n < 2 ^ 128) : Shortest n b ↔ b = varint n :=
  ⟨fun hb => hb.unique (varint_shortest h), fun hb => hb ▸ varint_shortest h⟩

theorem takeVarintF_iff (bits : Nat) (r : Bytes) (n : Nat) : ∀ (f i out : Nat) (b : Bytes),
    takeVarintF bits (f + 1) i out b = some (n, r) ↔
      ∃ m pre, b = pre ++ r ∧ Leb m pre ∧ pre.length ≤ f + 1 ∧ n = out + m * 128 ^ i ∧ m < 2 ^ (7 * f + bits % 7)
  | f, _, _, [] => by
    simp only [takeVarintF, reduceCtorEq, false_iff]
    rintro ⟨m, pre, h, hl, -⟩
    have : pre = [] := by cases pre with | nil => rfl | cons => cases h
    exact hl.ne_nil this
  | f, i, out, x :: b => by
    have hx256 := x.toNat_lt
    have hp : 0 < 2 ^ (bits % 7) := Nat.pow_pos (by decide)
    rw [takeVarintF]
    by_cases h1 : x.toNat < 128
    · have e : x.toNat % 128 = x.toNat := Nat.mod_eq_of_lt h1
      simp only [if_pos h1, e]
      have key : (∃ m pre, x :: b = pre ++ r ∧ Leb m pre ∧ pre.length ≤ f + 1 ∧ n = out + m * 128 ^ i ∧
          m < 2 ^ (7 * f + bits % 7)) ↔ b = r ∧ n = out + x.toNat * 128 ^ i ∧ x.toNat < 2 ^ (7 * f + bits % 7) := by
        constructor
        · rintro ⟨m, pre, h2, h3, h4, h5, h6⟩
          cases h3 with
          | last y hy =>
            simp only [List.cons_append, List.nil_append, List.cons.injEq] at h2
            obtain ⟨rfl, rfl⟩ := h2
            exact ⟨rfl, h5, h6⟩
          | more y hy hr =>
            simp only [List.cons_append, List.cons.injEq] at h2
            obtain ⟨rfl, -⟩ := h2
            omega
        · rintro ⟨rfl, h5, h6⟩
          exact ⟨_, [x], rfl, .last x h1, by simp, h5, h6⟩
      rw [key]
      cases f with
      | zero =>
        simp only [true_and, Nat.mul_zero, Nat.zero_add, lastByteMax]
        split
        · simp only [reduceCtorEq, false_iff]; rintro ⟨-, -, h⟩; omega
        · simp only [Option.some.injEq, Prod.mk.injEq]
          constructor
          · rintro ⟨rfl, rfl⟩; exact ⟨rfl, rfl, by omega⟩
          · rintro ⟨rfl, rfl, -⟩; exact ⟨rfl, rfl⟩
      | succ f =>
        have hp' : 0 < 2 ^ (7 * f + bits % 7) := Nat.pow_pos (by decide)
        have he : 2 ^ (7 * (f + 1) + bits % 7) = 2 ^ (7 * f + bits % 7) * 128 := by
          rw [show 7 * (f + 1) + bits % 7 = 7 * f + bits % 7 + 7 by omega, Nat.pow_add]
        rw [if_neg (by simp)]
        simp only [Option.some.injEq, Prod.mk.injEq]
        constructor
        · rintro ⟨rfl, rfl⟩; exact ⟨rfl, rfl, by omega⟩
        · rintro ⟨rfl, rfl, -⟩; exact ⟨rfl, rfl⟩
    · simp only [if_neg h1]
      cases f with
      | zero =>
        simp only [takeVarintF, reduceCtorEq, false_iff]
        rintro ⟨m, pre, h2, h3, h4, -⟩
        cases h3 with
        | last y hy =>
          simp only [List.cons_append, List.cons.injEq] at h2
          exact h1 (h2.1 ▸ hy)
        | more y hy hr =>
          have := hr.ne_nil
          simp only [List.length_cons] at h4
          exact this (List.length_eq_zero_iff.mp (by omega))
      | succ f =>
        have he : 2 ^ (7 * (f + 1) + bits % 7) = 2 ^ (7 * f + bits % 7) * 128 := by
          rw [show 7 * (f + 1) + bits % 7 = 7 * f + bits % 7 + 7 by omega, Nat.pow_add]
        rw [takeVarintF_iff bits r n f (i + 1) _ b]
        have hm : ∀ m, out + x.toNat % 128 * 128 ^ i + m * 128 ^ (i + 1) = out + (x.toNat - 128 + 128 * m) * 128 ^ i := by
          intro m
          rw [show x.toNat % 128 = x.toNat - 128 by omega, Nat.pow_succ, Nat.add_assoc, Nat.add_mul,
            Nat.mul_comm (128 ^ i) 128, ← Nat.mul_assoc, Nat.mul_comm m 128]
        constructor
        · rintro ⟨m, pre, rfl, h3, h4, h5, h6⟩
          refine ⟨_, x :: pre, rfl, .more x (by omega) h3, by simpa using h4, by rw [h5, hm], ?_⟩
          omega
        · rintro ⟨m, pre, h2, h3, h4, h5, h6⟩
          cases h3 with
          | last y hy =>
            simp only [List.cons_append, List.cons.injEq] at h2
            exact absurd (h2.1 ▸ hy) h1
          | @more m' r' y hy hr =>
            simp only [List.cons_append, List.cons.injEq] at h2
            obtain ⟨rfl, rfl⟩ := h2
            exact ⟨m', r', rfl, hr, by simpa using h4, by rw [h5, hm], by omega⟩

theorem takeVarint_iff (w : Wd) {n : Nat} {b r : Bytes} :
    takeVarint w.bits b = some (n, r) ↔ ∃ pre, b = pre ++ r ∧ Number w n pre := by
  have key := fun f => takeVarintF_iff w.bits r n f 0 0 b
  simp only [Nat.zero_add, Nat.pow_zero, Nat.mul_one] at key
  have h : ∀ f k, takeVarint w.bits b = takeVarintF w.bits (f + 1) 0 0 b → maxBytes w = f + 1 →
      2 ^ k = 2 * half w → 7 * f + w.bits % 7 = k →
      (takeVarint w.bits b = some (n, r) ↔ ∃ pre, b = pre ++ r ∧ Number w n pre) := by
    intro f k h1 h2 h3 h4
    rw [h1, key f]
    unfold Number
    rw [h2, ← h3, h4]
    constructor
    · rintro ⟨m, pre, e1, e2, e3, rfl, e5⟩; exact ⟨pre, e1, e2, e3, e5⟩
    · rintro ⟨pre, e1, e2, e3, e5⟩; exact ⟨n, pre, e1, e2, e3, rfl, e5⟩
  cases w
  · exact h 2 16 rfl rfl rfl rfl
  · exact h 4 32 rfl rfl rfl rfl
  · exact h 9 64 rfl rfl rfl rfl
  · exact h 18 128 rfl rfl rfl rfl

theorem zigzag_iff {z : Int} {n : Nat} : Zigzag z n ↔ n = zigzag z := by
  unfold Zigzag
  cases z with
  | ofNat m => simp only [zigzag, Int.ofNat_eq_natCast]; omega
  | negSucc m => simp only [zigzag]; omega

theorem zigzag_iff' {z : Int} {n : Nat} : Zigzag z n ↔ z = unzigzag n := by
  rw [zigzag_iff]
  constructor
  · rintro rfl; exact (unzigzag_zigzag z).symm
  · rintro rfl
    unfold unzigzag
    split <;> simp only [zigzag] <;> omega

/-! ## Writing -/

mutual

theorem writes_enc : ∀ {v : SVal} {s : Sch}, Conforms v s → Writes v v.enc
  | _, _, .bool b => by cases b; exacts [.false, .true]
  | _, _, .byte b => .byte b
  | _, _, .uint (n := n) (w := w) h => .uint (varint_shortest (by cases w <;> (simp only [half] at h; omega)))
  | _, _, .int (z := z) (w := w) h1 h2 => by
    refine .int (zigzag_iff.mpr rfl) (varint_shortest ?_)
    rw [half_eq] at h1 h2
    exact Nat.lt_of_lt_of_le (zigzag_lt h1 h2) (by cases w <;> decide)
  | _, _, .float (b := b) h => .float b
  | _, _, .char c => by
    have h4 := encodeChar_length c
    have := Writes.char c (varint_shortest (n := (utf8Encode [c]).length) (by rw [utf8Encode_singleton]; omega))
    rwa [utf8Encode_singleton] at this
  | _, _, .string (s := s) h => .string s (varint_shortest (by omega))
  | _, _, .bytes (b := b) h => .bytes b (varint_shortest (by omega))
  | _, _, .unit => .unit
  | _, _, .none s => .none
  | _, _, .some h => .some (writes_enc h)
  | _, _, .seq hl h => .seq (varint_shortest (by omega)) (writesAll_enc h)
  | _, _, .tuple h => .tuple (writesEach_enc h)
  | _, _, .variant hi h => .variant (varint_shortest (by omega)) (writesNth_enc h)

theorem writesAll_enc : ∀ {vs : SVals} {s : Sch}, AllConform vs s → WritesAll vs vs.enc
  | _, _, .nil s => .nil
  | _, _, .cons h hr => .cons (writes_enc h) (writesAll_enc hr)

theorem writesEach_enc : ∀ {vs : SVals} {ss : Schs}, EachConforms vs ss → WritesAll vs vs.enc
  | _, _, .nil => .nil
  | _, _, .cons h hr => .cons (writes_enc h) (writesEach_enc hr)

theorem writesNth_enc : ∀ {v : SVal} {ss : Schs} {i : Nat}, NthConforms v ss i → Writes v v.enc
  | _, _, _, .here ss h => writes_enc h
  | _, _, _, .there s h => writesNth_enc h

end

mutual

theorem writes_unique : ∀ {v : SVal} {b b' : Bytes}, Writes v b → Writes v b' → b = b'
  | _, _, _, .false, .false => rfl
  | _, _, _, .true, .true => rfl
  | _, _, _, .byte _, .byte _ => rfl
  | _, _, _, .uint h, .uint h' => h.unique h'
  | _, _, _, .int hz h, .int hz' h' => by
    rw [zigzag_iff] at hz hz'
    subst hz hz'
    exact h.unique h'
  | _, _, _, .float _, .float _ => rfl
  | _, _, _, .char c h, .char _ h' => by rw [h.unique h']
  | _, _, _, .string c h, .string _ h' => by rw [h.unique h']
  | _, _, _, .bytes c h, .bytes _ h' => by rw [h.unique h']
  | _, _, _, .unit, .unit => rfl
  | _, _, _, .none, .none => rfl
  | _, _, _, .some h, .some h' => by rw [writes_unique h h']
  | _, _, _, .seq hl h, .seq hl' h' => by rw [hl.unique hl', writesAll_unique h h']
  | _, _, _, .tuple h, .tuple h' => by rw [writesAll_unique h h']
  | _, _, _, .variant hi h, .variant hi' h' => by rw [hi.unique hi', writes_unique h h']

theorem writesAll_unique : ∀ {vs : SVals} {b b' : Bytes}, WritesAll vs b → WritesAll vs b' → b = b'
  | _, _, _, .nil, .nil => rfl
  | _, _, _, .cons h hr, .cons h' hr' => by rw [writes_unique h h', writesAll_unique hr hr']

end

/-- **C16.** What is written for a value is what the wire format says, and the format leaves no choice. -/
theorem C16_writes (s : Sch) (v : SVal) (h : Conforms v s) (b : Bytes) : postSerialize v = b ↔ Writes v b :=
  ⟨fun hb => hb ▸ writes_enc h, fun hb => writes_unique (writes_enc h) hb⟩

/-! ## Reading -/

theorem takeN_iff {p : Policy} {n buf buf' : Nat} {b x r : Bytes} :
    takeN p n buf b = some (x, buf', r) ↔ b = x ++ r ∧ x.length = n ∧ p.take n buf = some buf' := by
  unfold takeN
  cases p.take n buf with
  | none => simp
  | some c =>
    simp only [Option.bind_eq_bind, Option.bind_some, Option.some.injEq]
    split
    · next hn =>
      simp only [Option.some.injEq, Prod.mk.injEq]
      constructor
      · rintro ⟨rfl, rfl, rfl⟩; exact ⟨(List.take_append_drop n b).symm, by simp [hn], rfl⟩
      · rintro ⟨rfl, rfl, rfl⟩; simp
    · next hn =>
      simp only [reduceCtorEq, false_iff]
      rintro ⟨rfl, rfl, -⟩
      simp at hn

theorem takes_one {p : Policy} {n buf : Nat} : p.takes [n] buf = p.take n buf := by
  unfold Policy.takes
  cases p.take n buf <;> rfl

theorem takes_append_some {p : Policy} {l m : List Nat} {buf c : Nat} :
    p.takes (l ++ m) buf = some c ↔ ∃ b, p.takes l buf = some b ∧ p.takes m b = some c := by
  rw [Policy.takes_append, Option.bind_eq_some_iff]

theorem number64 {n : Nat} {b r : Bytes} : takeVarint 64 b = some (n, r) ↔ ∃ pre, b = pre ++ r ∧ Number .w64 n pre :=
  takeVarint_iff .w64

theorem number32 {n : Nat} {b r : Bytes} : takeVarint 32 b = some (n, r) ↔ ∃ pre, b = pre ++ r ∧ Number .w32 n pre :=
  takeVarint_iff .w32

theorem decN_reads (p : Policy) (s : Sch) (hs : ∀ {buf : Nat} {b : Bytes} {v : SVal} {buf' : Nat} {r : Bytes},
    s.dec p buf b = some (v, buf', r) → ∃ l pre, b = pre ++ r ∧ Reads s v l pre ∧ p.takes l buf = some buf') :
    ∀ (n : Nat) {buf : Nat} {b : Bytes} {vs : SVals} {buf' : Nat} {r : Bytes},
      decN (s.dec p) n buf b = some (vs, buf', r) →
      vs.length = n ∧ ∃ l pre, b = pre ++ r ∧ ReadsMany s vs l pre ∧ p.takes l buf = some buf'
  | 0, buf, b, v, buf', r, h => by
    simp only [decN, Option.some.injEq, Prod.mk.injEq] at h
    obtain ⟨rfl, rfl, rfl⟩ := h; exact ⟨rfl, [], [], rfl, .nil s, rfl⟩
  | n + 1, buf, b, v, buf', r, h => by
    simp only [decN, Option.bind_eq_bind] at h
    obtain ⟨⟨x, bu, b'⟩, h1, h⟩ := Option.bind_eq_some_iff.mp h
    obtain ⟨⟨xs, bu', b''⟩, h2, h⟩ := Option.bind_eq_some_iff.mp h
    simp only [Option.some.injEq, Prod.mk.injEq] at h
    obtain ⟨rfl, rfl, rfl⟩ := h
    obtain ⟨l, pre, rfl, h3, h4⟩ := hs h1
    obtain ⟨h5, l', pre', rfl, h6, h7⟩ := decN_reads p s hs n h2
    exact ⟨by rw [SVals.length, h5], l ++ l', pre ++ pre', by simp, .cons h3 h6, takes_append_some.mpr ⟨_, h4, h7⟩⟩

mutual

theorem dec_reads (p : Policy) : ∀ (s : Sch) {buf : Nat} {b : Bytes} {v : SVal} {buf' : Nat} {r : Bytes},
    s.dec p buf b = some (v, buf', r) → ∃ l pre, b = pre ++ r ∧ Reads s v l pre ∧ p.takes l buf = some buf'
  | .bool, buf, b, v, buf', r, h => by
    simp only [Sch.dec] at h
    split at h <;> simp only [Option.some.injEq, Prod.mk.injEq, reduceCtorEq] at h
    · obtain ⟨rfl, rfl, rfl⟩ := h; exact ⟨[], [0], rfl, .false, rfl⟩
    · obtain ⟨rfl, rfl, rfl⟩ := h; exact ⟨[], [1], rfl, .true, rfl⟩
  | .byte, buf, b, v, buf', r, h => by
    simp only [Sch.dec] at h
    split at h <;> simp only [Option.some.injEq, Prod.mk.injEq, reduceCtorEq] at h
    obtain ⟨rfl, rfl, rfl⟩ := h; exact ⟨[], [_], rfl, .byte _, rfl⟩
  | .uint w, buf, b, v, buf', r, h => by
    simp only [Sch.dec, Option.bind_eq_bind] at h
    obtain ⟨⟨n, b'⟩, h1, h⟩ := Option.bind_eq_some_iff.mp h
    simp only [Option.some.injEq, Prod.mk.injEq] at h
    obtain ⟨rfl, rfl, rfl⟩ := h
    obtain ⟨pre, rfl, hn⟩ := (takeVarint_iff w).mp h1
    exact ⟨[], pre, rfl, .uint hn, rfl⟩
  | .int w, buf, b, v, buf', r, h => by
    simp only [Sch.dec, Option.bind_eq_bind] at h
    obtain ⟨⟨n, b'⟩, h1, h⟩ := Option.bind_eq_some_iff.mp h
    simp only [Option.some.injEq, Prod.mk.injEq] at h
    obtain ⟨rfl, rfl, rfl⟩ := h
    obtain ⟨pre, rfl, hn⟩ := (takeVarint_iff w).mp h1
    exact ⟨[], pre, rfl, .int (zigzag_iff'.mpr rfl) hn, rfl⟩
  | .float n, buf, b, v, buf', r, h => by
    simp only [Sch.dec, Option.bind_eq_bind] at h
    obtain ⟨⟨x, bu, b'⟩, h1, h⟩ := Option.bind_eq_some_iff.mp h
    simp only [Option.some.injEq, Prod.mk.injEq] at h
    obtain ⟨rfl, rfl, rfl⟩ := h
    obtain ⟨rfl, h2, h3⟩ := takeN_iff.mp h1
    exact ⟨[n], x, rfl, .float h2, takes_one.trans h3⟩
  | .char, buf, b, v, buf', r, h => by
    simp only [Sch.dec, Option.bind_eq_bind] at h
    obtain ⟨⟨n, b'⟩, h0, h⟩ := Option.bind_eq_some_iff.mp h
    simp only at h
    split at h
    · rename_i h4
      obtain ⟨⟨x, bu, b'⟩, h1, h⟩ := Option.bind_eq_some_iff.mp h
      simp only at h
      split at h
      · rename_i c t hx
        simp only [Option.some.injEq, Prod.mk.injEq] at h
        obtain ⟨rfl, rfl, rfl⟩ := h
        obtain ⟨rfl, rfl, h3⟩ := takeN_iff.mp h1
        obtain ⟨pre, rfl, hn⟩ := number64.mp h0
        obtain rfl := utf8Decode_iff.mp hx
        exact ⟨_, pre ++ utf8Encode (c :: t), by simp, .char c t hn h4, takes_one.trans h3⟩
      · cases h
    · cases h
  | .string, buf, b, v, buf', r, h => by
    simp only [Sch.dec, Option.bind_eq_bind] at h
    obtain ⟨⟨n, b'⟩, h0, h⟩ := Option.bind_eq_some_iff.mp h
    obtain ⟨⟨x, bu, b'⟩, h1, h⟩ := Option.bind_eq_some_iff.mp h
    obtain ⟨t, hx, h⟩ := Option.bind_eq_some_iff.mp h
    simp only [Option.some.injEq, Prod.mk.injEq] at h
    obtain ⟨rfl, rfl, rfl⟩ := h
    obtain ⟨rfl, rfl, h3⟩ := takeN_iff.mp h1
    obtain ⟨pre, rfl, hn⟩ := number64.mp h0
    obtain rfl : x = _ := utf8Decode_iff.mp hx
    exact ⟨_, pre ++ utf8Encode t, by simp, .string t hn, takes_one.trans h3⟩
  | .bytes, buf, b, v, buf', r, h => by
    simp only [Sch.dec, Option.bind_eq_bind] at h
    obtain ⟨⟨n, b'⟩, h0, h⟩ := Option.bind_eq_some_iff.mp h
    obtain ⟨⟨x, bu, b'⟩, h1, h⟩ := Option.bind_eq_some_iff.mp h
    simp only [Option.some.injEq, Prod.mk.injEq] at h
    obtain ⟨rfl, rfl, rfl⟩ := h
    obtain ⟨rfl, rfl, h3⟩ := takeN_iff.mp h1
    obtain ⟨pre, rfl, hn⟩ := number64.mp h0
    exact ⟨_, pre ++ x, by simp, .bytes x hn, takes_one.trans h3⟩
  | .unit, buf, b, v, buf', r, h => by
    simp only [Sch.dec, Option.some.injEq, Prod.mk.injEq] at h
    obtain ⟨rfl, rfl, rfl⟩ := h; exact ⟨[], [], rfl, .unit, rfl⟩
  | .option s, buf, b, v, buf', r, h => by
    simp only [Sch.dec] at h
    split at h
    · simp only [Option.some.injEq, Prod.mk.injEq] at h
      obtain ⟨rfl, rfl, rfl⟩ := h; exact ⟨[], [0], rfl, .none s, rfl⟩
    · simp only [Option.bind_eq_bind] at h
      obtain ⟨⟨x, bu, b'⟩, h1, h⟩ := Option.bind_eq_some_iff.mp h
      simp only [Option.some.injEq, Prod.mk.injEq] at h
      obtain ⟨rfl, rfl, rfl⟩ := h
      obtain ⟨l, pre, rfl, h2, h3⟩ := dec_reads p s h1
      exact ⟨l, 1 :: pre, rfl, .some h2, h3⟩
    · cases h
  | .seq s, buf, b, v, buf', r, h => by
    simp only [Sch.dec, Option.bind_eq_bind] at h
    obtain ⟨⟨n, b'⟩, h0, h⟩ := Option.bind_eq_some_iff.mp h
    obtain ⟨⟨x, bu, b'⟩, h1, h⟩ := Option.bind_eq_some_iff.mp h
    simp only [Option.some.injEq, Prod.mk.injEq] at h
    obtain ⟨rfl, rfl, rfl⟩ := h
    obtain ⟨rfl, l, pre, e, h3, h4⟩ := decN_reads p s (fun h => dec_reads p s h) n h1
    obtain ⟨pre', rfl, hn⟩ := number64.mp h0
    exact ⟨l, pre' ++ pre, by simp only at e; rw [e]; simp, .seq hn h3, h4⟩
  | .tuple ss, buf, b, v, buf', r, h => by
    simp only [Sch.dec, Option.bind_eq_bind] at h
    obtain ⟨⟨x, bu, b'⟩, h1, h⟩ := Option.bind_eq_some_iff.mp h
    simp only [Option.some.injEq, Prod.mk.injEq] at h
    obtain ⟨rfl, rfl, rfl⟩ := h
    obtain ⟨l, pre, rfl, h2, h3⟩ := decAll_reads p ss h1
    exact ⟨l, pre, rfl, .tuple h2, h3⟩
  | .enum ss, buf, b, v, buf', r, h => by
    simp only [Sch.dec, Option.bind_eq_bind] at h
    obtain ⟨⟨i, b'⟩, h0, h⟩ := Option.bind_eq_some_iff.mp h
    obtain ⟨⟨x, bu, b'⟩, h1, h⟩ := Option.bind_eq_some_iff.mp h
    simp only [Option.some.injEq, Prod.mk.injEq] at h
    obtain ⟨rfl, rfl, rfl⟩ := h
    obtain ⟨l, pre, e, h2, h3⟩ := decNth_reads p ss h1
    obtain ⟨pre', rfl, hn⟩ := number32.mp h0
    exact ⟨l, pre' ++ pre, by simp only at e; rw [e]; simp, .variant hn h2, h3⟩

theorem decAll_reads (p : Policy) : ∀ (ss : Schs) {buf : Nat} {b : Bytes} {vs : SVals} {buf' : Nat} {r : Bytes},
    ss.decAll p buf b = some (vs, buf', r) → ∃ l pre, b = pre ++ r ∧ ReadsEach ss vs l pre ∧ p.takes l buf = some buf'
  | .nil, buf, b, v, buf', r, h => by
    simp only [Schs.decAll, Option.some.injEq, Prod.mk.injEq] at h
    obtain ⟨rfl, rfl, rfl⟩ := h; exact ⟨[], [], rfl, .nil, rfl⟩
  | .cons s ss, buf, b, v, buf', r, h => by
    simp only [Schs.decAll, Option.bind_eq_bind] at h
    obtain ⟨⟨x, bu, b'⟩, h1, h⟩ := Option.bind_eq_some_iff.mp h
    obtain ⟨⟨xs, bu', b''⟩, h2, h⟩ := Option.bind_eq_some_iff.mp h
    simp only [Option.some.injEq, Prod.mk.injEq] at h
    obtain ⟨rfl, rfl, rfl⟩ := h
    obtain ⟨l, pre, rfl, h3, h4⟩ := dec_reads p s h1
    obtain ⟨l', pre', rfl, h6, h7⟩ := decAll_reads p ss h2
    exact ⟨l ++ l', pre ++ pre', by simp, .cons h3 h6, takes_append_some.mpr ⟨_, h4, h7⟩⟩

theorem decNth_reads (p : Policy) : ∀ (ss : Schs) {i buf : Nat} {b : Bytes} {v : SVal} {buf' : Nat} {r : Bytes},
    ss.decNth p i buf b = some (v, buf', r) → ∃ l pre, b = pre ++ r ∧ ReadsNth ss i v l pre ∧ p.takes l buf = some buf'
  | .nil, i, buf, b, v, buf', r, h => by simp [Schs.decNth] at h
  | .cons s ss, 0, buf, b, v, buf', r, h => by
    rw [Schs.decNth] at h
    obtain ⟨l, pre, h1, h2, h3⟩ := dec_reads p s h
    exact ⟨l, pre, h1, .here ss h2, h3⟩
  | .cons s ss, i + 1, buf, b, v, buf', r, h => by
    rw [Schs.decNth] at h
    obtain ⟨l, pre, h1, h2, h3⟩ := decNth_reads p ss h
    exact ⟨l, pre, h1, .there s h2, h3⟩

end

mutual

theorem reads_dec (p : Policy) : ∀ {s : Sch} {v : SVal} {l : List Nat} {pre : Bytes}, Reads s v l pre →
    ∀ (buf : Nat) (r : Bytes), s.dec p buf (pre ++ r) = ReadsBack p l v buf r
  | _, _, _, _, .false, buf, r => rfl
  | _, _, _, _, .true, buf, r => rfl
  | _, _, _, _, .byte x, buf, r => rfl
  | _, _, _, _, .uint (w := w) h, buf, r => by
    rw [Sch.dec, (takeVarint_iff w).mpr ⟨_, rfl, h⟩]; rfl
  | _, _, _, _, .int (w := w) hz h, buf, r => by
    rw [Sch.dec, (takeVarint_iff w).mpr ⟨_, rfl, h⟩, zigzag_iff'.mp hz]; rfl
  | _, _, _, _, .float (b := b) h, buf, r => by
    subst h
    rw [Sch.dec, takeN_append, readsBack_one]
    cases p.take b.length buf <;> rfl
  | _, _, _, _, .char c t h h4, buf, r => by
    rw [Sch.dec, List.append_assoc, number64.mpr ⟨_, rfl, h⟩]
    simp only [Option.bind_eq_bind, Option.bind_some, if_pos h4]
    rw [takeN_append, readsBack_one]
    cases p.take (utf8Encode (c :: t)).length buf with
    | none => rfl
    | some b =>
      simp only [Option.map_some, Option.bind_some]
      rw [utf8Decode_encode]
  | _, _, _, _, .string s h, buf, r => by
    rw [Sch.dec, List.append_assoc, number64.mpr ⟨_, rfl, h⟩]
    simp only [Option.bind_eq_bind, Option.bind_some]
    rw [takeN_append, readsBack_one]
    cases p.take (utf8Encode s).length buf with
    | none => rfl
    | some b =>
      simp only [Option.map_some, Option.bind_some]
      rw [utf8Decode_encode]
      rfl
  | _, _, _, _, .bytes b h, buf, r => by
    rw [Sch.dec, List.append_assoc, number64.mpr ⟨_, rfl, h⟩]
    simp only [Option.bind_eq_bind, Option.bind_some]
    rw [takeN_append, readsBack_one]
    cases p.take b.length buf <;> rfl
  | _, _, _, _, .unit, buf, r => rfl
  | _, _, _, _, .none s, buf, r => rfl
  | _, _, _, _, .some h, buf, r => by
    rw [List.cons_append, Sch.dec]
    simp only [reads_dec p h buf r, Option.bind_eq_bind]
    exact readsBack_map p fun b => rfl
  | _, _, _, _, .seq hl h, buf, r => by
    rw [Sch.dec, List.append_assoc, number64.mpr ⟨_, rfl, hl⟩]
    simp only [Option.bind_eq_bind, Option.bind_some, readsMany_dec p h buf r]
    exact readsBack_map p fun b => rfl
  | _, _, _, _, .tuple h, buf, r => by
    rw [Sch.dec, readsEach_dec p h buf r]
    exact readsBack_map p fun b => rfl
  | _, _, _, _, .variant hi h, buf, r => by
    rw [Sch.dec, List.append_assoc, number32.mpr ⟨_, rfl, hi⟩]
    simp only [Option.bind_eq_bind, Option.bind_some, readsNth_dec p h buf r]
    exact readsBack_map p fun b => rfl

theorem readsMany_dec (p : Policy) : ∀ {s : Sch} {vs : SVals} {l : List Nat} {pre : Bytes}, ReadsMany s vs l pre →
    ∀ (buf : Nat) (r : Bytes), decN (s.dec p) vs.length buf (pre ++ r) = ReadsBack p l vs buf r
  | _, _, _, _, .nil s, buf, r => rfl
  | _, _, _, _, .cons h hr, buf, r => by
    rw [SVals.length, decN, List.append_assoc, reads_dec p h]
    exact readsBack_bind p fun b => by
      simp only [readsMany_dec p hr b r, Option.bind_eq_bind]
      exact readsBack_map p fun b => rfl

theorem readsEach_dec (p : Policy) : ∀ {ss : Schs} {vs : SVals} {l : List Nat} {pre : Bytes}, ReadsEach ss vs l pre →
    ∀ (buf : Nat) (r : Bytes), ss.decAll p buf (pre ++ r) = ReadsBack p l vs buf r
  | _, _, _, _, .nil, buf, r => rfl
  | _, _, _, _, .cons h hr, buf, r => by
    rw [Schs.decAll, List.append_assoc, reads_dec p h]
    exact readsBack_bind p fun b => by
      simp only [readsEach_dec p hr b r, Option.bind_eq_bind]
      exact readsBack_map p fun b => rfl

theorem readsNth_dec (p : Policy) : ∀ {ss : Schs} {i : Nat} {v : SVal} {l : List Nat} {pre : Bytes}, ReadsNth ss i v l pre →
    ∀ (buf : Nat) (r : Bytes), ss.decNth p i buf (pre ++ r) = ReadsBack p l v buf r
  | _, _, _, _, _, .here ss h, buf, r => by rw [Schs.decNth]; exact reads_dec p h buf r
  | _, _, _, _, _, .there s h, buf, r => by rw [Schs.decNth]; exact readsNth_dec p h buf r

end

theorem roomFor_iff {p : Policy} {l : List Nat} {buf : Nat} : RoomFor p l buf ↔ ∃ b, p.takes l buf = some b := by
  cases p with
  | temp =>
    rw [takes_temp, RoomFor]
    split
    · next h => exact ⟨fun _ => ⟨_, rfl⟩, fun _ => h⟩
    · next h => exact ⟨fun h' => absurd h' h, fun ⟨_, h'⟩ => (nomatch h')⟩
  | keep =>
    rw [takes_keep, RoomFor]
    split <;> simp [*]

/-- **C16.** Exactly which files are read as a value, and as which one: those that begin with a text of the grammar,
provided that the buffer of 2048 bytes has room for its parts. Everything else, whatever a fuzzer makes up, is rejected;
and what follows the text does not matter. -/
theorem C16_reads (p : Policy) (s : Sch) (b : Bytes) (v : SVal) :
    postDeserialize p s b = some v ↔ ∃ l pre r, b = pre ++ r ∧ Reads s v l pre ∧ RoomFor p l 2048 := by
  unfold postDeserialize
  rw [Option.map_eq_some_iff]
  constructor
  · rintro ⟨⟨v', buf', r⟩, h, rfl⟩
    obtain ⟨l, pre, h1, h2, h3⟩ := dec_reads p s h
    exact ⟨l, pre, r, h1, h2, roomFor_iff.mpr ⟨_, h3⟩⟩
  · rintro ⟨l, pre, r, rfl, h2, h3⟩
    obtain ⟨b, hb⟩ := roomFor_iff.mp h3
    refine ⟨(v, b, r), ?_, rfl⟩
    rw [reads_dec p h2, ReadsBack, slidingBufferSize, hb]; rfl

/-! ## Cases -/

namespace PostDemo

/-- `300u16` in two and in three bytes; the third is useless. -/
example : Shortest 300 [0xAC, 0x02] ∧ Leb 300 [0xAC, 0x82, 0x00] ∧ ¬ Shortest 300 [0xAC, 0x82, 0x00] ∧
    Zigzag (-3) 5 := by
  refine ⟨⟨.more 0xAC (by decide) (.last 0x02 (by decide)), by decide⟩,
    .more 0xAC (by decide) (.more 0x82 (by decide) (.last 0x00 (by decide))), ?_, by unfold Zigzag; decide⟩
  rintro ⟨-, h⟩
  exact absurd (h (by decide)) (by decide)

example : Writes val [2, 1, 0xAC, 0x02, 0, 5, 1, 2, 0xC3, 0xA9] :=
  (C16_writes sch val conforms _).mp (by decide +kernel)

example : ∃ l pre r, ([0xAC, 0x82, 0x00, 7] : Bytes) = pre ++ r ∧ Reads (.uint .w16) (.uint 300) l pre ∧ RoomFor .keep l 2048 :=
  (C16_reads .keep (.uint .w16) _ _).mp (by decide +kernel)

/-- 65536 is no `u16`. -/
example (v : SVal) (l : List Nat) (pre r : Bytes) (h : ([0x80, 0x80, 0x04] : Bytes) = pre ++ r) : ¬ Reads (.uint .w16) v l pre := by
  intro hr
  have h0 : l = [] := by cases hr; rfl
  subst h0
  have := (C16_reads .temp (.uint .w16) _ v).mpr ⟨[], pre, r, h, hr, by simp [RoomFor]⟩
  revert this
  rw [show postDeserialize .temp (.uint .w16) [0x80, 0x80, 0x04] = none by decide +kernel]
  simp

end PostDemo

end TF
