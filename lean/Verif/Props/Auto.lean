import Verif.Model.Auto
import Mathlib.Tactic.Common

/-! # Auto-generated values: C18, C19, C20 -/

namespace TF

variable {α : Type}

/-! ## Tuples -/

theorem index_ok {l : List α} {i : Nat} (h : i < l.length) : index l i = .ok l[i] := by
  unfold index
  rw [List.getElem?_eq_getElem h]

/-- The `j`-th field of the `i`-th tuple. -/
theorem autoFields_ok (all : List (List α)) (i : Nat) (j : Nat) (rest : List (List α)) (hr : rest = all.drop j)
    (hne : ∀ l ∈ all, l ≠ []) :
    ∃ t, autoFields (all.map List.length) i j rest = .ok t ∧ t.length = rest.length ∧
      ∀ k l, rest[k]? = some l → t[k]? = l[(i + (j + k)) % l.length]? := by
  induction rest generalizing j with
  | nil => exact ⟨[], rfl, rfl, by simp⟩
  | cons l rest ih =>
    have hj : all[j]? = some l := by
      have := congrArg List.head? hr
      rw [List.head?_drop] at this
      exact this.symm
    obtain ⟨hjl, hjj⟩ := List.getElem?_eq_some_iff.mp hj
    have hl : l ∈ all := hjj ▸ List.getElem_mem _
    have hpos : 0 < l.length := List.length_pos_iff.mpr (hne l hl)
    obtain ⟨t, h1, h2, h3⟩ := ih (j + 1) (by rw [← List.tail_drop, ← hr]; rfl)
    have hi : index (all.map List.length) j = .ok l.length := by
      unfold index; rw [List.getElem?_map, hj]; rfl
    have hrem : rem (i + j) l.length = .ok ((i + j) % l.length) := by
      unfold rem; rw [if_neg (by omega)]
    have hix : index l ((i + j) % l.length) = .ok (l[(i + j) % l.length]'(Nat.mod_lt _ hpos)) := index_ok _
    refine ⟨l[(i + j) % l.length]'(Nat.mod_lt _ hpos) :: t, ?_, by simp [h2], ?_⟩
    · rw [autoFields, hi, Out.ok_bind, hrem, Out.ok_bind, hix, Out.ok_bind, h1, Out.ok_bind]
    · intro k l' hk
      cases k with
      | zero =>
        simp only [List.getElem?_cons_zero, Option.some.injEq] at hk
        subst hk
        rw [Nat.add_zero, List.getElem?_cons_zero, List.getElem?_eq_getElem (Nat.mod_lt _ hpos)]
      | succ k =>
        simp only [List.getElem?_cons_succ] at hk ⊢
        rw [h3 k l' hk, show j + 1 + k = j + (k + 1) by omega]

theorem autoTuples_ok (all : List (List α)) (hne : ∀ l ∈ all, l ≠ []) (i n : Nat) :
    ∃ ts, autoTuples all (all.map List.length) i n = .ok ts ∧ ts.length = n ∧
      ∀ m t, ts[m]? = some t → t.length = all.length ∧
        ∀ k l, all[k]? = some l → t[k]? = l[(i + m + k) % l.length]? := by
  induction n generalizing i with
  | zero => exact ⟨[], rfl, rfl, by simp⟩
  | succ n ih =>
    obtain ⟨t, h1, h2, h3⟩ := autoFields_ok all i 0 all (by simp) hne
    obtain ⟨ts, h4, h5, h6⟩ := ih (i + 1)
    refine ⟨t :: ts, by rw [autoTuples, h1, Out.ok_bind, h4, Out.ok_bind], by simp [h5], ?_⟩
    intro m t' hm
    cases m with
    | zero =>
      simp only [List.getElem?_cons_zero, Option.some.injEq] at hm
      subst hm
      refine ⟨h2, fun k l hk => ?_⟩
      rw [h3 k l hk, Nat.zero_add, Nat.add_zero]
    | succ m =>
      obtain ⟨h7, h8⟩ := h6 m t' hm
      refine ⟨h7, fun k l hk => ?_⟩
      rw [h8 k l hk, show i + 1 + m = i + (m + 1) by omega]

/-- The largest of some numbers. -/
def Spec.IsLargest (l : List Nat) (n : Nat) : Prop := n ∈ l ∧ ∀ m ∈ l, m ≤ n

theorem lens_nonempty {autos : List (List α)} (hne : ∀ l ∈ autos, l ≠ []) :
    (autos.map List.length).min?.getD 1 > 0 := by
  cases h : (autos.map List.length).min? with
  | none => simp
  | some m =>
    obtain ⟨l, hl, rfl⟩ := List.mem_map.mp (List.min?_mem h)
    exact List.length_pos_iff.mpr (hne l hl)

theorem argsFromAutos_nonempty (autos : List (List α)) (hne : ∀ l ∈ autos, l ≠ []) :
    ∃ ts, argsFromAutos autos = .ok ts ∧ ts.length = (autos.map List.length).max?.getD 1 ∧
      ∀ (m : Nat) (t : List α), ts[m]? = some t → t.length = autos.length ∧
        ∀ (k : Nat) (l : List α), autos[k]? = some l → t[k]? = l[(m + k) % l.length]? := by
  unfold argsFromAutos
  simp only
  rw [if_pos (lens_nonempty hne)]
  obtain ⟨ts, h1, h2, h3⟩ := autoTuples_ok autos hne 0 ((autos.map List.length).max?.getD 1)
  refine ⟨ts, h1, h2, fun m t hm => ?_⟩
  obtain ⟨h4, h5⟩ := h3 m t hm
  exact ⟨h4, fun k l hk => by rw [h5 k l hk, Nat.zero_add]⟩

/-! ## C19 -/

/-- If every argument has a value, there are as many tuples as the argument with most values has. -/
theorem C19_number (autos : List (List α)) (hne : ∀ l ∈ autos, l ≠ []) (n : Nat)
    (hn : Spec.IsLargest (autos.map List.length) n) :
    ∃ ts, argsFromAutos autos = .ok ts ∧ ts.length = n ∧ ∀ t ∈ ts, t.length = autos.length := by
  obtain ⟨ts, h1, h2, h3⟩ := argsFromAutos_nonempty autos hne
  refine ⟨ts, h1, ?_, fun t ht => ?_⟩
  · rw [h2]
    have : (autos.map List.length).max? = some n := by
      rw [List.max?_eq_some_iff]
      exact hn
    rw [this]; rfl
  · obtain ⟨m, hm, rfl⟩ := List.getElem_of_mem ht
    exact (h3 m _ (List.getElem?_eq_getElem hm)).1

/-- Without arguments there is one tuple, the empty one. -/
theorem C19_no_arguments : argsFromAutos ([] : List (List α)) = .ok [[]] := rfl

/-- If some argument has no value there is no tuple, and nothing panics. -/
theorem C19_none (autos : List (List α)) (h : [] ∈ autos) : argsFromAutos autos = .ok [] := by
  unfold argsFromAutos
  have h0 : (autos.map List.length).min? = some 0 := by
    rw [List.min?_eq_some_iff]
    exact ⟨List.mem_map.mpr ⟨[], h, rfl⟩, fun _ _ => Nat.zero_le _⟩
  simp only
  rw [h0, if_neg (by simp)]
  rfl

/-- Never a panic: no index is out of bounds and no division is by zero. -/
theorem C19_total (autos : List (List α)) : ∃ ts, argsFromAutos autos = .ok ts := by
  by_cases h : [] ∈ autos
  · exact ⟨_, C19_none autos h⟩
  · obtain ⟨ts, h1, -⟩ := argsFromAutos_nonempty autos fun l hl hh => h (hh ▸ hl)
    exact ⟨ts, h1⟩

/-! ## C18 -/

/-- Every value of every argument is, in its position, in some tuple. -/
theorem C18_every_value_used (autos : List (List α)) (hne : ∀ l ∈ autos, l ≠ []) (k : Nat) (l : List α)
    (hk : autos[k]? = some l) (x : α) (hx : x ∈ l) :
    ∃ ts, argsFromAutos autos = .ok ts ∧ ∃ t ∈ ts, t[k]? = some x := by
  obtain ⟨ts, h1, h2, h3⟩ := argsFromAutos_nonempty autos hne
  refine ⟨ts, h1, ?_⟩
  obtain ⟨i, hi, rfl⟩ := List.getElem_of_mem hx
  obtain ⟨hkl, hkk⟩ := List.getElem?_eq_some_iff.mp hk
  have hl : l ∈ autos := hkk ▸ List.getElem_mem _
  -- the number of tuples is at least the number of values
  have hlen : l.length ≤ ts.length := by
    rw [h2]
    cases hm : (autos.map List.length).max? with
    | none =>
      rw [List.max?_eq_none_iff, List.map_eq_nil_iff] at hm
      rw [hm] at hl; cases hl
    | some m => exact (List.max?_eq_some_iff.mp hm).2 _ (List.mem_map.mpr ⟨l, hl, rfl⟩)
  -- the tuple in which the value occurs
  have hpos : 0 < l.length := by omega
  let m := (i + (l.length - k % l.length)) % l.length
  have hm : m < l.length := Nat.mod_lt _ hpos
  have hmk : (m + k) % l.length = i := by
    have hk' : k % l.length < l.length := Nat.mod_lt _ hpos
    have h4 : (m + k) % l.length = (m + k % l.length) % l.length := by simp [Nat.add_mod]
    have h5 : (m + k % l.length) % l.length = ((i + (l.length - k % l.length)) + k % l.length) % l.length := by
      show ((i + (l.length - k % l.length)) % l.length + k % l.length) % l.length = _
      rw [Nat.mod_add_mod]
    rw [h4, h5, show i + (l.length - k % l.length) + k % l.length = i + l.length by omega, Nat.add_mod_right,
      Nat.mod_eq_of_lt hi]
  have hmt : m < ts.length := by omega
  refine ⟨ts[m], List.getElem_mem _, ?_⟩
  rw [(h3 m _ (List.getElem?_eq_getElem hmt)).2 k l hk, hmk, List.getElem?_eq_getElem hi]

/-- And nothing else is: the fields of the tuples are values of their arguments. -/
theorem C18_only_values (autos : List (List α)) (ts : List (List α)) (h : argsFromAutos autos = .ok ts) (t : List α)
    (ht : t ∈ ts) (k : Nat) (x : α) (hx : t[k]? = some x) : ∃ l, autos[k]? = some l ∧ x ∈ l := by
  by_cases hn : [] ∈ autos
  · rw [C19_none autos hn] at h
    cases h; cases ht
  · obtain ⟨ts', h1, -, h3⟩ := argsFromAutos_nonempty autos fun l hl hh => hn (hh ▸ hl)
    rw [h1] at h
    cases h
    obtain ⟨m, hm, rfl⟩ := List.getElem_of_mem ht
    obtain ⟨h4, h5⟩ := h3 m _ (List.getElem?_eq_getElem hm)
    have hk : k < autos.length := by
      rw [← h4]
      obtain ⟨hk, -⟩ := List.getElem?_eq_some_iff.mp hx
      exact hk
    refine ⟨autos[k], List.getElem?_eq_getElem hk, ?_⟩
    rw [h5 k _ (List.getElem?_eq_getElem hk)] at hx
    exact List.mem_of_getElem? hx

example : argsFromAutos [[1, 2, 3], [7], [4, 5]] = .ok [[1, 7, 4], [2, 7, 5], [3, 7, 4]] := by decide +kernel
example : argsFromAutos [[1, 2, 3], [], [4, 5]] = .ok [] := by decide +kernel

/-! ## C20 -/

/-- The values of an integer type: those from `lo` to `hi`. -/
def Spec.IsRange (signed : Bool) (bits : Nat) (lo hi : Int) : Prop :=
  hi - lo + 1 = 2 ^ bits ∧ (signed = false → lo = 0) ∧ (signed = true → lo = -hi - 1)

/-- `a` and `b` are the two values in the middle: next to each other, with as many values below as above. -/
def Spec.AreMiddle (lo hi a b : Int) : Prop := b = a + 1 ∧ a - lo = hi - b

theorem two_pow_succ' (n : Nat) : (2 : Int) ^ (n + 1) = 2 * 2 ^ n := by rw [Int.pow_succ, Int.mul_comm]

theorem auto_of {c : Caps Int} {lo hi a1 a2 a b : Int} {add sub div : Int → Int → Out Int}
    (hc : c = ⟨some (lo, hi), some 0, some 1, some add, some sub, some div⟩)
    (h1 : add 1 1 = .ok 2) (h2 : div lo 2 = .ok a1) (h3 : div hi 2 = .ok a2) (h4 : add a1 a2 = .ok a)
    (h5 : add a 1 = .ok b) (h6 : sub hi 1 = .ok (hi - 1)) (h7 : add lo 1 = .ok (lo + 1)) :
    auto c = .ok [lo, hi, 0, hi - 1, a, b, lo + 1] := by
  subst hc
  simp only [auto, autoImpl, maxValueSubOne, minValueAddOne, middle, two, low, Option.map_some, Option.getD_some,
    Out.ok_bind, h1, h2, h3, h4, h5, h6, h7, List.cons_append, List.nil_append]

/-- Checked results. -/
def chk (lo hi x : Int) : Out Int := if lo ≤ x ∧ x ≤ hi then .ok x else .panic

theorem chk_ok {lo hi x : Int} (h1 : lo ≤ x) (h2 : x ≤ hi) : chk lo hi x = .ok x := if_pos ⟨h1, h2⟩

/-- Capabilities of a type with range `lo` to `hi`. -/
def capsOf (lo hi : Int) : Caps Int :=
  ⟨some (lo, hi), some 0, some 1, some fun a b => chk lo hi (a + b), some fun a b => chk lo hi (a - b),
    some fun a b => if b = 0 then .panic else chk lo hi (a.tdiv b)⟩

theorem auto_capsOf {lo hi a1 a2 : Int} (h1 : lo ≤ 0) (h2 : 2 ≤ hi) (e1 : lo.tdiv 2 = a1) (e2 : hi.tdiv 2 = a2)
    (ha1 : lo ≤ a1 ∧ a1 ≤ hi) (ha2 : lo ≤ a2 ∧ a2 ≤ hi) (hs : lo ≤ a1 + a2 ∧ a1 + a2 + 1 ≤ hi) :
    auto (capsOf lo hi) = .ok [lo, hi, 0, hi - 1, a1 + a2, a1 + a2 + 1, lo + 1] := by
  refine auto_of rfl (chk_ok (by omega) (by omega)) ?_ ?_ (chk_ok (by omega) (by omega)) (chk_ok (by omega) (by omega))
    (chk_ok (by omega) (by omega)) (chk_ok (by omega) (by omega))
  · subst e1
    exact chk_ok ha1.1 ha1.2
  · subst e2
    exact chk_ok ha2.1 ha2.2

/-- The values of an integer type of at least three bits: the extremes, zero, their neighbours and the middle. No
operation overflows. -/
theorem C20_integers (signed : Bool) (bits : Nat) (hb : 3 ≤ bits) (lo hi : Int) (hr : Spec.IsRange signed bits lo hi) :
    ∃ a b, auto (intCaps signed bits) = .ok [lo, hi, 0, hi - 1, a, b, lo + 1] ∧ Spec.AreMiddle lo hi a b := by
  obtain ⟨n, rfl⟩ : ∃ n, bits = n + 3 := ⟨bits - 3, by omega⟩
  obtain ⟨h1, h2, h3⟩ := hr
  have hp : (0 : Int) < 2 ^ n := Int.pow_pos (by decide)
  generalize hq : (2 : Int) ^ n = q at hp
  have e1 : (2 : Int) ^ (n + 1) = 2 * q := by rw [two_pow_succ', hq]
  have e2 : (2 : Int) ^ (n + 2) = 4 * q := by rw [two_pow_succ', e1]; omega
  have e3 : (2 : Int) ^ (n + 3) = 8 * q := by rw [two_pow_succ', e2]; omega
  rw [e3] at h1
  have c1 : ((2 ^ (n + 3) : Nat) : Int) = 8 * q := by rw [← e3]; push_cast; rfl
  have c2 : ((2 ^ (n + 3 - 1) : Nat) : Int) = 4 * q := by rw [← e2]; push_cast; rfl
  cases signed with
  | true =>
    have hlo := h3 rfl
    have hhi : hi = 4 * q - 1 := by omega
    have hlo' : lo = -(4 * q) := by omega
    subst hhi hlo'
    have d1 : (-(4 * q)).tdiv 2 = -(2 * q) := by
      rw [Int.neg_tdiv, show 4 * q = (2 * q) * 2 by omega, Int.mul_tdiv_cancel _ (by decide)]
    have d2 : (4 * q - 1).tdiv 2 = 2 * q - 1 := by
      rw [Int.tdiv_eq_ediv_of_nonneg (by omega)]; omega
    have hc : intCaps true (n + 3) = capsOf (-(4 * q)) (4 * q - 1) := by unfold intCaps; rw [c2]; rfl
    refine ⟨_, _, hc ▸ auto_capsOf (by omega) (by omega) d1 d2 (by omega) (by omega) (by omega), by omega, by omega⟩
  | false =>
    have hlo := h2 rfl
    subst hlo
    have hhi : hi = 8 * q - 1 := by omega
    subst hhi
    have d2 : (8 * q - 1).tdiv 2 = 4 * q - 1 := by
      rw [Int.tdiv_eq_ediv_of_nonneg (by omega)]; omega
    have hc : intCaps false (n + 3) = capsOf 0 (8 * q - 1) := by unfold intCaps; rw [c1]; rfl
    refine ⟨_, _, hc ▸ auto_capsOf (by omega) (by omega) (Int.zero_tdiv 2) d2 (by omega) (by omega) (by omega), by omega,
      by omega⟩

example : auto (intCaps true 8) = .ok [-128, 127, 0, 126, -1, 0, -127] := by decide +kernel
example : auto (intCaps false 8) = .ok [0, 255, 0, 254, 127, 128, 1] := by decide +kernel

/-- Two bits are too few for signed integers: `1 + 1` overflows. -/
example : auto (intCaps true 2) = .panic := by decide +kernel

/-- A type that only has a default gives that one value; a type that has nothing gives none. -/
theorem C20_default_only (d : α) : auto ⟨none, some d, none, none, none, none⟩ = .ok [d] := rfl

theorem C20_nothing : auto (⟨none, none, none, none, none, none⟩ : Caps α) = .ok [] := rfl

end TF
