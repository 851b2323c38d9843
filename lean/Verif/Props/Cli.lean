import Verif.Spec.Cli
import Verif.Lemmas.Str
import Verif.Props.Run

/-!
# C70: the command line
-/

namespace TF.Cli

open TF.Spec

/-! ## Words -/

theorem splitOnce_none {sep : Char} {s : Str} : splitOnce sep s = none ↔ sep ∉ s := by
  induction s with
  | nil => simp [splitOnce]
  | cons c cs ih =>
    unfold splitOnce
    split
    · next h => simp [h]
    · next h =>
      rw [Option.map_eq_none_iff, ih, List.mem_cons, not_or]
      exact ⟨fun hh => ⟨fun e => h e.symm, hh⟩, fun hh => hh.2⟩

theorem toLong_none {a n : Str} : toLong a = some (n, none) ↔ a = c%"--" ++ n ∧ n ≠ [] ∧ '=' ∉ n := by
  unfold toLong
  cases h : stripPrefix c%"--" a with
  | none =>
    simp only [reduceCtorEq, false_iff]
    rintro ⟨h1, -⟩
    rw [(stripPrefix_eq_some _ _ _).mpr h1] at h
    cases h
  | some r =>
    have hr := (stripPrefix_eq_some _ _ _).mp h
    cases r with
    | nil =>
      simp only [reduceCtorEq, false_iff]
      rintro ⟨h1, h2, -⟩
      rw [hr] at h1
      exact h2 (List.append_cancel_left h1).symm
    | cons c cs =>
      simp only []
      cases hs : splitOnce '=' (c :: cs) with
      | none =>
        simp only [Option.some.injEq, Prod.mk.injEq, and_true]
        constructor
        · rintro rfl; exact ⟨hr, by simp, splitOnce_none.mp hs⟩
        · rintro ⟨h1, -⟩; rw [hr] at h1; exact List.append_cancel_left h1
      | some x =>
        obtain ⟨y, v⟩ := x
        simp only [Option.some.injEq, Prod.mk.injEq, reduceCtorEq, and_false, false_iff]
        rintro ⟨h1, -, h2⟩
        rw [hr] at h1
        have := List.append_cancel_left h1
        rw [((splitOnce_eq_some _ _ _ _).mp hs).1] at this
        rw [← this] at h2
        simp at h2

theorem toLong_some {a n v : Str} : toLong a = some (n, some v) ↔ a = c%"--" ++ n ++ '=' :: v ∧ '=' ∉ n := by
  unfold toLong
  cases h : stripPrefix c%"--" a with
  | none =>
    simp only [reduceCtorEq, false_iff]
    rintro ⟨h1, -⟩
    rw [List.append_assoc] at h1
    rw [(stripPrefix_eq_some _ _ _).mpr h1] at h
    cases h
  | some r =>
    have hr := (stripPrefix_eq_some _ _ _).mp h
    cases r with
    | nil =>
      simp only [reduceCtorEq, false_iff]
      rintro ⟨h1, -⟩
      rw [hr, List.append_assoc] at h1
      have := List.append_cancel_left h1
      simp at this
    | cons c cs =>
      simp only []
      cases hs : splitOnce '=' (c :: cs) with
      | none =>
        simp only [Option.some.injEq, Prod.mk.injEq, reduceCtorEq, and_false, false_iff]
        rintro ⟨h1, -⟩
        rw [hr, List.append_assoc] at h1
        have := List.append_cancel_left h1
        exact splitOnce_none.mp hs (by rw [this]; simp)
      | some x =>
        obtain ⟨y, w⟩ := x
        have hs' := (splitOnce_eq_some _ _ _ _).mp hs
        simp only [Option.some.injEq, Prod.mk.injEq]
        constructor
        · rintro ⟨rfl, rfl⟩; exact ⟨by rw [hr, hs'.1, List.append_assoc], hs'.2⟩
        · rintro ⟨h1, h2⟩
          rw [hr, List.append_assoc] at h1
          have := List.append_cancel_left h1
          have h3 := (splitOnce_eq_some '=' (c :: cs) n v).mpr ⟨this, h2⟩
          rw [hs] at h3
          cases h3
          exact ⟨rfl, rfl⟩

theorem toShort_some {a r : Str} : toShort a = some r ↔ a = '-' :: r ∧ r ≠ [] ∧ ∀ x, r ≠ '-' :: x := by
  unfold toShort
  split <;> simp_all
  · rintro rfl _; exact ⟨_, rfl⟩
  · rintro rfl; exact ⟨by assumption, by assumption⟩

theorem positional_iff {a : Str} (h : a ≠ c%"--") : Positional a ↔ toLong a = none ∧ toShort a = none := by
  constructor
  · rintro (rfl | h1)
    · exact ⟨rfl, rfl⟩
    · constructor
      · cases hl : toLong a with
        | none => rfl
        | some x =>
          obtain ⟨n, v⟩ := x
          cases v with
          | none => exact absurd (toLong_none.mp hl).1 (h1 _)
          | some v => exact absurd (toLong_some.mp hl).1 (by rw [List.append_assoc]; exact h1 _)
      · cases hs : toShort a with
        | none => rfl
        | some r => exact absurd (toShort_some.mp hs).1 (h1 _)
  · rintro ⟨h1, h2⟩
    by_cases hm : a = c%"-"
    · exact .inl hm
    · right
      rintro r rfl
      cases r with
      | nil => exact hm rfl
      | cons c r =>
        by_cases hc : c = '-'
        · subst hc
          cases r with
          | nil => exact h rfl
          | cons d r =>
            unfold toLong at h1
            rw [show stripPrefix c%"--" ('-' :: '-' :: d :: r) = some (d :: r) from
              (stripPrefix_eq_some _ _ _).mpr rfl] at h1
            simp only [] at h1
            split at h1 <;> cases h1
        · have := (toShort_some (a := '-' :: c :: r) (r := c :: r)).mpr ⟨rfl, by simp, by simpa using hc⟩
          rw [h2] at this; cases this

/-! ## Tables -/

theorem mem_of_lookup {α β : Type} [BEq α] [LawfulBEq α] {l : List (α × β)} {k : α} {b : β}
    (h : l.lookup k = some b) : (k, b) ∈ l := by
  rw [List.lookup_eq_some_iff] at h
  obtain ⟨l1, l2, rfl, -⟩ := h
  simp

/-- The names of an option. -/
def keyNames : Key → List Str
  | .switch s => switchNames s
  | .valued k => [valuedName k]

theorem longTable_lookup {n : Str} {k : Key} : longTable.lookup n = some k ↔ n ∈ keyNames k := by
  constructor
  · intro h
    have h1 : ∀ x ∈ longTable, x.1 ∈ keyNames x.2 := by decide +kernel
    exact h1 _ (mem_of_lookup h)
  · have h2 : ∀ k, ∀ n ∈ keyNames k, longTable.lookup n = some k := by
      rintro (s | k)
      · cases s <;> decide +kernel
      · cases k <;> decide +kernel
    exact h2 k n

theorem name_clean (k : Key) : ∀ n ∈ keyNames k, n ≠ [] ∧ '=' ∉ n := by
  rcases k with s | k
  · cases s <;> decide +kernel
  · cases k <;> decide +kernel

theorem objectTable_lookup {s : Str} {o : Object} : objectTable.lookup s = some o ↔ s = objectName o := by
  constructor
  · intro h
    have h1 : ∀ x ∈ objectTable, x.1 = objectName x.2 := by decide +kernel
    exact h1 _ (mem_of_lookup h)
  · rintro rfl
    cases o <;> decide +kernel

/-! ## Numbers -/

theorem toDigit_some {c : Char} {d : Nat} : toDigit c = some d ↔ (48 ≤ c.toNat ∧ c.toNat ≤ 57) ∧ d = c.toNat - 48 := by
  unfold toDigit
  have h0 : '0'.toNat = 48 := rfl
  have h9 : '9'.toNat = 57 := rfl
  rw [h0, h9]
  split
  · next h => simp [h, eq_comm]
  · next h => simp [h]

theorem decimal_ge (ds : Str) (acc : Nat) : acc ≤ ds.foldl (fun n c => 10 * n + (c.toNat - 48)) acc := by
  induction ds generalizing acc with
  | nil => exact Nat.le_refl _
  | cons c r ih => rw [List.foldl_cons]; exact Nat.le_trans (by omega) (ih _)

theorem digitsLoop_eq (ds : Str) (acc n : Nat) (hacc : acc < 2 ^ 64) : digitsLoop acc ds = some n ↔
    (∀ c ∈ ds, 48 ≤ c.toNat ∧ c.toNat ≤ 57) ∧ n = ds.foldl (fun n c => 10 * n + (c.toNat - 48)) acc ∧ n < 2 ^ 64 := by
  induction ds generalizing acc with
  | nil =>
    simp only [digitsLoop, Option.some.injEq, List.not_mem_nil, false_implies, implies_true, List.foldl_nil, true_and]
    constructor
    · rintro rfl; exact ⟨rfl, hacc⟩
    · rintro ⟨rfl, -⟩; rfl
  | cons c r ih =>
    unfold digitsLoop
    cases hd : toDigit c with
    | none =>
      simp only [reduceCtorEq, List.mem_cons, forall_eq_or_imp, false_iff]
      rintro ⟨⟨h1, -⟩, -⟩
      rw [toDigit_some.mpr ⟨h1, rfl⟩] at hd
      cases hd
    | some d =>
      obtain ⟨h1, rfl⟩ := toDigit_some.mp hd
      simp only [List.mem_cons, forall_eq_or_imp, List.foldl_cons, h1, and_self, true_and]
      rw [Nat.mul_comm acc 10]
      split
      · next h => exact ih _ h.2
      · next h =>
        simp only [reduceCtorEq, false_iff]
        rintro ⟨-, rfl, h3⟩
        have := decimal_ge r (10 * acc + (c.toNat - 48))
        exact h ⟨by omega, by omega⟩

theorem parseU64_eq (s : Str) (n : Nat) : parseU64 s = some n ↔ Numeral s n ∧ n < 2 ^ 64 := by
  have plus : ∀ {c : Char}, 48 ≤ c.toNat → c ≠ '+' := by rintro c h rfl; revert h; decide
  unfold Numeral decimalValue
  unfold parseU64
  split
  · simp
  · simp only [reduceCtorEq, false_iff]
    rintro ⟨⟨ds, h1 | h1, h2, h3, -⟩, -⟩
    · subst h1
      exact plus (h3 '+' (by simp)).1 rfl
    · simp at h1; exact h2 h1
  · next r hr =>
    rw [digitsLoop_eq r 0 n (by decide)]
    constructor
    · rintro ⟨h1, h2, h3⟩
      exact ⟨⟨r, .inr rfl, by rintro rfl; exact hr rfl, h1, h2⟩, h3⟩
    · rintro ⟨⟨ds, h1 | h1, h2, h3, h4⟩, h5⟩
      · subst h1
        exact absurd rfl (plus (h3 '+' (by simp)).1)
      · simp at h1; subst h1; exact ⟨h3, h4, h5⟩
  · next h0 h1 h2 =>
    rw [digitsLoop_eq s 0 n (by decide)]
    constructor
    · rintro ⟨h3, h4, h5⟩
      exact ⟨⟨s, .inl rfl, fun h => h0 h, h3, h4⟩, h5⟩
    · rintro ⟨⟨ds, h3 | h3, h4, h5, h6⟩, h7⟩
      · subst h3; exact ⟨h5, h6, h7⟩
      · exact absurd h3 (h2 _)

/-! ## One item -/

theorem parseValue_acceptable (k : Valued) (s : Str) : (∃ v, parseValue k s = some v) ↔ Acceptable k s := by
  cases k <;> simp only [parseValue, Acceptable, Option.map_eq_some_iff, objectTable_lookup, parseU64_eq] <;>
    first
      | exact ⟨fun ⟨_, a, h, _⟩ => ⟨a, h⟩, fun ⟨a, h⟩ => ⟨_, a, h, rfl⟩⟩
      | exact ⟨fun _ => trivial, fun _ => ⟨_, rfl⟩⟩

/-- What an item adds. -/
def after (m : Matches) : Item → Matches
  | .switch s => { m with found := m.found ++ [(.switch s, .flag)] }
  | .valued k s => { m with found := m.found ++ [(.valued k, (parseValue k s).getD .flag)] }
  | .target s => { m with target := some s }

/-- An item is allowed at this point. -/
def Fits (m : Matches) : Item → Prop
  | .switch s => s ≠ .help ∧ s ≠ .version ∧ .switch s ∉ m.found.map Prod.fst
  | .valued k s => Acceptable k s ∧ (k = .features ∨ .valued k ∉ m.found.map Prod.fst)
  | .target _ => m.target = none

theorem react_switch {m m' : Matches} {s : Switch} : react m (.switch s) .flag = .ok m' ↔
    Fits m (.switch s) ∧ m' = after m (.switch s) := by
  unfold react Fits after
  split
  · next h =>
    simp only [Key.switch.injEq] at h
    simp only [reduceCtorEq, false_iff]
    rintro ⟨⟨h1, h2, -⟩, -⟩
    exact h.elim h1 h2
  · next h =>
    simp only [Key.switch.injEq, not_or] at h
    split
    · next h2 =>
      simp only [reduceCtorEq, false_iff]
      rintro ⟨⟨-, -, h3⟩, -⟩
      exact h3 h2.2
    · next h2 =>
      have h3 : Key.switch s ∉ m.found.map Prod.fst := fun hh => h2 ⟨by simp, hh⟩
      rw [Out.ok.injEq, eq_comm]
      exact ⟨fun e => ⟨⟨h.1, h.2, h3⟩, e⟩, fun e => e.2⟩

theorem reactValue_ok {m m' : Matches} {k : Valued} {s : Str} : reactValue m k s = .ok m' ↔
    Fits m (.valued k s) ∧ m' = after m (.valued k s) := by
  unfold reactValue
  cases hv : parseValue k s with
  | none =>
    simp only [reduceCtorEq, false_iff]
    rintro ⟨⟨h1, -⟩, -⟩
    obtain ⟨v, h⟩ := (parseValue_acceptable k s).mpr h1
    rw [hv] at h; cases h
  | some v =>
    have ha := (parseValue_acceptable k s).mp ⟨v, hv⟩
    simp only [react, reduceCtorEq, or_self, if_false, Fits, after, hv, Option.getD_some]
    split
    · next h2 =>
      simp only [reduceCtorEq, false_iff]
      rintro ⟨⟨-, h3⟩, -⟩
      exact h3.elim (fun e => h2.1 (by rw [e])) (fun e => e h2.2)
    · next h2 =>
      have h3 : k = .features ∨ Key.valued k ∉ m.found.map Prod.fst := by
        by_cases hk : k = .features
        · exact .inl hk
        · exact .inr fun hh => h2 ⟨by simpa using hk, hh⟩
      rw [Out.ok.injEq, eq_comm]
      exact ⟨fun e => ⟨⟨ha, h3⟩, e⟩, fun e => e.2⟩

theorem parseLoop_nil (w : Option Valued) (m : Matches) :
    parseLoop w m [] = if w.isSome then .exit 2 else .ok m := rfl

theorem parseLoop_dashes (w : Option Valued) (m : Matches) (r : List Str) :
    parseLoop w m (c%"--" :: r) = if w.isSome then .exit 2 else .ok { m with args := r } := rfl

theorem parseLoop_long {w : Option Valued} {m : Matches} {a n : Str} {v : Option Str} {r : List Str} (ha : a ≠ c%"--")
    (hl : toLong a = some (n, v)) :
    parseLoop w m (a :: r) = match w with
      | some _ => .exit 2
      | none => parseLong m n v >>= fun x => parseLoop x.2 x.1 r := by
  rw [parseLoop.eq_def]
  simp only [if_neg ha, hl]
  cases w <;> rfl

theorem parseLoop_short {w : Option Valued} {m : Matches} {a cs : Str} {r : List Str} (ha : a ≠ c%"--")
    (hl : toLong a = none) (hs : toShort a = some cs) :
    parseLoop w m (a :: r) = match w with
      | some _ => .exit 2
      | none => parseShorts m cs >>= fun x => parseLoop x.2 x.1 r := by
  rw [parseLoop.eq_def]
  simp only [if_neg ha, hl, hs]
  cases w <;> rfl

theorem parseLoop_word {w : Option Valued} {m : Matches} {a : Str} {r : List Str} (ha : a ≠ c%"--")
    (hl : toLong a = none) (hs : toShort a = none) :
    parseLoop w m (a :: r) = match w with
      | some k => reactValue m k a >>= fun m' => parseLoop none m' r
      | none => if m.target.isSome then .exit 2 else parseLoop none { m with target := some a } r := by
  rw [parseLoop.eq_def]
  simp only [if_neg ha, hl, hs]
  cases w <;> rfl

/-- Waiting for a value. -/
theorem parseLoop_await {k : Valued} {m m' : Matches} {l : List Str} : parseLoop (some k) m l = .ok m' ↔
    ∃ v r, l = v :: r ∧ Positional v ∧ v ≠ c%"--" ∧ Fits m (.valued k v) ∧ parseLoop none (after m (.valued k v)) r = .ok m' := by
  cases l with
  | nil => simp [parseLoop_nil]
  | cons a r =>
    by_cases ha : a = c%"--"
    · subst ha
      rw [parseLoop_dashes]
      simp only [Option.isSome_some, if_true, reduceCtorEq, false_iff]
      rintro ⟨v, r', h1, -, h3, -⟩
      cases h1
      exact h3 rfl
    · cases hl : toLong a with
      | some x =>
        obtain ⟨n, v⟩ := x
        rw [parseLoop_long ha hl]
        simp only [reduceCtorEq, false_iff]
        rintro ⟨v, r', h1, h2, h3, -⟩
        cases h1
        rw [positional_iff ha, hl] at h2
        cases h2.1
      | none =>
        cases hs : toShort a with
        | some x =>
          rw [parseLoop_short ha hl hs]
          simp only [reduceCtorEq, false_iff]
          rintro ⟨v, r', h1, h2, h3, -⟩
          cases h1
          rw [positional_iff ha, hs] at h2
          cases h2.2
        | none =>
          rw [parseLoop_word ha hl hs]
          simp only []
          constructor
          · intro h
            cases hr : reactValue m k a with
            | ok m1 =>
              rw [hr, Out.ok_bind] at h
              obtain ⟨h1, rfl⟩ := reactValue_ok.mp hr
              exact ⟨a, r, rfl, (positional_iff ha).mpr ⟨hl, hs⟩, ha, h1, h⟩
            | _ => rw [hr] at h; cases h
          · rintro ⟨v, r', h1, -, -, h4, h5⟩
            cases h1
            rw [reactValue_ok.mpr ⟨h4, rfl⟩, Out.ok_bind]
            exact h5

theorem positional_ne {v : Str} (h : Positional v) : v ≠ c%"--" := by
  rintro rfl
  rcases h with h | h
  · cases h
  · exact h _ rfl

/-- The next item is read. -/
theorem parseLoop_item {m m' : Matches} {i : Item} {a r : List Str} (ha : Spelling i a) :
    parseLoop none m (a ++ r) = .ok m' ↔ Fits m i ∧ parseLoop none (after m i) r = .ok m' := by
  -- a long option
  have long : ∀ (w n : Str) (v : Option Str) (r : List Str), w ≠ c%"--" → toLong w = some (n, v) →
      parseLoop none m (w :: r) = (parseLong m n v >>= fun x => parseLoop x.2 x.1 r) := by
    intro w n v r hw hl
    exact parseLoop_long hw hl
  have short : ∀ (w cs : Str) (r : List Str), w ≠ c%"--" → toLong w = none → toShort w = some cs →
      parseLoop none m (w :: r) = (parseShorts m cs >>= fun x => parseLoop x.2 x.1 r) := by
    intro w n r hw hl hs
    exact parseLoop_short hw hl hs
  have app : ∀ n : Str, n ≠ [] → c%"--" ++ n ≠ c%"--" := by
    intro n hn h
    exact hn (by simpa using h)
  have val : ∀ (k : Valued) (v : Str), (reactValue m k v >>= fun m' => (.ok (m', none) : Out (Matches × Option Valued))) >>=
      (fun x => parseLoop x.2 x.1 r) = .ok m' ↔ Fits m (.valued k v) ∧ parseLoop none (after m (.valued k v)) r = .ok m' := by
    intro k v
    constructor
    · intro h
      cases hr : reactValue m k v with
      | ok m1 =>
        rw [hr, Out.ok_bind, Out.ok_bind] at h
        obtain ⟨h1, rfl⟩ := reactValue_ok.mp hr
        exact ⟨h1, h⟩
      | _ => rw [hr] at h; cases h
    · rintro ⟨h1, h2⟩
      rw [reactValue_ok.mpr ⟨h1, rfl⟩]
      exact h2
  have nxt : ∀ (k : Valued) (v : Str), Positional v → (parseLoop (some k) m (v :: r) = .ok m' ↔
      Fits m (.valued k v) ∧ parseLoop none (after m (.valued k v)) r = .ok m') := by
    intro k v hv
    rw [parseLoop_await]
    constructor
    · rintro ⟨v', r', h1, -, -, h4⟩; cases h1; exact h4
    · intro h; exact ⟨v, r, rfl, hv, positional_ne hv, h⟩
  cases ha with
  | @switch s n hn =>
    have hc := name_clean (.switch s) n hn
    have hl : toLong (c%"--" ++ n) = some (n, none) := toLong_none.mpr ⟨rfl, hc.1, hc.2⟩
    have hk : longTable.lookup n = some (.switch s) := longTable_lookup.mpr hn
    rw [List.cons_append, List.nil_append, long _ _ _ _ (app n hc.1) hl]
    simp only [parseLong, hk]
    constructor
    · intro h
      cases hr : react m (.switch s) .flag with
      | ok m1 =>
        rw [hr, Out.ok_bind, Out.ok_bind] at h
        obtain ⟨h1, rfl⟩ := react_switch.mp hr
        exact ⟨h1, h⟩
      | _ => rw [hr] at h; cases h
    · rintro ⟨h1, h2⟩
      rw [react_switch.mpr ⟨h1, rfl⟩]
      exact h2
  | equals k v =>
    have hc := name_clean (.valued k) (valuedName k) (by simp [keyNames])
    have hl : toLong (c%"--" ++ valuedName k ++ '=' :: v) = some (valuedName k, some v) := toLong_some.mpr ⟨rfl, hc.2⟩
    have hk : longTable.lookup (valuedName k) = some (.valued k) := longTable_lookup.mpr (by simp [keyNames])
    rw [List.cons_append, List.nil_append, long _ _ _ _ (by simp) hl]
    simp only [parseLong, hk]
    exact val k v
  | @next k v hv =>
    have hc := name_clean (.valued k) (valuedName k) (by simp [keyNames])
    have hl : toLong (c%"--" ++ valuedName k) = some (valuedName k, none) := toLong_none.mpr ⟨rfl, hc.1, hc.2⟩
    have hk : longTable.lookup (valuedName k) = some (.valued k) := longTable_lookup.mpr (by simp [keyNames])
    show parseLoop none m ((c%"--" ++ valuedName k) :: v :: r) = _ ↔ _
    rw [long _ _ _ _ (app _ hc.1) hl]
    simp only [parseLong, hk, Out.ok_bind]
    exact nxt k v hv
  | @shortNext v hv =>
    rw [List.cons_append, List.cons_append, List.nil_append, short _ c%"p" _ (by decide) (by decide +kernel) (by decide +kernel)]
    have : parseShorts m c%"p" = .ok (m, some .package) := by
      rw [parseShorts]; rfl
    rw [this, Out.ok_bind]
    exact nxt .package v hv
  | shortEquals v =>
    have h0 : toLong (c%"-p=" ++ v) = none := by simp [toLong, stripPrefix, List.isPrefixOf]
    have h1 : toShort (c%"-p=" ++ v) = some (c%"p=" ++ v) := toShort_some.mpr ⟨rfl, by simp, by simp⟩
    rw [List.cons_append, List.nil_append, short _ _ _ (by simp) h0 h1]
    have : parseShorts m (c%"p=" ++ v) = (reactValue m .package v >>= fun m' => (.ok (m', none) : Out (Matches × Option Valued))) := by
      rw [List.cons_append, parseShorts]; rfl
    rw [this]
    exact val .package v
  | @shortGlued v hv1 hv2 =>
    have h0 : toLong (c%"-p" ++ v) = none := by simp [toLong, stripPrefix, List.isPrefixOf]
    have h1 : toShort (c%"-p" ++ v) = some (c%"p" ++ v) := toShort_some.mpr ⟨rfl, by simp, by simp⟩
    rw [List.cons_append, List.nil_append, short _ _ _ (by simp) h0 h1]
    have hat : attached v = some v := by
      unfold attached
      split
      · exact absurd rfl hv1
      · exact absurd rfl (hv2 _)
      · rfl
    have : parseShorts m (c%"p" ++ v) = (reactValue m .package v >>= fun m' => (.ok (m', none) : Out (Matches × Option Valued))) := by
      rw [List.cons_append, parseShorts]
      simp only [shortTable, List.lookup, beq_self_eq_true, List.nil_append, hat]
    rw [this]
    exact val .package v
  | @target s hs =>
    obtain ⟨h1, h2⟩ := (positional_iff (positional_ne hs)).mp hs
    rw [List.cons_append, List.nil_append, parseLoop_word (positional_ne hs) h1 h2]
    simp only [Fits, after]
    cases m.target <;> simp

/-- Unless it is at its end, an accepted command line begins with an item. -/
theorem parseLoop_spelling {m m' : Matches} {w : Str} {r : List Str} (h : parseLoop none m (w :: r) = .ok m')
    (hw : w ≠ c%"--") : ∃ i a r', w :: r = a ++ r' ∧ Spelling i a ∧ a ≠ [] := by
  cases hl : toLong w with
  | some x =>
    obtain ⟨n, v⟩ := x
    rw [parseLoop_long hw hl] at h
    simp only [parseLong] at h
    cases hk : longTable.lookup n with
    | none => rw [hk] at h; cases h
    | some k =>
      rw [hk] at h
      have hn := longTable_lookup.mp hk
      cases k with
      | switch s =>
        cases v with
        | some v => cases h
        | none =>
          obtain ⟨rfl, -⟩ := toLong_none.mp hl
          exact ⟨_, _, r, rfl, .switch hn, by simp⟩
      | valued k =>
        have hn' : n = valuedName k := by simpa [keyNames] using hn
        subst hn'
        cases v with
        | some v =>
          obtain ⟨rfl, -⟩ := toLong_some.mp hl
          exact ⟨_, _, r, rfl, .equals k v, by simp⟩
        | none =>
          obtain ⟨rfl, -⟩ := toLong_none.mp hl
          simp only [Out.ok_bind] at h
          obtain ⟨v, r', rfl, hv, -⟩ := parseLoop_await.mp h
          exact ⟨_, _, r', rfl, .next k hv, by simp⟩
  | none =>
    cases hs : toShort w with
    | none => exact ⟨_, [w], r, rfl, .target ((positional_iff hw).mpr ⟨hl, hs⟩), by simp⟩
    | some cs =>
      rw [parseLoop_short hw hl hs] at h
      obtain ⟨rfl, hne, hd⟩ := toShort_some.mp hs
      simp only [] at h
      cases cs with
      | nil => exact absurd rfl hne
      | cons c cs =>
        rw [parseShorts] at h
        cases hk : shortTable.lookup c with
        | none => rw [hk] at h; cases h
        | some k =>
          rw [hk] at h
          have hmem := mem_of_lookup hk
          simp only [shortTable, List.mem_cons, Prod.mk.injEq, List.not_mem_nil, or_false] at hmem
          rcases hmem with ⟨rfl, rfl⟩ | ⟨rfl, rfl⟩ | ⟨rfl, rfl⟩
          · simp only [] at h
            cases cs with
            | nil =>
              simp only [attached, Out.ok_bind] at h
              obtain ⟨v, r', rfl, hv, -⟩ := parseLoop_await.mp h
              exact ⟨_, _, r', rfl, .shortNext hv, by simp⟩
            | cons d cs =>
              by_cases hd : d = '='
              · subst hd
                exact ⟨_, _, r, rfl, .shortEquals cs, by simp⟩
              · exact ⟨_, _, r, rfl, .shortGlued (v := d :: cs) (by simp) (by simpa using hd), by simp⟩
          · simp [react] at h
          · simp [react] at h

/-- A list of items that is allowed. -/
def AllFit (m : Matches) : List Item → Prop
  | [] => True
  | i :: is => Fits m i ∧ AllFit (after m i) is

theorem parseLoop_iff (m m' : Matches) (hm : m.args = []) (l : List Str) : parseLoop none m l = .ok m' ↔
    ∃ is z, CommandLine is z l ∧ AllFit m is ∧ m' = { is.foldl after m with args := z } := by
  have hargs : ∀ (m : Matches) i, (after m i).args = m.args := by intro m i; cases i <;> rfl
  constructor
  · intro h
    generalize hn : l.length = n
    induction n using Nat.strongRecOn generalizing l m with
    | ind n ih =>
      cases l with
      | nil =>
        simp only [parseLoop_nil, Option.isSome_none, Bool.false_eq_true, if_false, Out.ok.injEq] at h
        refine ⟨[], [], .nil, trivial, ?_⟩
        rw [← h, List.foldl_nil, ← hm]
      | cons w r =>
        by_cases hw : w = c%"--"
        · subst hw
          simp only [parseLoop_dashes, Option.isSome_none, Bool.false_eq_true, if_false, Out.ok.injEq] at h
          exact ⟨[], r, .rest r, trivial, by rw [← h]; rfl⟩
        · obtain ⟨i, a, r', he, hi, ha⟩ := parseLoop_spelling h hw
          rw [he] at h
          obtain ⟨h1, h2⟩ := (parseLoop_item hi).mp h
          have hlt : r'.length < n := by
            rw [← hn, he, List.length_append]
            have := List.length_pos_of_ne_nil ha
            omega
          obtain ⟨is, z, g1, g2, g3⟩ := ih r'.length hlt (after m i) (by rw [hargs, hm]) r' h2 rfl
          exact ⟨i :: is, z, by rw [he]; exact .cons hi g1, ⟨h1, g2⟩, g3⟩
  · rintro ⟨is, z, h1, h2, rfl⟩
    induction h1 generalizing m with
    | nil =>
      show Out.ok m = Out.ok { m with args := [] }
      rw [← hm]
    | rest z => simp [parseLoop_dashes]
    | cons hi _ ih => exact (parseLoop_item hi).mpr ⟨h2.1, ih _ (by rw [hargs, hm]) h2.2⟩

/-! ## Admissible command lines -/

def countValued (k : Valued) (is : List Item) : Nat :=
  (is.filter (Item.gives k)).length

def countTarget (is : List Item) : Nat := (is.filter Item.isTarget).length

def hasKey (m : Matches) (k : Key) : Nat := if k ∈ m.found.map Prod.fst then 1 else 0

theorem hasKey_switch (m : Matches) (s : Switch) (k : Key) :
    hasKey (after m (.switch s)) k = if k = .switch s then 1 else hasKey m k := by
  unfold hasKey after
  simp only [List.map_append, List.map_cons, List.map_nil, List.mem_append, List.mem_singleton]
  by_cases h : k = .switch s
  · simp [h]
  · simp only [h, or_false, if_false]

theorem hasKey_valued (m : Matches) (k0 : Valued) (v : Str) (k : Key) :
    hasKey (after m (.valued k0 v)) k = if k = .valued k0 then 1 else hasKey m k := by
  unfold hasKey after
  simp only [List.map_append, List.map_cons, List.map_nil, List.mem_append, List.mem_singleton]
  by_cases h : k = .valued k0
  · simp [h]
  · simp only [h, or_false, if_false]

theorem hasKey_le (m : Matches) (k : Key) : hasKey m k ≤ 1 := by unfold hasKey; split <;> omega

theorem hasKey_zero {m : Matches} {k : Key} : hasKey m k = 0 ↔ k ∉ m.found.map Prod.fst := by
  unfold hasKey; split <;> simp_all

theorem allFit_iff (m : Matches) (is : List Item) : AllFit m is ↔
    (.switch .help ∉ is ∧ .switch .version ∉ is ∧ ∀ k v, .valued k v ∈ is → Acceptable k v) ∧
    (∀ s, is.count (.switch s) + hasKey m (.switch s) ≤ 1) ∧
    (∀ k, k ≠ .features → countValued k is + hasKey m (.valued k) ≤ 1) ∧
    (countTarget is + if m.target.isSome then 1 else 0) ≤ 1 := by
  induction is generalizing m with
  | nil =>
    simp only [AllFit, List.not_mem_nil, not_false_eq_true, false_implies, implies_true, List.count_nil, countValued,
      countTarget, List.filter_nil, List.length_nil, true_and, true_iff, Nat.zero_add]
    exact ⟨fun s => hasKey_le _ _, fun k _ => hasKey_le _ _, by split <;> omega⟩
  | cons i is ih =>
    rw [AllFit, ih]
    cases i with
    | switch s0 =>
      have e1 : ∀ k, countValued k (.switch s0 :: is) = countValued k is := fun k => by simp [countValued, Item.gives]
      have e2 : countTarget (.switch s0 :: is) = countTarget is := by simp [countTarget, Item.isTarget]
      have e3 : (after m (.switch s0)).target = m.target := rfl
      simp only [Fits, hasKey_switch, e1, e2, e3, List.mem_cons, not_or, reduceCtorEq, false_or, Item.switch.injEq,
        if_false, ← hasKey_zero, Key.switch.injEq]
      constructor
      · rintro ⟨⟨f1, f2, f3⟩, ⟨a1, a2, a3⟩, b, c, d⟩
        refine ⟨⟨⟨fun e => f1 e.symm, a1⟩, ⟨fun e => f2 e.symm, a2⟩, a3⟩, fun s => ?_, c, d⟩
        have := b s
        by_cases hs : s = s0
        · subst hs; simp only [List.count_cons_self, if_true] at *; omega
        · rw [if_neg hs] at this
          rw [List.count_cons_of_ne (by simpa using fun e => hs e.symm)]; exact this
      · rintro ⟨⟨⟨a0, a1⟩, ⟨a0', a2⟩, a3⟩, b, c, d⟩
        have h0 := b s0
        simp only [List.count_cons_self] at h0
        refine ⟨⟨fun e => a0 e.symm, fun e => a0' e.symm, by omega⟩, ⟨a1, a2, a3⟩, fun s => ?_, c, d⟩
        by_cases hs : s = s0
        · subst hs; simp only [if_true]; omega
        · have := b s
          rw [List.count_cons_of_ne (by simpa using fun e => hs e.symm)] at this
          rw [if_neg hs]; exact this
    | valued k0 v0 =>
      have e1 : ∀ s, (Item.valued k0 v0 :: is).count (.switch s) = is.count (.switch s) := fun s => by
        rw [List.count_cons_of_ne (by simp)]
      have e2 : countTarget (.valued k0 v0 :: is) = countTarget is := by simp [countTarget, Item.isTarget]
      have e3 : (after m (.valued k0 v0)).target = m.target := rfl
      have e4 : ∀ k, countValued k (.valued k0 v0 :: is) = countValued k is + if k = k0 then 1 else 0 := by
        intro k; unfold countValued
        by_cases hk : k = k0 <;> simp [hk, Item.gives]
      simp only [Fits, hasKey_valued, e1, e2, e3, e4, List.mem_cons, not_or, reduceCtorEq, false_or, not_false_eq_true,
        true_and, Item.valued.injEq, if_false, ← hasKey_zero, Key.valued.injEq]
      constructor
      · rintro ⟨⟨f1, f2⟩, ⟨a1, a2, a3⟩, b, c, d⟩
        refine ⟨⟨a1, a2, ?_⟩, b, fun k hk => ?_, d⟩
        · rintro k v (⟨rfl, rfl⟩ | h)
          · exact f1
          · exact a3 k v h
        · have := c k hk
          by_cases hs : k = k0
          · subst hs
            have := f2.resolve_left hk
            simp only [if_true] at *; omega
          · simp only [if_neg hs] at *; omega
      · rintro ⟨⟨a1, a2, a3⟩, b, c, d⟩
        refine ⟨⟨a3 _ _ (.inl ⟨rfl, rfl⟩), ?_⟩, ⟨a1, a2, fun k v h => a3 k v (.inr h)⟩, b, fun k hk => ?_, d⟩
        · by_cases hk : k0 = .features
          · exact .inl hk
          · have := c k0 hk
            simp only [if_true] at this
            exact .inr (by omega)
        · have := c k hk
          by_cases hs : k = k0
          · subst hs
            simp only [if_true] at *; omega
          · simp only [if_neg hs] at *; omega
    | target s0 =>
      have e1 : ∀ s, (Item.target s0 :: is).count (.switch s) = is.count (.switch s) := fun s => by
        rw [List.count_cons_of_ne (by simp)]
      have e2 : countTarget (.target s0 :: is) = countTarget is + 1 := by simp [countTarget, List.filter_cons, Item.isTarget]
      have e4 : ∀ k, countValued k (.target s0 :: is) = countValued k is := by
        intro k; simp [countValued, Item.gives]
      have e5 : ∀ k, hasKey (after m (.target s0)) k = hasKey m k := fun _ => rfl
      simp only [Fits, e1, e2, e4, e5, List.mem_cons, not_or, reduceCtorEq, false_or, not_false_eq_true, true_and]
      have e6 : (after m (.target s0)).target.isSome = true := rfl
      simp only [e6, if_true]
      constructor
      · rintro ⟨f, a, b, c, d⟩
        exact ⟨a, b, c, by rw [f]; simp; omega⟩
      · rintro ⟨a, b, c, d⟩
        cases ht : m.target with
        | none => exact ⟨rfl, a, b, c, by omega⟩
        | some x => rw [ht] at d; simp at d

theorem admissible_iff (is : List Item) : AllFit {} is ↔ Admissible is := by
  rw [allFit_iff]
  have h0 : ∀ k, hasKey {} k = 0 := fun k => by simp [hasKey]
  simp only [h0, Nat.add_zero, Option.isSome_none, Bool.false_eq_true, if_false]
  constructor
  · rintro ⟨⟨a, b, c⟩, d, e, f⟩
    exact ⟨a, b, d, e, f, c⟩
  · rintro ⟨a, b, d, e, f, c⟩
    exact ⟨⟨a, b, c⟩, d, e, f⟩

/-! ## Meaning -/

def entry : Item → Option (Key × Val)
  | .switch s => some (.switch s, .flag)
  | .valued k v => some (.valued k, (parseValue k v).getD .flag)
  | .target _ => none

theorem found_foldl (m : Matches) (is : List Item) : (is.foldl after m).found = m.found ++ is.filterMap entry := by
  induction is generalizing m with
  | nil => simp
  | cons i is ih => rw [List.foldl_cons, ih]; cases i <;> simp [after, entry, List.filterMap_cons]

theorem target_foldl (m : Matches) (is : List Item) :
    match (is.foldl after m).target with
    | none => m.target = none ∧ ∀ s, .target s ∉ is
    | some s => .target s ∈ is ∨ m.target = some s := by
  induction is generalizing m with
  | nil => cases h : m.target <;> simp [h]
  | cons i is ih =>
    rw [List.foldl_cons]
    have := ih (after m i)
    split at this
    · cases i <;> simp_all [after]
    · rcases this with h | h
      · exact .inl (List.mem_cons_of_mem _ h)
      · cases i with
        | target x =>
          simp only [after, Option.some.injEq] at h
          rw [h]; exact .inl List.mem_cons_self
        | _ => exact .inr h

theorem flag_iff (is : List Item) (z : List Str) (s : Switch) :
    Matches.flag { is.foldl after {} with args := z } s = true ↔ .switch s ∈ is := by
  unfold Matches.flag
  rw [List.lookup_isSome_iff]
  simp only [found_foldl, List.nil_append, List.mem_filterMap, beq_iff_eq]
  constructor
  · rintro ⟨⟨k, v⟩, ⟨i, hi, he⟩, hk⟩
    cases i with
    | switch s' =>
      simp only [entry, Option.some.injEq, Prod.mk.injEq] at he
      have : s' = s := by
        have h1 := he.1.trans hk.symm
        simpa using h1
      rw [← this]; exact hi
    | valued k' v' =>
      simp only [entry, Option.some.injEq, Prod.mk.injEq] at he
      have h1 := he.1.trans hk.symm
      cases h1
    | target x => cases he
  · intro h
    exact ⟨_, ⟨_, h, rfl⟩, rfl⟩

/-- The value recorded for an option. -/
theorem lookup_valued (is : List Item) (h : ∀ k v, .valued k v ∈ is → Acceptable k v) (k : Valued) :
    ((is.filterMap entry).lookup (.valued k) = none ∧ ∀ v, .valued k v ∉ is) ∨
    ∃ w v, (is.filterMap entry).lookup (.valued k) = some w ∧ .valued k v ∈ is ∧ parseValue k v = some w := by
  cases hl : (is.filterMap entry).lookup (.valued k) with
  | none =>
    refine .inl ⟨rfl, fun v hv => ?_⟩
    rw [List.lookup_eq_none_iff] at hl
    have := hl (.valued k, (parseValue k v).getD .flag) (List.mem_filterMap.mpr ⟨_, hv, rfl⟩)
    simp at this
  | some w =>
    right
    obtain ⟨i, hi, he⟩ := List.mem_filterMap.mp (mem_of_lookup hl)
    cases i with
    | switch s => simp [entry] at he
    | target x => cases he
    | valued k' v =>
      simp only [entry, Option.some.injEq, Prod.mk.injEq, Key.valued.injEq] at he
      obtain ⟨rfl, he⟩ := he
      obtain ⟨u, hu⟩ := (parseValue_acceptable k' v).mpr (h _ _ hi)
      rw [hu, Option.getD_some] at he
      subst he
      exact ⟨u, v, rfl, hi, hu⟩

theorem says_object (is : List Item) (z : List Str) (h : ∀ k v, .valued k v ∈ is → Acceptable k v) (k : Valued)
    (hk : k = .coverage ∨ k = .display ∨ k = .replay) :
    Says is k (fun s x => s = objectName x) (Matches.object { is.foldl after {} with args := z } k) := by
  have hp : ∀ v, parseValue k v = (objectTable.lookup v).map .object := by rcases hk with rfl | rfl | rfl <;> intro v <;> rfl
  unfold Matches.object
  simp only [found_foldl, List.nil_append]
  rcases lookup_valued is h k with ⟨h1, h2⟩ | ⟨w, v, h1, h2, h3⟩
  · rw [h1]; exact h2
  · rw [hp, Option.map_eq_some_iff] at h3
    obtain ⟨o, h3, rfl⟩ := h3
    rw [h1]
    exact ⟨v, h2, objectTable_lookup.mp h3⟩

theorem says_num (is : List Item) (z : List Str) (h : ∀ k v, .valued k v ∈ is → Acceptable k v) (k : Valued)
    (hk : k = .cpus ∨ k = .maxTotalTime ∨ k = .slice ∨ k = .timeout) :
    Says is k Numeral (Matches.num { is.foldl after {} with args := z } k) := by
  have hp : ∀ v, parseValue k v = (parseU64 v).map .num := by rcases hk with rfl | rfl | rfl | rfl <;> intro v <;> rfl
  unfold Matches.num
  simp only [found_foldl, List.nil_append]
  rcases lookup_valued is h k with ⟨h1, h2⟩ | ⟨w, v, h1, h2, h3⟩
  · rw [h1]; exact h2
  · rw [hp, Option.map_eq_some_iff] at h3
    obtain ⟨o, h3, rfl⟩ := h3
    rw [h1]
    exact ⟨v, h2, ((parseU64_eq _ _).mp h3).1⟩

theorem says_text (is : List Item) (z : List Str) (h : ∀ k v, .valued k v ∈ is → Acceptable k v) (k : Valued)
    (hk : k = .manifestPath ∨ k = .package ∨ k = .test) :
    Says is k Eq (Matches.text { is.foldl after {} with args := z } k) := by
  have hp : ∀ v, parseValue k v = some (.text v) := by rcases hk with rfl | rfl | rfl <;> intro v <;> rfl
  unfold Matches.text
  simp only [found_foldl, List.nil_append]
  rcases lookup_valued is h k with ⟨h1, h2⟩ | ⟨w, v, h1, h2, h3⟩
  · rw [h1]; exact h2
  · rw [hp] at h3
    cases h3
    rw [h1]
    exact ⟨v, h2, rfl⟩

theorem texts_eq (is : List Item) (z : List Str) : Matches.texts { is.foldl after {} with args := z } .features =
    is.filterMap Item.feature := by
  unfold Matches.texts
  simp only [found_foldl, List.nil_append]
  rw [List.filterMap_filterMap]
  congr 1
  funext i
  cases i with
  | switch s => rfl
  | target s => rfl
  | valued k v =>
    cases k <;> simp only [entry, Option.bind_some, parseValue] <;>
      first
        | rfl
        | (cases objectTable.lookup v <;> rfl)
        | (cases parseU64 v <;> rfl)

theorem means_fromMatches (is : List Item) (z : List Str) (h : Admissible is) :
    Means is z (fromMatches { is.foldl after {} with args := z }).1 := by
  have ha := h.acceptable
  have ht := target_foldl {} is
  constructor <;> simp only [fromMatches] <;> (try exact flag_iff is z _)
  · exact says_object is z ha _ (by simp)
  · exact says_num is z ha _ (by simp)
  · exact says_object is z ha _ (by simp)
  · exact texts_eq is z
  · exact says_text is z ha _ (by simp)
  · exact says_num is z ha _ (by simp)
  · exact says_text is z ha _ (by simp)
  · exact says_object is z ha _ (by simp)
  · refine ⟨_, says_num is z ha _ (by simp), ?_⟩
    cases Matches.num { is.foldl after {} with args := z } .slice <;> rfl
  · exact says_text is z ha _ (by simp)
  · exact says_num is z ha _ (by simp)
  · split at ht
    · next he => simp only [he]; exact ht.2
    · next he => simp only [he]; exact ht.resolve_right (by simp)

theorem numeral_unique {s : Str} {n n' : Nat} (h : Numeral s n) (h' : Numeral s n') : n = n' := by
  have plus : ∀ {c : Char}, 48 ≤ c.toNat → c ≠ '+' := by rintro c h rfl; revert h; decide
  obtain ⟨ds, h1, -, h3, rfl⟩ := h
  obtain ⟨es, h1', -, h3', rfl⟩ := h'
  rcases h1 with rfl | rfl <;> rcases h1' with rfl | h
  · rfl
  · subst h; exact absurd rfl (plus (h3 '+' (by simp)).1)
  · exact absurd rfl (plus (h3' '+' (by simp)).1)
  · simp at h; rw [h]

theorem objectName_inj {a b : Object} (h : objectName a = objectName b) : a = b := by
  have := objectTable_lookup.mpr h
  rw [objectTable_lookup.mpr rfl] at this
  exact Option.some.inj this

theorem unique_of_filter {α : Type} {l : List α} {f : α → Bool} (h : (l.filter f).length ≤ 1) {a b : α} (ha : a ∈ l)
    (hb : b ∈ l) (fa : f a = true) (fb : f b = true) : a = b := by
  have ha' : a ∈ l.filter f := List.mem_filter.mpr ⟨ha, fa⟩
  have hb' : b ∈ l.filter f := List.mem_filter.mpr ⟨hb, fb⟩
  match hl : l.filter f with
  | [] => rw [hl] at ha'; cases ha'
  | [x] => rw [hl] at ha' hb'; simp at ha' hb'; rw [ha', hb']
  | x :: y :: r => rw [hl] at h; simp at h

theorem says_unique {α : Type} {is : List Item} (h : Admissible is) {k : Valued} (hk : k ≠ .features) {R : Str → α → Prop}
    (hR : ∀ s a b, R s a → R s b → a = b) {x y : Option α} (hx : Says is k R x) (hy : Says is k R y) : x = y := by
  cases x with
  | none =>
    cases y with
    | none => rfl
    | some b => obtain ⟨v, h1, -⟩ := hy; exact absurd h1 (hx v)
  | some a =>
    obtain ⟨v, h1, h2⟩ := hx
    cases y with
    | none => exact absurd h1 (hy v)
    | some b =>
      obtain ⟨w, h3, h4⟩ := hy
      have := unique_of_filter (h.values k hk) h1 h3 (by simp [Item.gives]) (by simp [Item.gives])
      cases this
      rw [hR _ _ _ h2 h4]

theorem means_unique {is : List Item} (h : Admissible is) {z : List Str} {o o' : Opts} (ho : Means is z o)
    (ho' : Means is z o') : o = o' := by
  have b : ∀ {x y : Bool} {p : Prop}, (x = true ↔ p) → (y = true ↔ p) → x = y := by
    intro x y p hx hy
    cases x <;> cases y <;> simp_all
  have n : ∀ {k x y}, k ≠ .features → Says is k Numeral x → Says is k Numeral y → x = y :=
    fun hk hx hy => says_unique (R := Numeral) h hk (fun _ _ _ h1 h2 => numeral_unique h1 h2) hx hy
  have t : ∀ {k} {x y : Option Str}, k ≠ .features → Says is k Eq x → Says is k Eq y → x = y :=
    fun hk hx hy => says_unique h hk (fun _ _ _ h1 h2 => h1.symm.trans h2) hx hy
  have ob : ∀ {k} {x y : Option Object}, k ≠ .features → Says is k (fun s x => s = objectName x) x →
      Says is k (fun s x => s = objectName x) y → x = y :=
    fun hk hx hy => says_unique h hk (fun _ _ _ h1 h2 => objectName_inj (h1.symm.trans h2)) hx hy
  have hs : o.slice = o'.slice := by
    obtain ⟨x, h1, h2⟩ := ho.slice
    obtain ⟨y, h3, h4⟩ := ho'.slice
    rw [h2, h4, n (by decide) h1 h3]
  have ht : o.ztarget = o'.ztarget := by
    have h1 := ho.ztarget
    have h2 := ho'.ztarget
    cases hx : o.ztarget <;> cases hy : o'.ztarget <;> rw [hx] at h1 <;> rw [hy] at h2 <;> simp only [] at h1 h2
    · exact absurd h2 (h1 _)
    · exact absurd h1 (h2 _)
    · have := unique_of_filter h.targets h1 h2 rfl rfl
      cases this; rfl
  have e1 := b ho.backtrace ho'.backtrace
  have e2 := b ho.consolidate ho'.consolidate
  have e3 := b ho.consolidateAll ho'.consolidateAll
  have e4 := ob (by decide) ho.coverage ho'.coverage
  have e5 := n (by decide) ho.cpus ho'.cpus
  have e6 := ob (by decide) ho.display ho'.display
  have e7 := b ho.exact ho'.exact
  have e8 := b ho.exitCode ho'.exitCode
  have e9 := ho.features.trans ho'.features.symm
  have e10 := b ho.list ho'.list
  have e11 := t (by decide) ho.manifestPath ho'.manifestPath
  have e12 := n (by decide) ho.maxTotalTime ho'.maxTotalTime
  have e13 := b ho.noDefaultFeatures ho'.noDefaultFeatures
  have e14 := b ho.noRun ho'.noRun
  have e15 := b ho.noUi ho'.noUi
  have e16 := t (by decide) ho.package ho'.package
  have e17 := b ho.persistent ho'.persistent
  have e18 := b ho.pretty ho'.pretty
  have e19 := b ho.release ho'.release
  have e20 := ob (by decide) ho.replay ho'.replay
  have e21 := b ho.reset ho'.reset
  have e22 := b ho.resetAll ho'.resetAll
  have e23 := b ho.resume ho'.resume
  have e24 := b ho.runUntilCrash ho'.runUntilCrash
  have e25 := t (by decide) ho.test ho'.test
  have e26 := n (by decide) ho.timeout ho'.timeout
  have e27 := b ho.verbose ho'.verbose
  have e28 := ho.zzargs.trans ho'.zzargs.symm
  cases o; cases o'
  simp only at *
  subst e1 e2 e3 e4 e5 e6 e7 e8 e9 e10 e11 e12 e13 e14 e15 e16 e17 e18 e19 e20 e21 e22 e23 e24 e25 e26 e27 e28 hs ht
  rfl

/-! ## C70 -/

/-- **C70.** `cargo test-fuzz` accepts exactly the command lines of the grammar, and acts on exactly the options they
mean: options in any order and in any of their spellings, each at most once (except `--features`), at most one target
name, everything after `--` for the fuzzer; `--slice` is 1200 if it is not given; `--no-instrumentation` means nothing, it
only causes a warning. -/
theorem C70_command_line (prog : Str) (args : List Str) (o : Opts) (warning : Bool) :
    parseFrom (prog :: c%"test-fuzz" :: args) = .ok (o, warning) ↔
    ∃ is z, CommandLine is z args ∧ Admissible is ∧ Means is z o ∧ (warning = true ↔ .switch .noInstrumentation ∈ is) := by
  have hp : parseFrom (prog :: c%"test-fuzz" :: args) = (parseLoop none {} args >>= fun m => .ok (fromMatches m)) := by
    rw [parseFrom, if_pos rfl]
  rw [hp]
  constructor
  · intro h
    cases hm : parseLoop none {} args with
    | ok m =>
      rw [hm, Out.ok_bind] at h
      obtain ⟨is, z, h1, h2, rfl⟩ := (parseLoop_iff {} m rfl args).mp hm
      have ha := (admissible_iff is).mp h2
      have hmm := means_fromMatches is z ha
      rw [Out.ok.injEq] at h
      rw [h] at hmm
      refine ⟨is, z, h1, ha, hmm, ?_⟩
      rw [← flag_iff is z .noInstrumentation]
      have : warning = (fromMatches { is.foldl after {} with args := z }).2 := by rw [h]
      rw [this]; rfl
    | _ => rw [hm] at h; cases h
  · rintro ⟨is, z, h1, h2, h3, h4⟩
    rw [(parseLoop_iff {} _ rfl args).mpr ⟨is, z, h1, (admissible_iff is).mpr h2, rfl⟩, Out.ok_bind, Out.ok.injEq]
    have e1 := means_unique h2 (means_fromMatches is z h2) h3
    have e2 : (fromMatches { is.foldl after {} with args := z }).2 = warning := by
      have := flag_iff is z .noInstrumentation
      rw [← h4] at this
      show Matches.flag { is.foldl after {} with args := z } .noInstrumentation = warning
      cases hw : warning <;> cases hf : Matches.flag { is.foldl after {} with args := z } .noInstrumentation <;> simp_all
    exact Prod.ext e1 e2

/-- An argument that asks for help or the version. -/
def AsksHelp (a : Str) : Prop :=
  a = c%"--help" ∨ a = c%"--version" ∨ c%"-h" <+: a ∨ c%"-V" <+: a

theorem react_outcome (m : Matches) (k : Key) (v : Val) :
    (∃ m', react m k v = .ok m') ∨ react m k v = .exit 2 ∨
      (react m k v = .exit 0 ∧ (k = .switch .help ∨ k = .switch .version)) := by
  unfold react
  split
  · next h => exact .inr (.inr ⟨rfl, h⟩)
  · split
    · exact .inr (.inl rfl)
    · exact .inl ⟨_, rfl⟩

theorem reactValue_outcome (m : Matches) (k : Valued) (v : Str) :
    (∃ m', reactValue m k v = .ok m') ∨ reactValue m k v = .exit 2 := by
  unfold reactValue
  split
  · exact .inr rfl
  · next w _ =>
    rcases react_outcome m (.valued k) w with h | h | ⟨-, h⟩
    · exact .inl h
    · exact .inr h
    · simp at h

theorem parseLong_outcome (m : Matches) (a n : Str) (v : Option Str) (hl : toLong a = some (n, v)) :
    (∃ x, parseLong m n v = .ok x) ∨ parseLong m n v = .exit 2 ∨ (parseLong m n v = .exit 0 ∧ AsksHelp a) := by
  unfold parseLong
  split
  · exact .inr (.inl rfl)
  · exact .inr (.inl rfl)
  · next s hk =>
    rcases react_outcome m (.switch s) .flag with ⟨m', h⟩ | h | ⟨h, hs⟩
    · rw [h]; exact .inl ⟨_, rfl⟩
    · rw [h]; exact .inr (.inl rfl)
    · rw [h]
      refine .inr (.inr ⟨rfl, ?_⟩)
      have hn := longTable_lookup.mp hk
      obtain ⟨rfl, -⟩ := toLong_none.mp hl
      rcases hs with hs | hs <;> cases hs
      · have : n = c%"help" := by simpa [keyNames, switchNames] using hn
        subst this; exact .inl rfl
      · have : n = c%"version" := by simpa [keyNames, switchNames] using hn
        subst this; exact .inr (.inl rfl)
  · exact .inl ⟨_, rfl⟩
  · next k w _ =>
    rcases reactValue_outcome m k w with ⟨m', h⟩ | h
    · rw [h]; exact .inl ⟨_, rfl⟩
    · rw [h]; exact .inr (.inl rfl)

theorem parseShorts_outcome (m : Matches) (cs : Str) :
    (∃ x, parseShorts m cs = .ok x) ∨ parseShorts m cs = .exit 2 ∨ (parseShorts m cs = .exit 0 ∧ AsksHelp ('-' :: cs)) := by
  cases cs with
  | nil => exact .inl ⟨_, rfl⟩
  | cons c r =>
    rw [parseShorts]
    cases hk : shortTable.lookup c with
    | none => exact .inr (.inl rfl)
    | some k =>
      have hmem := mem_of_lookup hk
      simp only [shortTable, List.mem_cons, Prod.mk.injEq, List.not_mem_nil, or_false] at hmem
      rcases hmem with ⟨rfl, rfl⟩ | ⟨rfl, rfl⟩ | ⟨rfl, rfl⟩
      · simp only []
        split
        · exact .inl ⟨_, rfl⟩
        · next v _ =>
          rcases reactValue_outcome m .package v with ⟨m', h⟩ | h
          · rw [h]; exact .inl ⟨_, rfl⟩
          · rw [h]; exact .inr (.inl rfl)
      · exact .inr (.inr ⟨by simp [react], .inr (.inr (.inl ⟨r, rfl⟩))⟩)
      · exact .inr (.inr ⟨by simp [react], .inr (.inr (.inr ⟨r, rfl⟩))⟩)

theorem parseLoop_outcome (w : Option Valued) (m : Matches) (l : List Str) :
    (∃ m', parseLoop w m l = .ok m') ∨ parseLoop w m l = .exit 2 ∨
      (parseLoop w m l = .exit 0 ∧ ∃ pre a post, l = pre ++ a :: post ∧ c%"--" ∉ pre ∧ AsksHelp a) := by
  induction l generalizing w m with
  | nil =>
    rw [parseLoop_nil]
    split
    · exact .inr (.inl rfl)
    · exact .inl ⟨_, rfl⟩
  | cons a r ih =>
    have more : ∀ w m, a ≠ c%"--" → (∃ m', parseLoop w m r = .ok m') ∨ parseLoop w m r = .exit 2 ∨
        (parseLoop w m r = .exit 0 ∧ ∃ pre b post, a :: r = pre ++ b :: post ∧ c%"--" ∉ pre ∧ AsksHelp b) := by
      intro w m ha
      rcases ih w m with h | h | ⟨h, pre, b, post, rfl, h2, h3⟩
      · exact .inl h
      · exact .inr (.inl h)
      · exact .inr (.inr ⟨h, a :: pre, b, post, rfl, by simp only [List.mem_cons, not_or]; exact ⟨fun e => ha e.symm, h2⟩, h3⟩)
    by_cases ha : a = c%"--"
    · subst ha
      rw [parseLoop_dashes]
      split
      · exact .inr (.inl rfl)
      · exact .inl ⟨_, rfl⟩
    · cases hl : toLong a with
      | some x =>
        obtain ⟨n, v⟩ := x
        rw [parseLoop_long ha hl]
        cases w with
        | some k => exact .inr (.inl rfl)
        | none =>
          simp only []
          rcases parseLong_outcome m a n v hl with ⟨x, h⟩ | h | ⟨h, h'⟩
          · rw [h, Out.ok_bind]; exact more _ _ ha
          · rw [h]; exact .inr (.inl rfl)
          · rw [h]; exact .inr (.inr ⟨rfl, [], a, r, rfl, by simp, h'⟩)
      | none =>
        cases hs : toShort a with
        | some cs =>
          rw [parseLoop_short ha hl hs]
          cases w with
          | some k => exact .inr (.inl rfl)
          | none =>
            simp only []
            obtain ⟨rfl, -⟩ := toShort_some.mp hs
            rcases parseShorts_outcome m cs with ⟨x, h⟩ | h | ⟨h, h'⟩
            · rw [h, Out.ok_bind]; exact more _ _ ha
            · rw [h]; exact .inr (.inl rfl)
            · rw [h]; exact .inr (.inr ⟨rfl, [], _, r, rfl, by simp, h'⟩)
        | none =>
          rw [parseLoop_word ha hl hs]
          cases w with
          | some k =>
            simp only []
            rcases reactValue_outcome m k a with ⟨m', h⟩ | h
            · rw [h, Out.ok_bind]; exact more _ _ ha
            · rw [h]; exact .inr (.inl rfl)
          | none =>
            simp only []
            split
            · exact .inr (.inl rfl)
            · exact more _ _ ha

/-- A command line that is not accepted has no effect: nothing is run, no file is touched, and the status is 2, or 0 if
one of the arguments before `--` asks for help or the version. -/
theorem C70_otherwise_nothing (prog : Str) (args : List Str) (h : ∀ x, parseFrom (prog :: c%"test-fuzz" :: args) ≠ .ok x)
    (y : Sys) (s : RSt) :
    ∃ status, cargoTestFuzz (prog :: c%"test-fuzz" :: args) y s = (.exit status, s) ∧
      (status = 2 ∨ status = 0 ∧ ∃ pre a post, args = pre ++ a :: post ∧ c%"--" ∉ pre ∧ AsksHelp a) := by
  have hp : parseFrom (prog :: c%"test-fuzz" :: args) = (parseLoop none {} args >>= fun m => .ok (fromMatches m)) := by
    rw [parseFrom, if_pos rfl]
  have hc : ∀ n, parseFrom (prog :: c%"test-fuzz" :: args) = .exit n →
      cargoTestFuzz (prog :: c%"test-fuzz" :: args) y s = (.exit n, s) := by
    intro n hn
    unfold cargoTestFuzz
    rw [hn]; rfl
  rcases parseLoop_outcome none {} args with ⟨m, hm⟩ | hm | ⟨hm, hh⟩
  · rw [hm] at hp; exact absurd hp (h _)
  · rw [hm] at hp; exact ⟨2, hc _ hp, .inl rfl⟩
  · rw [hm] at hp; exact ⟨0, hc _ hp, .inr ⟨rfl, hh⟩⟩

/-- Run other than as `cargo test-fuzz`, the command has no effect; the status is 0 just if help is asked for. -/
theorem C70_only_as_subcommand (args : List Str) (h : ∀ prog r, args ≠ prog :: c%"test-fuzz" :: r) (y : Sys) (s : RSt) :
    ∃ status, cargoTestFuzz args y s = (.exit status, s) ∧ (status = 0 ∧ AsksAbout args.tail ∨ status = 2 ∧ ¬ AsksAbout args.tail) := by
  have hc : ∀ n, parseFrom args = .exit n → cargoTestFuzz args y s = (.exit n, s) := by
    intro n hn
    unfold cargoTestFuzz
    rw [hn]; rfl
  match args, h, hc with
  | [], _, hc => exact ⟨2, hc 2 rfl, .inr ⟨rfl, fun h => nomatch h⟩⟩
  | [_], _, hc => exact ⟨2, hc 2 rfl, .inr ⟨rfl, fun h => nomatch h⟩⟩
  | p :: a :: r, h, hc =>
    have h1 : a ≠ c%"test-fuzz" := fun e => h p r (by rw [e])
    rw [parseFrom, if_neg h1] at hc
    simp only [List.tail_cons]
    by_cases h2 : a = c%"help"
    · subst h2
      rw [if_pos rfl] at hc
      by_cases h3 : r = [] ∨ r = [c%"test-fuzz"] ∨ r = [c%"help"]
      · rw [if_pos h3] at hc
        refine ⟨0, hc 0 rfl, .inl ⟨rfl, ?_⟩⟩
        rcases h3 with rfl | rfl | rfl
        · exact .help
        · exact .subcommand
        · exact .helpHelp
      · rw [if_neg h3] at hc
        refine ⟨2, hc 2 rfl, .inr ⟨rfl, fun hh => h3 ?_⟩⟩
        generalize hl : c%"help" :: r = l at hh
        cases hh with
        | flag r' => exact absurd (List.cons.inj hl).1 (by decide)
        | short s' r' => exact absurd (List.cons.inj (List.cons.inj hl).1).1 (by decide)
        | help => exact .inl (List.cons.inj hl).2
        | subcommand => exact .inr (.inl (List.cons.inj hl).2)
        | helpHelp => exact .inr (.inr (List.cons.inj hl).2)
    · rw [if_neg h2] at hc
      by_cases h3 : a = c%"--help" ∨ c%"-h".isPrefixOf a
      · rw [if_pos h3] at hc
        refine ⟨0, hc 0 rfl, .inl ⟨rfl, ?_⟩⟩
        rcases h3 with rfl | h3
        · exact .flag r
        · obtain ⟨t, rfl⟩ := List.isPrefixOf_iff_prefix.mp h3
          exact .short t r
      · rw [if_neg h3] at hc
        refine ⟨2, hc 2 rfl, .inr ⟨rfl, fun hh => h3 ?_⟩⟩
        generalize hl : a :: r = l at hh
        cases hh with
        | flag r' => exact .inl (List.cons.inj hl).1
        | short s' r' => exact .inr (by rw [(List.cons.inj hl).1]; exact List.isPrefixOf_iff_prefix.mpr (List.prefix_append _ _))
        | help => exact absurd (List.cons.inj hl).1 h2
        | subcommand => exact absurd (List.cons.inj hl).1 h2
        | helpHelp => exact absurd (List.cons.inj hl).1 h2

/-- And if it is accepted, the command is run with these options. -/
theorem C70_accepted_runs (args : List Str) (o : Opts) (w : Bool) (h : parseFrom args = .ok (o, w)) (y : Sys) (s : RSt) :
    cargoTestFuzz args y s = run o y s := by
  unfold cargoTestFuzz
  rw [h, Rm.lift_ok_bind]

/-! ### Every combination of options can be asked for -/

def switchOf (o : Opts) : Switch → Bool
  | .backtrace => o.backtrace
  | .consolidate => o.consolidate
  | .consolidateAll => o.consolidateAll
  | .exact => o.exact
  | .exitCode => o.exitCode
  | .list => o.list
  | .noDefaultFeatures => o.noDefaultFeatures
  | .noInstrumentation => false
  | .noRun => o.noRun
  | .noUi => o.noUi
  | .persistent => o.persistent
  | .pretty => o.pretty
  | .release => o.release
  | .reset => o.reset
  | .resetAll => o.resetAll
  | .resume => o.resume
  | .runUntilCrash => o.runUntilCrash
  | .verbose => o.verbose
  | .help => false
  | .version => false

def allSwitches : List Switch :=
  [.backtrace, .consolidate, .consolidateAll, .exact, .exitCode, .list, .noDefaultFeatures, .noInstrumentation,
   .noRun, .noUi, .persistent, .pretty, .release, .reset, .resetAll, .resume, .runUntilCrash, .verbose, .help, .version]

def valuesOf (o : Opts) : Valued → List Str
  | .coverage => (o.coverage.map objectName).toList
  | .cpus => (o.cpus.map natStr).toList
  | .display => (o.display.map objectName).toList
  | .features => o.features
  | .manifestPath => o.manifestPath.toList
  | .maxTotalTime => (o.maxTotalTime.map natStr).toList
  | .package => o.package.toList
  | .replay => (o.replay.map objectName).toList
  | .slice => [natStr o.slice]
  | .test => o.test.toList
  | .timeout => (o.timeout.map natStr).toList

def allValued : List Valued :=
  [.coverage, .cpus, .display, .features, .manifestPath, .maxTotalTime, .package, .replay, .slice, .test, .timeout]

def itemsOf (o : Opts) : List Item :=
  (allSwitches.filter (switchOf o)).map .switch ++ allValued.flatMap (fun k => (valuesOf o k).map (.valued k)) ++
    o.ztarget.toList.map .target

theorem mem_allSwitches (s : Switch) : s ∈ allSwitches := by cases s <;> decide

theorem mem_allValued (k : Valued) : k ∈ allValued := by cases k <;> decide

theorem switch_mem_itemsOf (o : Opts) (s : Switch) : .switch s ∈ itemsOf o ↔ switchOf o s = true := by
  simp [itemsOf, mem_allSwitches]

theorem valued_mem_itemsOf (o : Opts) (k : Valued) (v : Str) : .valued k v ∈ itemsOf o ↔ v ∈ valuesOf o k := by
  simp [itemsOf, mem_allValued]

theorem target_mem_itemsOf (o : Opts) (s : Str) : .target s ∈ itemsOf o ↔ o.ztarget = some s := by
  simp [itemsOf]

theorem natStr_numeral (n : Nat) : Numeral (natStr n) n := by
  refine ⟨natStr n, .inl rfl, Nat.toDigits_ne_nil, fun c hc => ?_, ?_⟩
  · have := Nat.isDigit_of_mem_toDigits (by decide) (by decide) hc
    simpa [Char.isDigit, UInt32.le_iff_toNat_le] using this
  · have := Nat.ofDigitChars_ten_toDigits (n := n)
    rw [Nat.ofDigitChars_eq_foldl] at this
    exact this.symm

theorem filter_flatMap_valued (o : Opts) (k : Valued) (l : List Valued) (hl : l.Nodup) :
    ((l.flatMap fun k => (valuesOf o k).map (Item.valued k)).filter (Item.gives k)).length =
    if k ∈ l then (valuesOf o k).length else 0 := by
  induction l with
  | nil => simp
  | cons x l ih =>
    rw [List.nodup_cons] at hl
    rw [List.flatMap_cons, List.filter_append, List.length_append, ih hl.2]
    by_cases hk : k = x
    · subst hk
      simp only [hl.1, if_false, List.mem_cons, true_or, if_true, Nat.add_zero]
      rw [List.filter_eq_self.mpr]
      · simp
      · intro i hi
        obtain ⟨v, -, rfl⟩ := List.mem_map.mp hi
        simp [Item.gives]
    · have : (((valuesOf o x).map (Item.valued x)).filter (Item.gives k)) = [] := by
        rw [List.filter_eq_nil_iff]
        intro i hi
        obtain ⟨v, -, rfl⟩ := List.mem_map.mp hi
        simp [hk, Item.gives]
      rw [this]
      simp [List.mem_cons, hk]

theorem admissible_itemsOf (o : Opts) (hn : ∀ n, (o.cpus = some n ∨ o.maxTotalTime = some n ∨ o.slice = n ∨ o.timeout = some n) →
    n < 2 ^ 64) : Admissible (itemsOf o) where
  help := by rw [switch_mem_itemsOf]; simp [switchOf]
  version := by rw [switch_mem_itemsOf]; simp [switchOf]
  switches := fun s => by
    unfold itemsOf
    rw [List.count_append, List.count_append]
    have h1 : (allValued.flatMap fun k => (valuesOf o k).map (Item.valued k)).count (.switch s) = 0 := by
      rw [List.count_eq_zero]; simp
    have h2 : (o.ztarget.toList.map Item.target).count (.switch s) = 0 := by
      rw [List.count_eq_zero]; simp
    rw [h1, h2, Nat.add_zero]
    have hnd : ((allSwitches.filter (switchOf o)).map Item.switch).Nodup := by
      rw [List.nodup_map_iff (fun a b h => by simpa using h)]
      exact List.Nodup.filter _ (by decide)
    exact List.nodup_iff_count.mp hnd _
  values := fun k hk => by
    unfold itemsOf
    rw [List.filter_append, List.filter_append, List.length_append, List.length_append,
      filter_flatMap_valued o k allValued (by decide)]
    have h1 : (((allSwitches.filter (switchOf o)).map Item.switch).filter (Item.gives k)) = [] := by
      rw [List.filter_eq_nil_iff]
      intro i hi
      obtain ⟨v, -, rfl⟩ := List.mem_map.mp hi
      simp [Item.gives, Item.isTarget]
    have h2 : ((o.ztarget.toList.map Item.target).filter (Item.gives k)) = [] := by
      rw [List.filter_eq_nil_iff]
      intro i hi
      obtain ⟨v, -, rfl⟩ := List.mem_map.mp hi
      simp [Item.gives, Item.isTarget]
    rw [h1, h2, if_pos (mem_allValued k)]
    cases k <;> simp only [valuesOf, List.length_nil, Nat.zero_add, Nat.add_zero] <;>
      first
        | exact absurd rfl hk
        | (simp; done)
        | (cases o.coverage <;> simp; done)
        | (cases o.cpus <;> simp; done)
        | (cases o.display <;> simp; done)
        | (cases o.manifestPath <;> simp; done)
        | (cases o.maxTotalTime <;> simp; done)
        | (cases o.package <;> simp; done)
        | (cases o.replay <;> simp; done)
        | (cases o.test <;> simp; done)
        | (cases o.timeout <;> simp; done)
  targets := by
    unfold itemsOf
    rw [List.filter_append, List.filter_append, List.length_append, List.length_append]
    have h1 : (((allSwitches.filter (switchOf o)).map Item.switch).filter Item.isTarget) = [] := by
      rw [List.filter_eq_nil_iff]
      intro i hi
      obtain ⟨v, -, rfl⟩ := List.mem_map.mp hi
      simp [Item.gives, Item.isTarget]
    have h2 : ((allValued.flatMap fun k => (valuesOf o k).map (Item.valued k)).filter Item.isTarget) = [] := by
      rw [List.filter_eq_nil_iff]
      intro i hi
      obtain ⟨k, -, hk⟩ := List.mem_flatMap.mp hi
      obtain ⟨v, -, rfl⟩ := List.mem_map.mp hk
      simp [Item.isTarget]
    rw [h1, h2]
    cases o.ztarget <;> simp [List.filter_cons, Item.isTarget]
  acceptable := fun k v hv => by
    rw [valued_mem_itemsOf] at hv
    have num : ∀ (x : Option Nat), (∀ n, x = some n → n < 2 ^ 64) → v ∈ (x.map natStr).toList → ∃ n, Numeral v n ∧ n < 2 ^ 64 := by
      intro x hx hv
      simp only [Option.mem_toList, Option.map_eq_some_iff] at hv
      obtain ⟨n, rfl, rfl⟩ := hv
      exact ⟨n, natStr_numeral n, hx n rfl⟩
    have obj : ∀ (x : Option Object), v ∈ (x.map objectName).toList → ∃ o, v = objectName o := by
      intro x hv
      simp only [Option.mem_toList, Option.map_eq_some_iff] at hv
      obtain ⟨n, -, rfl⟩ := hv
      exact ⟨n, rfl⟩
    cases k with
    | coverage => exact obj _ hv
    | display => exact obj _ hv
    | replay => exact obj _ hv
    | cpus => exact num _ (fun n h => hn n (.inl h)) hv
    | maxTotalTime => exact num _ (fun n h => hn n (.inr (.inl h))) hv
    | timeout => exact num _ (fun n h => hn n (.inr (.inr (.inr h)))) hv
    | slice =>
      simp only [valuesOf, List.mem_singleton] at hv
      subst hv
      exact ⟨_, natStr_numeral _, hn _ (.inr (.inr (.inl rfl)))⟩
    | _ => trivial

theorem means_itemsOf (o : Opts) : Means (itemsOf o) o.zzargs o := by
  have num : ∀ k (x : Option Nat), valuesOf o k = (x.map natStr).toList → Says (itemsOf o) k Numeral x := by
    intro k x h
    cases x with
    | none => intro v hv; rw [valued_mem_itemsOf, h] at hv; simp at hv
    | some n => exact ⟨natStr n, by rw [valued_mem_itemsOf, h]; simp, natStr_numeral n⟩
  have obj : ∀ k (x : Option Object), valuesOf o k = (x.map objectName).toList →
      Says (itemsOf o) k (fun s x => s = objectName x) x := by
    intro k x h
    cases x with
    | none => intro v hv; rw [valued_mem_itemsOf, h] at hv; simp at hv
    | some n => exact ⟨objectName n, by rw [valued_mem_itemsOf, h]; simp, rfl⟩
  have txt : ∀ k (x : Option Str), valuesOf o k = x.toList → Says (itemsOf o) k Eq x := by
    intro k x h
    cases x with
    | none => intro v hv; rw [valued_mem_itemsOf, h] at hv; simp at hv
    | some n => exact ⟨n, by rw [valued_mem_itemsOf, h]; simp, rfl⟩
  constructor <;> (try (rw [switch_mem_itemsOf]; rfl))
  · exact obj _ _ rfl
  · exact num _ _ rfl
  · exact obj _ _ rfl
  · unfold itemsOf
    rw [List.filterMap_append, List.filterMap_append]
    have h1 : ((allSwitches.filter (switchOf o)).map Item.switch).filterMap
        Item.feature = [] := by
      rw [List.filterMap_eq_nil_iff]
      intro i hi
      obtain ⟨v, -, rfl⟩ := List.mem_map.mp hi
      rfl
    have h2 : (o.ztarget.toList.map Item.target).filterMap
        Item.feature = [] := by
      rw [List.filterMap_eq_nil_iff]
      intro i hi
      obtain ⟨v, -, rfl⟩ := List.mem_map.mp hi
      rfl
    have h3 : ∀ k, ((valuesOf o k).map (Item.valued k)).filterMap
        Item.feature = if k = .features then o.features else [] := by
      intro k
      rw [List.filterMap_map]
      split
      · next h => subst h; exact List.filterMap_some
      · next h =>
        rw [List.filterMap_eq_nil_iff]
        intro v _
        cases k <;> first | rfl | exact absurd rfl h
    rw [h1, h2, List.nil_append, List.append_nil]
    simp only [allValued, List.flatMap_cons, List.flatMap_nil, List.filterMap_append, h3, reduceCtorEq, if_false, if_true,
      List.nil_append, List.append_nil, List.filterMap_nil]
  · exact txt _ _ rfl
  · exact num _ _ rfl
  · exact txt _ _ rfl
  · exact obj _ _ rfl
  · refine ⟨some o.slice, ⟨natStr o.slice, ?_, natStr_numeral _⟩, rfl⟩
    rw [valued_mem_itemsOf]; simp [valuesOf]
  · exact txt _ _ rfl
  · exact num _ _ rfl
  · cases h : o.ztarget with
    | none => intro s hs; rw [target_mem_itemsOf, h] at hs; cases hs
    | some s => simp only [target_mem_itemsOf, h]
  · rfl

theorem exists_spelling (i : Item) (h : ∀ s, i = .target s → Positional s) : ∃ a, Spelling i a := by
  cases i with
  | switch s =>
    have : ∃ n, n ∈ switchNames s := by cases s <;> exact ⟨_, List.mem_cons_self⟩
    obtain ⟨n, hn⟩ := this
    exact ⟨_, .switch hn⟩
  | valued k v => exact ⟨_, .equals k v⟩
  | target s => exact ⟨_, .target (h s rfl)⟩

theorem exists_commandLine (is : List Item) (z : List Str) (h : ∀ s, .target s ∈ is → Positional s) :
    ∃ args, CommandLine is z args := by
  induction is with
  | nil => exact ⟨_, .rest z⟩
  | cons i is ih =>
    obtain ⟨as, h1⟩ := ih fun s hs => h s (List.mem_cons_of_mem _ hs)
    obtain ⟨a, h2⟩ := exists_spelling i fun s hs => h s (by rw [hs]; exact List.mem_cons_self)
    exact ⟨_, .cons h2 h1⟩

/-- Every combination of options, values and arguments can be asked for, provided numbers have 64 bits and the name of
the target does not look like an option. -/
theorem C70_everything_can_be_asked (prog : Str) (o : Opts)
    (hn : ∀ n, (o.cpus = some n ∨ o.maxTotalTime = some n ∨ o.slice = n ∨ o.timeout = some n) → n < 2 ^ 64)
    (ht : ∀ s, o.ztarget = some s → Positional s) :
    ∃ args, parseFrom (prog :: c%"test-fuzz" :: args) = .ok (o, false) := by
  obtain ⟨args, h⟩ := exists_commandLine (itemsOf o) o.zzargs fun s hs => ht s ((target_mem_itemsOf o s).mp hs)
  refine ⟨args, (C70_command_line prog args o false).mpr ⟨_, _, h, admissible_itemsOf o hn, means_itemsOf o, ?_⟩⟩
  rw [switch_mem_itemsOf]; simp [switchOf]

/-! ## Cases -/

/-- `cargo test-fuzz -p=a foo --features x --display corpus --features=y,z --no-instrumentation -- -h --list` -/
example : parseFrom [c%"cargo-test-fuzz", c%"test-fuzz", c%"-p=a", c%"foo", c%"--features", c%"x", c%"--display", c%"corpus",
      c%"--features=y,z", c%"--no-instrumentation", c%"--", c%"-h", c%"--list"] =
    .ok ({ package := some c%"a", ztarget := some c%"foo", features := [c%"x", c%"y,z"], display := some .corpus,
           slice := 1200, zzargs := [c%"-h", c%"--list"] }, true) := by decide +kernel

/-- Twice the same option; two targets; a missing value; a number that is too large; an abbreviation. -/
example : [[c%"--list", c%"--list"], [c%"a", c%"b"], [c%"--cpus", c%"--list"], [c%"--cpus=18446744073709551616"],
      [c%"--verb"]].map (fun l => parseFrom (c%"cargo-test-fuzz" :: c%"test-fuzz" :: l)) =
    [.exit 2, .exit 2, .exit 2, .exit 2, .exit 2] := by decide +kernel

/-- `cargo-test-fuzz help test-fuzz` and `cargo-test-fuzz --list`: neither is run as a subcommand of cargo. -/
example : (∀ p r, [c%"cargo-test-fuzz", c%"help", c%"test-fuzz"] ≠ p :: c%"test-fuzz" :: r) ∧ AsksAbout [c%"help", c%"test-fuzz"] ∧
    parseFrom [c%"cargo-test-fuzz", c%"help", c%"test-fuzz"] = .exit 0 ∧
    parseFrom [c%"cargo-test-fuzz", c%"--list"] = .exit 2 :=
  ⟨fun p r h => absurd (List.cons.inj (List.cons.inj h).2).1 (by decide), .subcommand, by decide +kernel, by decide +kernel⟩

end TF.Cli
