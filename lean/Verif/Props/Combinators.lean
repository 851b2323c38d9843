import Verif.Model.Combinators
import Mathlib.Tactic.Common

/-!
# C48, C49: serde combinators
-/

namespace TF

namespace Spec

/-- The value has the type that the combinator handles. -/
inductive HandledBy {A : Type} : CVal A → Comb → Prop
  | leaf (a : A) : HandledBy (.leaf a) .type
  | ref {v : CVal A} {c : Comb} : HandledBy v c → HandledBy (.ref v) (.refF c)
  | refMut {v : CVal A} {c : Comb} : HandledBy v c → HandledBy (.refMut v) (.refMutF c)
  | mutex {v : CVal A} {c : Comb} (i : Nat) : HandledBy v c → HandledBy (.mutex i v) (.mutexF c)
  | rwLock {v : CVal A} {c : Comb} (i : Nat) : HandledBy v c → HandledBy (.rwLock i v) (.rwLockF c)

/-- What is inside of all references and locks. -/
def content {A : Type} : CVal A → A
  | .leaf a => a
  | .ref v | .refMut v | .mutex _ v | .rwLock _ v => content v

/-- The mutexes and the read-write locks on the way. -/
def mutexes {A : Type} : CVal A → List Nat
  | .leaf _ => []
  | .mutex i v => i :: mutexes v
  | .ref v | .refMut v | .rwLock _ v => mutexes v

def rwLocks {A : Type} : CVal A → List Nat
  | .leaf _ => []
  | .rwLock i v => i :: rwLocks v
  | .ref v | .refMut v | .mutex _ v => rwLocks v

/-- They are different locks. (A lock cannot be within itself: its type would be part of itself.) -/
def Unaliased {A : Type} (v : CVal A) : Prop := (mutexes v ++ rwLocks v).Nodup

/-- A lock that is not held exclusively and not poisoned. -/
def Usable (σ : Locks) (i : Nat) : Prop := (σ i).writer = false ∧ (σ i).poisoned = false

end Spec

open Spec

theorem set_get (σ : Locks) (i : Nat) (s : LockS) : σ.set i s i = s := by simp [Locks.set]

theorem set_other (σ : Locks) {i j : Nat} (s : LockS) (h : j ≠ i) : σ.set i s j = σ j := by simp [Locks.set, h]

theorem dropMutexGuard_set (σ : Locks) (i : Nat) (h : (σ i).writer = false) :
    dropMutexGuard i false (σ.set i { σ i with writer := true }) = σ := by
  funext j
  by_cases hj : j = i
  · subst hj; rw [dropMutexGuard, set_get, set_get, Bool.or_false, ← h]
  · rw [dropMutexGuard, set_other _ _ hj, set_other _ _ hj]

theorem dropReadGuard_set (σ : Locks) (i : Nat) :
    dropReadGuard i (σ.set i { σ i with readers := (σ i).readers + 1 }) = σ := by
  funext j
  by_cases hj : j = i
  · subst hj; rw [dropReadGuard, set_get, set_get]; simp
  · rw [dropReadGuard, set_other _ _ hj, set_other _ _ hj]

section
variable {A R : Type} (f : A → Out R)

theorem apart_mutex {i : Nat} {v : CVal A} (h : Unaliased (.mutex i v)) : i ∉ mutexes v ∧ i ∉ rwLocks v ∧ Unaliased v := by
  simp only [Unaliased, mutexes, rwLocks, List.cons_append, List.nodup_cons, List.mem_append, not_or] at h
  exact ⟨h.1.1, h.1.2, h.2⟩

theorem apart_rwLock {i : Nat} {v : CVal A} (h : Unaliased (.rwLock i v)) : i ∉ mutexes v ∧ i ∉ rwLocks v ∧ Unaliased v := by
  simp only [Unaliased, mutexes, rwLocks, List.nodup_append, List.nodup_cons, List.mem_cons] at h ⊢
  refine ⟨fun hi => h.2.2 i hi i (.inl rfl) rfl, h.2.1.1, h.1, h.2.1.2, fun a ha b hb => h.2.2 a ha b (.inr hb)⟩

/-- Locks on the way are usable in both states. -/
theorem usable_congr {v : CVal A} {σ τ : Locks} (h : ∀ i, i ∈ mutexes v ∨ i ∈ rwLocks v → (σ i).writer = (τ i).writer ∧ (σ i).poisoned = (τ i).poisoned) :
    (∀ i, i ∈ mutexes v ∨ i ∈ rwLocks v → Usable σ i) ↔ ∀ i, i ∈ mutexes v ∨ i ∈ rwLocks v → Usable τ i := by
  constructor
  · intro hu i hi
    have := hu i hi
    rw [Usable, (h i hi).1, (h i hi).2] at this
    exact this
  · intro hu i hi
    have := hu i hi
    rw [Usable, ← (h i hi).1, ← (h i hi).2] at this
    exact this

theorem serialize_spec : ∀ (v : CVal A) (σ : Locks), Unaliased v →
    ((∀ i, i ∈ mutexes v ∨ i ∈ rwLocks v → Usable σ i) → (v.serialize f σ).1 = f (content v)) ∧
    ((¬ ∀ i, i ∈ mutexes v ∨ i ∈ rwLocks v → Usable σ i) → ∃ e, (v.serialize f σ).1 = .err e) ∧
    ((v.serialize f σ).1.isPanic = false → (v.serialize f σ).2 = σ) ∧
    ((v.serialize f σ).1 = .panic → (v.serialize f σ).2 =
      fun i => if i ∈ mutexes v then { σ i with poisoned := true } else σ i)
  | .leaf a, σ, _ => by
    simp [CVal.serialize, content, mutexes, rwLocks]
  | .ref v, σ, h => serialize_spec v σ h
  | .refMut v, σ, h => serialize_spec v σ h
  | .mutex i v, σ, h => by
    obtain ⟨h1, h2, h3⟩ := apart_mutex h
    simp only [CVal.serialize]
    by_cases hw : (σ i).writer = true
    · rw [if_pos hw]
      refine ⟨fun hu => ?_, fun _ => ⟨_, rfl⟩, fun _ => rfl, fun h => by cases h⟩
      have := (hu i (.inl (by simp [mutexes]))).1
      rw [this] at hw
      cases hw
    · rw [if_neg hw]
      have hw' : (σ i).writer = false := by simpa using hw
      rw [set_get]
      by_cases hp : (σ i).poisoned = true
      · rw [if_pos hp]
        refine ⟨fun hu => ?_, fun _ => ⟨_, rfl⟩, fun _ => dropMutexGuard_set σ i hw', fun h => by cases h⟩
        have := (hu i (.inl (by simp [mutexes]))).2
        rw [this] at hp
        cases hp
      · rw [if_neg hp]
        have hp' : (σ i).poisoned = false := by simpa using hp
        obtain ⟨g1, g2, g3, g4⟩ := serialize_spec v (σ.set i { σ i with writer := true }) h3
        generalize hx : v.serialize f (σ.set i { σ i with writer := true }) = x at *
        obtain ⟨o, τ⟩ := x
        simp only at *
        have hcong := usable_congr (v := v) (σ := σ.set i { σ i with writer := true }) (τ := σ) (fun j hj => by
          rw [set_other]
          · exact ⟨rfl, rfl⟩
          · rintro rfl
            exact hj.elim h1 h2)
        have hiff : (∀ j, j ∈ mutexes (.mutex i v) ∨ j ∈ rwLocks (.mutex i v) → Usable σ j) ↔
            ∀ j, j ∈ mutexes v ∨ j ∈ rwLocks v → Usable σ j := by
          constructor
          · exact fun hu j hj => hu j (hj.imp (by simp +contextual [mutexes]) (by simp [rwLocks]))
          · intro hu j hj
            simp only [mutexes, rwLocks, List.mem_cons] at hj
            rcases hj with (rfl | hj) | hj
            · exact ⟨hw', hp'⟩
            · exact hu j (.inl hj)
            · exact hu j (.inr hj)
        refine ⟨fun hu => g1 (hcong.mpr (hiff.mp hu)), fun hu => g2 fun hu' => hu (hiff.mpr (hcong.mp hu')), fun ho => ?_, fun ho => ?_⟩
        · rw [ho, g3 ho]
          exact dropMutexGuard_set σ i hw'
        · rw [g4 ho, ho]
          funext j
          by_cases hj : j = i
          · subst hj
            rw [dropMutexGuard, set_get, if_neg h1, set_get, if_pos (by simp [mutexes]), Out.isPanic, Bool.or_true, ← hw']
          · rw [dropMutexGuard, set_other _ _ hj, set_other _ _ hj]
            simp [mutexes, hj]
  | .rwLock i v, σ, h => by
    obtain ⟨h1, h2, h3⟩ := apart_rwLock h
    simp only [CVal.serialize]
    by_cases hw : (σ i).writer = true
    · rw [if_pos hw]
      refine ⟨fun hu => ?_, fun _ => ⟨_, rfl⟩, fun _ => rfl, fun h => by cases h⟩
      have := (hu i (.inr (by simp [rwLocks]))).1
      rw [this] at hw
      cases hw
    · rw [if_neg hw]
      have hw' : (σ i).writer = false := by simpa using hw
      rw [set_get]
      by_cases hp : (σ i).poisoned = true
      · rw [if_pos hp]
        refine ⟨fun hu => ?_, fun _ => ⟨_, rfl⟩, fun _ => dropReadGuard_set σ i, fun h => by cases h⟩
        have := (hu i (.inr (by simp [rwLocks]))).2
        rw [this] at hp
        cases hp
      · rw [if_neg hp]
        have hp' : (σ i).poisoned = false := by simpa using hp
        obtain ⟨g1, g2, g3, g4⟩ := serialize_spec v (σ.set i { σ i with readers := (σ i).readers + 1 }) h3
        generalize hx : v.serialize f (σ.set i { σ i with readers := (σ i).readers + 1 }) = x at *
        obtain ⟨o, τ⟩ := x
        simp only at *
        have hcong := usable_congr (v := v) (σ := σ.set i { σ i with readers := (σ i).readers + 1 }) (τ := σ) (fun j hj => by
          rw [set_other]
          · exact ⟨rfl, rfl⟩
          · rintro rfl
            exact hj.elim h1 h2)
        have hiff : (∀ j, j ∈ mutexes (.rwLock i v) ∨ j ∈ rwLocks (.rwLock i v) → Usable σ j) ↔
            ∀ j, j ∈ mutexes v ∨ j ∈ rwLocks v → Usable σ j := by
          constructor
          · exact fun hu j hj => hu j (hj.imp (by simp [mutexes]) (by simp +contextual [rwLocks]))
          · intro hu j hj
            simp only [mutexes, rwLocks, List.mem_cons] at hj
            rcases hj with hj | rfl | hj
            · exact hu j (.inl hj)
            · exact ⟨hw', hp'⟩
            · exact hu j (.inr hj)
        refine ⟨fun hu => g1 (hcong.mpr (hiff.mp hu)), fun hu => g2 fun hu' => hu (hiff.mpr (hcong.mp hu')), fun ho => ?_, fun ho => ?_⟩
        · rw [g3 ho]
          exact dropReadGuard_set σ i
        · rw [g4 ho]
          funext j
          by_cases hj : j = i
          · subst hj
            rw [dropReadGuard, set_get, if_neg h1, set_get]
            simp [mutexes, h1]
          · rw [dropReadGuard, set_other _ _ hj]
            by_cases hm : j ∈ mutexes v <;> simp [mutexes, hm, set_other _ _ hj]

end

/-- **C48.** For every nesting of combinators and every serialiser: if the locks on the way can be taken, the result is that of
serialising the innermost value. -/
theorem C48_transparent {A R : Type} (f : A → Out R) (v : CVal A) (σ : Locks) (h : Unaliased v)
    (hu : ∀ i, i ∈ mutexes v ∨ i ∈ rwLocks v → Usable σ i) : (v.serialize f σ).1 = f (content v) :=
  (serialize_spec f v σ h).1 hu

/-- **C49.** If a lock on the way – at any depth – is held exclusively or poisoned, serialisation fails with an error, and does
not wait. A `RwLock` that others read does not matter. -/
theorem C49_error {A R : Type} (f : A → Out R) (v : CVal A) (σ : Locks) (h : Unaliased v) (i : Nat)
    (hi : i ∈ mutexes v ∨ i ∈ rwLocks v) (hb : (σ i).writer = true ∨ (σ i).poisoned = true) :
    ∃ e, (v.serialize f σ).1 = .err e := by
  refine (serialize_spec f v σ h).2.1 fun hu => ?_
  have := hu i hi
  rcases hb with hb | hb
  · rw [this.1] at hb; cases hb
  · rw [this.2] at hb; cases hb

/-- **C49.** Serialisation of a value that itself can be serialised fails exactly in those cases. -/
theorem C49_error_iff {A R : Type} (f : A → Out R) (v : CVal A) (σ : Locks) (h : Unaliased v) (r : R) (hf : f (content v) = .ok r) :
    (∃ e, (v.serialize f σ).1 = .err e) ↔
      ∃ i, (i ∈ mutexes v ∨ i ∈ rwLocks v) ∧ ((σ i).writer = true ∨ (σ i).poisoned = true) := by
  constructor
  · rintro ⟨e, he⟩
    by_contra hn
    have hu : ∀ i, i ∈ mutexes v ∨ i ∈ rwLocks v → Usable σ i := by
      intro i hi
      constructor
      · by_contra hw; exact hn ⟨i, hi, .inl (by simpa using hw)⟩
      · by_contra hw; exact hn ⟨i, hi, .inr (by simpa using hw)⟩
    rw [C48_transparent f v σ h hu, hf] at he
    cases he
  · rintro ⟨i, hi, hb⟩
    exact C49_error f v σ h i hi hb

/-- **C49.** Afterwards all locks are as they were – whether serialisation succeeded or failed – unless the serialiser panicked:
then they are released, and the mutexes on the way are poisoned. -/
theorem C49_released {A R : Type} (f : A → Out R) (v : CVal A) (σ : Locks) (h : Unaliased v) :
    ((v.serialize f σ).1 ≠ .panic → (v.serialize f σ).2 = σ) ∧
    ((v.serialize f σ).1 = .panic → ∀ i, (v.serialize f σ).2 i =
      if i ∈ mutexes v then { σ i with poisoned := true } else σ i) := by
  obtain ⟨-, -, h3, h4⟩ := serialize_spec f v σ h
  refine ⟨fun hp => h3 ?_, fun hp i => by rw [h4 hp]⟩
  cases ho : (v.serialize f σ).1 with
  | panic => exact absurd ho hp
  | _ => rfl

/-! ## Deserialisation -/

theorem deserialize_spec {A D : Type} (f : D → Out (A × D)) : ∀ (c : Comb) (d : D) (m : Mem),
    match f d with
    | .ok (a, d') => ∃ v m', c.deserialize f d m = (.ok (v, d'), m') ∧ HandledBy v c ∧ content v = a ∧ Unaliased v ∧
        m.next ≤ m'.next ∧ (∀ i < m.next, m'.locks i = m.locks i) ∧
        ∀ i, i ∈ mutexes v ∨ i ∈ rwLocks v → m.next ≤ i ∧ i < m'.next ∧ m'.locks i = .fresh
    | .err e => c.deserialize f d m = (.err e, m)
    | .panic => c.deserialize f d m = (.panic, m)
    | .exit k => c.deserialize f d m = (.exit k, m)
    | .crash => c.deserialize f d m = (.crash, m)
  | .type, d, m => by
    cases hf : f d with
    | ok x =>
      obtain ⟨a, d'⟩ := x
      exact ⟨.leaf a, m, by simp [Comb.deserialize, hf], .leaf a, rfl, by simp [Unaliased, mutexes, rwLocks], Nat.le_refl _,
        fun _ _ => rfl, by simp [mutexes, rwLocks]⟩
    | _ => simp [Comb.deserialize, hf]
  | .refF c, d, m => by
    have ih := deserialize_spec f c d m
    cases hf : f d with
    | ok x =>
      obtain ⟨a, d'⟩ := x
      rw [hf] at ih
      obtain ⟨v, m', h1, h2, h3, h4, h5⟩ := ih
      exact ⟨.ref v, m', by simp [Comb.deserialize, h1], .ref h2, h3, h4, h5⟩
    | _ => rw [hf] at ih; simp only at ih ⊢; simp [Comb.deserialize, ih]
  | .refMutF c, d, m => by
    have ih := deserialize_spec f c d m
    cases hf : f d with
    | ok x =>
      obtain ⟨a, d'⟩ := x
      rw [hf] at ih
      obtain ⟨v, m', h1, h2, h3, h4, h5⟩ := ih
      exact ⟨.refMut v, m', by simp [Comb.deserialize, h1], .refMut h2, h3, h4, h5⟩
    | _ => rw [hf] at ih; simp only at ih ⊢; simp [Comb.deserialize, ih]
  | .mutexF c, d, m => by
    have ih := deserialize_spec f c d m
    cases hf : f d with
    | ok x =>
      obtain ⟨a, d'⟩ := x
      rw [hf] at ih
      obtain ⟨v, m', h1, h2, h3, h4, h5, h6, h7⟩ := ih
      have hlt : ∀ i, i ∈ mutexes v ∨ i ∈ rwLocks v → i ≠ m'.next := fun i hi => by have := (h7 i hi).2.1; omega
      refine ⟨.mutex m'.next v, m'.new.2, by simp [Comb.deserialize, h1, Mem.new], .mutex _ h2, h3, ?_, ?_, ?_, ?_⟩
      · simp only [Unaliased, mutexes, rwLocks, List.cons_append, List.nodup_cons, List.mem_append]
        exact ⟨fun hi => hlt _ hi rfl, h4⟩
      · simp only [Mem.new]; omega
      · intro i hi
        simp only [Mem.new]
        rw [set_other _ _ (by omega), h6 i hi]
      · intro i hi
        simp only [mutexes, rwLocks, List.mem_cons, or_assoc] at hi
        simp only [Mem.new]
        rcases hi with rfl | hi
        · exact ⟨h5, by omega, set_get _ _ _⟩
        · have := h7 i hi
          exact ⟨this.1, by omega, by rw [set_other _ _ (hlt i hi)]; exact this.2.2⟩
    | _ => rw [hf] at ih; simp only at ih ⊢; simp [Comb.deserialize, ih]
  | .rwLockF c, d, m => by
    have ih := deserialize_spec f c d m
    cases hf : f d with
    | ok x =>
      obtain ⟨a, d'⟩ := x
      rw [hf] at ih
      obtain ⟨v, m', h1, h2, h3, h4, h5, h6, h7⟩ := ih
      have hlt : ∀ i, i ∈ mutexes v ∨ i ∈ rwLocks v → i ≠ m'.next := fun i hi => by have := (h7 i hi).2.1; omega
      refine ⟨.rwLock m'.next v, m'.new.2, by simp [Comb.deserialize, h1, Mem.new], .rwLock _ h2, h3, ?_, ?_, ?_, ?_⟩
      · simp only [Unaliased, mutexes, rwLocks] at h4 ⊢
        rw [(List.perm_middle).nodup_iff, List.nodup_cons, List.mem_append]
        exact ⟨fun hi => hlt _ hi rfl, h4⟩
      · simp only [Mem.new]; omega
      · intro i hi
        simp only [Mem.new]
        rw [set_other _ _ (by omega), h6 i hi]
      · intro i hi
        have hi : i = m'.next ∨ i ∈ mutexes v ∨ i ∈ rwLocks v := by
          simp only [mutexes, rwLocks, List.mem_cons] at hi
          tauto
        simp only [Mem.new]
        rcases hi with rfl | hi
        · exact ⟨h5, by omega, set_get _ _ _⟩
        · have := h7 i hi
          exact ⟨this.1, by omega, by rw [set_other _ _ (hlt i hi)]; exact this.2.2⟩
    | _ => rw [hf] at ih; simp only at ih ⊢; simp [Comb.deserialize, ih]

/-- **C48.** For every nesting of combinators and every deserialiser: if the innermost value can be read, the result has the
structure of the combinator with that value inside; its locks are new, free and not poisoned; locks that existed before are as
they were; and the deserialiser is where reading the innermost value leaves it. -/
theorem C48_deserialize {A D : Type} (f : D → Out (A × D)) (c : Comb) (d d' : D) (a : A) (m : Mem) (hf : f d = .ok (a, d')) :
    ∃ v m', c.deserialize f d m = (.ok (v, d'), m') ∧ HandledBy v c ∧ content v = a ∧
      (∀ i < m.next, m'.locks i = m.locks i) ∧
      ∀ i, i ∈ mutexes v ∨ i ∈ rwLocks v → m.next ≤ i ∧ m'.locks i = ⟨false, 0, false⟩ := by
  have h := deserialize_spec f c d m
  rw [hf] at h
  obtain ⟨v, m', h1, h2, h3, -, -, h6, h7⟩ := h
  exact ⟨v, m', h1, h2, h3, h6, fun i hi => ⟨(h7 i hi).1, (h7 i hi).2.2⟩⟩

/-- **C48.** If the innermost value cannot be read, nothing can, for the same reason. -/
theorem C48_deserialize_fails {A D : Type} (f : D → Out (A × D)) (c : Comb) (d : D) (m : Mem) (hf : ∀ x, f d ≠ .ok x) :
    (∀ x, (c.deserialize f d m).1 ≠ .ok x) ∧ (c.deserialize f d m).2 = m ∧
      ∀ e, f d = .err e → (c.deserialize f d m).1 = .err e := by
  have h := deserialize_spec f c d m
  cases hx : f d with
  | ok x => exact absurd hx (hf x)
  | _ => rw [hx] at h; simp only at h; simp [h]

/-- **C48.** Round trip: what is serialised through a combinator is read back, as a value of the same structure with the same
content, which is serialised in the same way. (Values that one combinator handles have the same structure.) -/
theorem C48_round_trip {A R D : Type} (ser : A → Out R) (de : D → Out (A × D)) (give : R → D → D)
    (hinv : ∀ a r d, ser a = .ok r → de (give r d) = .ok (a, d)) (v : CVal A) (c : Comb) (hap : Unaliased v)
    (σ : Locks) (r : R) (h : (v.serialize ser σ).1 = .ok r) (d : D) (m : Mem) :
    ∃ v' m', c.deserialize de (give r d) m = (.ok (v', d), m') ∧ HandledBy v' c ∧ content v' = content v ∧
      (v'.serialize ser m'.locks).1 = .ok r := by
  have hu : ∀ i, i ∈ mutexes v ∨ i ∈ rwLocks v → Usable σ i := by
    by_contra hn
    obtain ⟨e, he⟩ := (serialize_spec ser v σ hap).2.1 hn
    rw [he] at h
    cases h
  have hs := C48_transparent ser v σ hap hu
  rw [h] at hs
  have hd := deserialize_spec de c (give r d) m
  rw [hinv _ _ d hs.symm] at hd
  obtain ⟨v', m', h1, h2, h3, h4, -, -, h7⟩ := hd
  refine ⟨v', m', h1, h2, h3, ?_⟩
  rw [C48_transparent ser v' m'.locks h4, h3, ← hs]
  intro i hi
  rw [Usable, (h7 i hi).2.2]
  exact ⟨rfl, rfl⟩

/-- **C48.** `serialize_ref` and `serialize_ref_mut` serialise the value that is referred to; `deserialize_ref` and
`deserialize_ref_mut` return a reference to what is read. -/
theorem C48_references {A R D : Type} (ser : A → Out R) (de : D → Out (A × D)) (a : A) (σ : Locks) (m : Mem) (d d' : D)
    (h : de d = .ok (a, d')) :
    serializeRef ser a σ = (ser a, σ) ∧ serializeRefMut ser a σ = (ser a, σ) ∧
      deserializeRef de d m = (.ok (.ref (.leaf a), d'), m) ∧ deserializeRefMut de d m = (.ok (.refMut (.leaf a), d'), m) := by
  refine ⟨rfl, rfl, ?_, ?_⟩
  · simp [deserializeRef, Comb.deserialize, h]
  · simp [deserializeRefMut, Comb.deserialize, h]

/-! ## Cases -/

namespace CombDemo

/-- `&Mutex<&mut RwLock<u8>>` -/
def comb : Comb := .refF (.mutexF (.refMutF (.rwLockF .type)))

def val : CVal Nat := .ref (.mutex 3 (.refMut (.rwLock 5 (.leaf 42))))

example : HandledBy val comb := .ref (.mutex _ (.refMut (.rwLock _ (.leaf _))))

theorem unaliased : Unaliased val := by unfold Unaliased; decide

def ser (a : Nat) : Out (List Nat) := if a < 100 then .ok [a] else .panic

/-- Others read lock 5. -/
def σ : Locks := fun i => if i = 5 then ⟨false, 2, false⟩ else .fresh

example : (val.serialize ser σ).1 = .ok [42] := by
  refine C48_transparent ser val σ unaliased fun i hi => ?_
  simp [mutexes, rwLocks, val] at hi
  rcases hi with rfl | rfl <;> exact ⟨by decide, by decide⟩

/-- Lock 5 is held by a writer: the outer mutex is taken, and released again. -/
def σ' : Locks := fun i => if i = 5 then ⟨true, 0, false⟩ else .fresh

example : ∃ e, (val.serialize ser σ').1 = .err e := C49_error ser val σ' unaliased 5 (by decide) (.inl (by decide))

example : (val.serialize ser σ').2 = σ' := (C49_released ser val σ' unaliased).1 (by decide)

/-- A panic poisons the mutex. -/
example : ((CVal.mutex 0 (.leaf 100)).serialize ser (fun _ => .fresh)).1 = .panic ∧
    ((CVal.mutex 0 (.leaf 100)).serialize ser (fun _ => .fresh)).2 0 = ⟨false, 0, true⟩ := by decide

def de (d : List Nat) : Out (Nat × List Nat) :=
  match d with
  | a :: r => .ok (a, r)
  | [] => .err []

example (d : List Nat) (m : Mem) : ∃ v' m', comb.deserialize de (42 :: d) m = (.ok (v', d), m') ∧ HandledBy v' comb ∧
    content v' = 42 ∧ (v'.serialize ser m'.locks).1 = .ok [42] := by
  refine C48_round_trip ser de (· ++ ·) ?_ val comb unaliased σ [42] (by rfl) d m
  intro a r d h
  simp only [ser] at h
  split at h
  · cases h; rfl
  · cases h

end CombDemo

end TF
