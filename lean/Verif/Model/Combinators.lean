import Verif.Rust.Basic

/-!
# Serde combinators: serde_combinators/src

`RefF`, `RefMutF`, `MutexF` and `RwLockF`, nested to any depth around `Type<T>`. Locks have addresses; their states are
kept apart from the values. Serialisers are arbitrary: `R` is the type of their results, and `T::serialize` is a function
into it that may fail or panic. Contents of locks do not change during serialisation.

Not modelled: the limit on the number of readers of a `RwLock`.
-/

namespace TF

/-- State of a `Mutex` (`readers` is not used) or a `RwLock`. -/
structure LockS where
  /-- Held exclusively. -/
  writer : Bool
  readers : Nat
  poisoned : Bool
  deriving DecidableEq

/-- `Mutex::new`, `RwLock::new` -/
def LockS.fresh : LockS := ⟨false, 0, false⟩

abbrev Locks := Nat → LockS

def Locks.set (σ : Locks) (i : Nat) (s : LockS) : Locks := fun j => if j = i then s else σ j

/-- Values of the types that the combinators handle. -/
inductive CVal (A : Type) where
  | leaf (a : A)
  | ref (v : CVal A)
  | refMut (v : CVal A)
  | mutex (addr : Nat) (v : CVal A)
  | rwLock (addr : Nat) (v : CVal A)
  deriving DecidableEq

/-- Combinators. -/
inductive Comb where
  /-- `Type<T>` -/
  | type
  | refF (c : Comb)
  | refMutF (c : Comb)
  | mutexF (c : Comb)
  | rwLockF (c : Comb)
  deriving DecidableEq

def wouldBlock : Str := c%"try_lock failed because the operation would block"
def poisonedLock : Str := c%"poisoned lock: another task failed inside"

/-- Dropping a `MutexGuard`: during a panic, the mutex gets poisoned. -/
def dropMutexGuard (i : Nat) (panicking : Bool) (σ : Locks) : Locks :=
  σ.set i { σ i with writer := false, poisoned := (σ i).poisoned || panicking }

/-- Dropping a `RwLockReadGuard`. -/
def dropReadGuard (i : Nat) (σ : Locks) : Locks := σ.set i { σ i with readers := (σ i).readers - 1 }

def Out.isPanic {α : Type u} : Out α → Bool
  | .panic => true
  | _ => false

/-- `W::serialize` – serde_combinators/src: type_.rs:13-18, ref_.rs:13-22, ref_mut.rs:13-22, mutex.rs:13-25,
rw_lock.rs:13-25, with lib.rs:67-76 `compose_serialize`. -/
def CVal.serialize {A R : Type} (f : A → Out R) : CVal A → Locks → Out R × Locks
  | .leaf a, σ => (f a, σ)
  | .ref v, σ => v.serialize f σ
  | .refMut v, σ => v.serialize f σ
  | .mutex i v, σ =>
    -- `Mutex::try_lock`
    if (σ i).writer then (.err wouldBlock, σ)
    else
      let σ := σ.set i { σ i with writer := true }
      -- the error contains the guard, and is dropped
      if (σ i).poisoned then (.err poisonedLock, dropMutexGuard i false σ)
      else
        let (o, σ) := v.serialize f σ
        (o, dropMutexGuard i o.isPanic σ)
  | .rwLock i v, σ =>
    -- `RwLock::try_read`
    if (σ i).writer then (.err wouldBlock, σ)
    else
      let σ := σ.set i { σ i with readers := (σ i).readers + 1 }
      if (σ i).poisoned then (.err poisonedLock, dropReadGuard i σ)
      else
        let (o, σ) := v.serialize f σ
        (o, dropReadGuard i σ)

/-- Memory: addresses from `next` on are not in use. -/
structure Mem where
  next : Nat
  locks : Locks

/-- A new lock. -/
def Mem.new (m : Mem) : Nat × Mem := (m.next, ⟨m.next + 1, m.locks.set m.next .fresh⟩)

/-- `W::deserialize` – serde_combinators/src: type_.rs:27-32, ref_.rs:31-39, ref_mut.rs:31-39, mutex.rs:34-39,
rw_lock.rs:34-39, with lib.rs:79-91 `compose_deserialize`. `D` is the state of the deserialiser. Leaked boxes are not part of
the state. -/
def Comb.deserialize {A D : Type} (f : D → Out (A × D)) : Comb → D → Mem → Out (CVal A × D) × Mem
  | .type, d, m =>
    match f d with
    | .ok (a, d) => (.ok (.leaf a, d), m)
    | .err e => (.err e, m)
    | .panic => (.panic, m)
    | .exit c => (.exit c, m)
    | .crash => (.crash, m)
  | .refF c, d, m =>
    match c.deserialize f d m with
    | (.ok (v, d), m) => (.ok (.ref v, d), m)
    | x => x
  | .refMutF c, d, m =>
    match c.deserialize f d m with
    | (.ok (v, d), m) => (.ok (.refMut v, d), m)
    | x => x
  | .mutexF c, d, m =>
    match c.deserialize f d m with
    | (.ok (v, d), m) => let (i, m) := m.new; (.ok (.mutex i v, d), m)
    | x => x
  | .rwLockF c, d, m =>
    match c.deserialize f d m with
    | (.ok (v, d), m) => let (i, m) := m.new; (.ok (.rwLock i v, d), m)
    | x => x

/-! ## test-fuzz/src/utils.rs:54-116 -/

/-- `serialize_ref`; the argument of type `&&T` is the value `.ref (.leaf a)`. -/
def serializeRef {A R : Type} (f : A → Out R) (a : A) (σ : Locks) : Out R × Locks := (CVal.ref (.leaf a)).serialize f σ

/-- `deserialize_ref` -/
def deserializeRef {A D : Type} (f : D → Out (A × D)) (d : D) (m : Mem) : Out (CVal A × D) × Mem :=
  (Comb.refF .type).deserialize f d m

/-- `serialize_ref_mut` -/
def serializeRefMut {A R : Type} (f : A → Out R) (a : A) (σ : Locks) : Out R × Locks :=
  (CVal.refMut (.leaf a)).serialize f σ

/-- `deserialize_ref_mut` -/
def deserializeRefMut {A D : Type} (f : D → Out (A × D)) (d : D) (m : Mem) : Out (CVal A × D) × Mem :=
  (Comb.refMutF .type).deserialize f d m

end TF
