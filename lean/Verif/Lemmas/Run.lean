import Verif.Spec.Run

/-! Reasoning about `Rm` computations. -/

namespace TF

namespace Rm

theorem bind_def {α β} (x : Rm α) (f : α → Rm β) (s : RSt) :
    (x >>= f) s = (match x s with
      | (.ok a, s') => f a s'
      | (.err e, s') => (.err e, s')
      | (.panic, s') => (.panic, s')
      | (.exit c, s') => (.exit c, s')
      | (.crash, s') => (.crash, s')) := rfl

@[simp] theorem pure_run {α} (a : α) (s : RSt) : (pure a : Rm α) s = (.ok a, s) := rfl
@[simp] theorem lift_run {α} (a : Out α) (s : RSt) : (lift a : Rm α) s = (a, s) := rfl
@[simp] theorem act_run (a : Act) (s : RSt) : act a s = (.ok (), { s with acts := s.acts ++ [a] }) := rfl

theorem bind_ok {α β} {x : Rm α} {f : α → Rm β} {s s' : RSt} {a : α} (h : x s = (.ok a, s')) :
    (x >>= f) s = f a s' := by rw [bind_def, h]

theorem bind_err {α β} {x : Rm α} {f : α → Rm β} {s s' : RSt} {e} (h : x s = (.err e, s')) :
    (x >>= f) s = (.err e, s') := by rw [bind_def, h]

theorem bind_panic {α β} {x : Rm α} {f : α → Rm β} {s s' : RSt} (h : x s = (.panic, s')) :
    (x >>= f) s = (.panic, s') := by rw [bind_def, h]

theorem lift_ok_bind {α β} (a : α) (f : α → Rm β) : (lift (.ok a) >>= f) = f a := rfl
theorem lift_err_bind {α β} (e) (f : α → Rm β) (s : RSt) : (lift (.err e) >>= f) s = (.err e, s) := rfl
theorem lift_panic_bind {α β} (f : α → Rm β) (s : RSt) : (lift .panic >>= f) s = (.panic, s) := rfl

/-- If the whole succeeds, so do the parts. -/
theorem bind_eq_ok {α β} {x : Rm α} {f : α → Rm β} {s s' : RSt} {b : β} (h : (x >>= f) s = (.ok b, s')) :
    ∃ a s1, x s = (.ok a, s1) ∧ f a s1 = (.ok b, s') := by
  rw [bind_def] at h
  split at h
  · next a s1 hx => exact ⟨a, s1, hx, h⟩
  all_goals cases h

/-- Invariants of computations: a property of the state kept by all parts is kept by the whole. -/
def Keeps {α} (P : RSt → Prop) (x : Rm α) : Prop := ∀ s, P s → P (x s).2

theorem Keeps.bind {α β} {P : RSt → Prop} {x : Rm α} {f : α → Rm β} (hx : Keeps P x) (hf : ∀ a, Keeps P (f a)) :
    Keeps P (x >>= f) := by
  intro s hs
  have h1 := hx s hs
  rw [bind_def]
  split
  all_goals (rename_i hx'; rw [hx'] at h1)
  · exact hf _ _ h1
  all_goals exact h1

theorem Keeps.pure {α} {P : RSt → Prop} (a : α) : Keeps P (Pure.pure a : Rm α) := fun _ h => h
theorem Keeps.lift {α} {P : RSt → Prop} (a : Out α) : Keeps P (Rm.lift a : Rm α) := fun _ h => h

end Rm

/-- A pure computation does not end the process with a status. -/
def Out.NoExit {α} (x : Out α) : Prop := ∀ c, x ≠ .exit c

theorem Out.NoExit.bind {α β} {x : Out α} {f : α → Out β} (hx : x.NoExit) (hf : ∀ a, (f a).NoExit) :
    Out.NoExit (x >>= f) := by
  intro c h
  cases x with
  | ok a => exact hf a c h
  | exit c' => exact hx c' rfl
  | _ => cases h

theorem Out.NoExit.ok {α} (a : α) : Out.NoExit (.ok a) := fun _ h => nomatch h
theorem Out.NoExit.err {α} (e) : Out.NoExit (.err e : Out α) := fun _ h => nomatch h
theorem Out.NoExit.panic {α} : Out.NoExit (.panic : Out α) := fun _ h => nomatch h

theorem Out.NoExit.assert (b : Bool) : Out.NoExit (assert b) := by
  unfold TF.assert; split <;> (intro c h; cases h)
theorem Out.NoExit.ensure (b : Bool) (m) : Out.NoExit (ensure b m) := by
  unfold TF.ensure; split <;> (intro c h; cases h)

/-- Nor does a file-system computation. -/
def IOm.NoExit {α} (x : IOm α) : Prop := ∀ pl w c, (x pl w).1 ≠ .exit c

theorem IOm.NoExit.bind {α β} {x : IOm α} {f : α → IOm β} (hx : x.NoExit) (hf : ∀ a, (f a).NoExit) :
    IOm.NoExit (x >>= f) := by
  intro pl w c h
  change (IOm.bind x f pl w).1 = _ at h
  unfold IOm.bind at h
  have := hx pl w
  split at h
  · exact hf _ _ _ _ h
  · cases h
  · cases h
  · next c' s' hx' => exact this c' (by rw [hx'])
  · cases h

theorem IOm.NoExit.pure {α} (a : α) : IOm.NoExit (Pure.pure a : IOm α) := fun _ _ _ h => nomatch h
theorem IOm.NoExit.lift {α} {a : Out α} (h : a.NoExit) : IOm.NoExit (IOm.lift a) := fun _ _ c h' => h c h'
theorem IOm.NoExit.prim {α} {full : FS → Out (α × FS)} {part : Part → FS → FS} (h : ∀ fs, (full fs).NoExit) :
    IOm.NoExit (IOm.prim full part) := by
  intro pl w c h'
  unfold IOm.prim at h'
  split at h'
  · split at h'
    all_goals first | (cases h'; done) | skip
    next he => exact h _ _ he
  · cases h'
  · cases h'

/-- A computation that does not end the process with a status and only performs actions with property `P`. -/
def Plain {α} (P : Act → Prop) (x : Rm α) : Prop :=
  ∀ s, (∀ c, (x s).1 ≠ .exit c) ∧ ∃ l, (x s).2.acts = s.acts ++ l ∧ ∀ a ∈ l, P a

theorem Plain.bind {α β} {P} {x : Rm α} {f : α → Rm β} (hx : Plain P x) (hf : ∀ a, Plain P (f a)) :
    Plain P (x >>= f) := by
  intro s
  obtain ⟨h1, l1, h2, h3⟩ := hx s
  rw [Rm.bind_def]
  split
  all_goals (rename_i hx'; rw [hx'] at h1 h2)
  · obtain ⟨h4, l2, h5, h6⟩ := hf _ _
    refine ⟨h4, l1 ++ l2, by rw [h5, h2, List.append_assoc], fun a ha => ?_⟩
    rcases List.mem_append.mp ha with ha | ha
    · exact h3 a ha
    · exact h6 a ha
  · exact ⟨fun _ h => (nomatch h), l1, h2, h3⟩
  · exact ⟨fun _ h => (nomatch h), l1, h2, h3⟩
  · exact absurd rfl (h1 _)
  · exact ⟨fun _ h => (nomatch h), l1, h2, h3⟩

theorem Plain.pure {α} {P} (a : α) : Plain P (Pure.pure a : Rm α) := fun s => ⟨fun _ h => (nomatch h), [], by simp, by simp⟩
theorem Plain.lift {α} {P} {a : Out α} (h : a.NoExit) : Plain P (Rm.lift a) := fun s => ⟨h, [], by simp, by simp⟩
theorem Plain.io {α} {P} (y : Sys) {x : IOm α} (h : x.NoExit) : Plain P (Rm.io y x) :=
  fun s => ⟨fun c => h _ _ c, [], by simp [Rm.io], by simp⟩
theorem Plain.act {P : Act → Prop} {a : Act} (h : P a) : Plain P (Rm.act a) :=
  fun s => ⟨fun _ h => (nomatch h), [a], rfl, by simpa using h⟩
theorem Plain.command {P : Act → Prop} (y : Sys) {c : Cmd} (h : P (.command c)) : Plain P (Rm.command y c) :=
  fun s => ⟨fun _ h => (nomatch h), [.command c], rfl, by simpa using h⟩
theorem Plain.harness {P : Act → Prop} (lim : Nat) (y : Sys) {a e f i} (h : P (.harness a e f i)) :
    Plain P (Rm.harness lim y a e f i) :=
  fun s => ⟨fun _ h => (nomatch h), [.harness a e f i], rfl, by simpa using h⟩

theorem Plain.when {P : Act → Prop} {c : Bool} {x : Rm Unit} (h : Plain P x) : Plain P (Rm.when c x) := by
  unfold Rm.when
  split
  · exact h
  · exact .pure _

end TF
