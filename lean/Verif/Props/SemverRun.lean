import Verif.Props.SemverText
import Verif.Props.RunCases

/-!
# C25 for the whole command: nothing is done with crates that do not suit the tools
-/

namespace TF

open Spec Semver

theorem suits_iff (dep : Option Version) (tool : Version) :
    (∃ h, checkDependencyVersion dep tool = .ok h) ↔ Suits dep tool := by
  unfold Suits
  cases dep with
  | none =>
    obtain ⟨e, he⟩ := C25_missing_dependency tool
    rw [he]
    simp
  | some d =>
    simp only [C25_check, Option.some.injEq, exists_eq_left']
    constructor
    · rintro ⟨h, h1, -⟩; exact h1
    · intro h
      by_cases ha : Allows d tool
      · exact ⟨.none, h, by simp [ha]⟩
      · exact ⟨.upgrade, h, by simp [ha]⟩

/-- What is known when the preparations have succeeded. -/
theorem prepare_ok {o : Opts} {y : Sys} {s s' : RSt} {x : List (Str × Str) × List (Exe × List Str)}
    (h : prepare o y s = (.ok x, s')) :
    ∃ cafl exes ets, cargoAflVersion y.aflOutput = some cafl ∧ buildResult y.metadata (y.build s.world.fs).1 = .ok exes ∧
      executableTargets y.listing exes = .ok ets ∧ x.2 = selectTargets o ets ∧
      checkVersions y.ctf cafl ((selectTargets o ets).map fun x => x.1.versions) = .ok () ∧
      s'.world = ⟨(y.build s.world.fs).2, s.world.tick⟩ := by
  unfold prepare at h
  obtain ⟨_, s1, h1, h⟩ := Rm.bind_eq_ok h
  simp only [Rm.lift_run, Prod.mk.injEq] at h1
  obtain ⟨-, rfl⟩ := h1
  rw [Rm.bind_ok (Rm.act_run _ _)] at h
  unfold gather at h
  obtain ⟨cafl, s2, h1, h⟩ := Rm.bind_eq_ok h
  simp only [Rm.lift_run, Prod.mk.injEq] at h1
  obtain ⟨ha, rfl⟩ := h1
  obtain ⟨_, s2, h1, h⟩ := Rm.bind_eq_ok h
  simp only [Rm.lift_run, Prod.mk.injEq] at h1
  obtain ⟨-, rfl⟩ := h1
  obtain ⟨_, s2, h1, h⟩ := Rm.bind_eq_ok h
  simp only [Rm.lift_run, Prod.mk.injEq] at h1
  obtain ⟨-, rfl⟩ := h1
  obtain ⟨_, s2, h1, h⟩ := Rm.bind_eq_ok h
  simp only [Rm.lift_run, Prod.mk.injEq] at h1
  obtain ⟨-, rfl⟩ := h1
  obtain ⟨exes, s2, h1, h⟩ := Rm.bind_eq_ok h
  unfold build at h1
  obtain ⟨_, s3, h2, h1⟩ := Rm.bind_eq_ok h1
  simp only [Rm.lift_run, Prod.mk.injEq] at h2
  obtain ⟨-, rfl⟩ := h2
  obtain ⟨_, s3, h2, h1⟩ := Rm.bind_eq_ok h1
  simp only [Rm.act_run, Prod.mk.injEq] at h2
  obtain ⟨-, rfl⟩ := h2
  simp only [Prod.mk.injEq] at h1
  obtain ⟨hb, rfl⟩ := h1
  obtain ⟨ets, s3, h2, h⟩ := Rm.bind_eq_ok h
  simp only [listTargets, Prod.mk.injEq] at h2
  obtain ⟨hx, rfl⟩ := h2
  obtain ⟨_, s4, h3, h⟩ := Rm.bind_eq_ok h
  simp only [Rm.lift_run, Prod.mk.injEq] at h3
  obtain ⟨hc, rfl⟩ := h3
  simp only [Rm.pure_run, Prod.mk.injEq, Out.ok.injEq] at h
  obtain ⟨rfl, rfl⟩ := h
  refine ⟨cafl, exes, ets, ?_, hb, hx, rfl, hc, rfl⟩
  unfold mustHave at ha
  split at ha
  · cases ha
  · next hv => rw [hv]; cases ha; rfl

/-- **C25 (the whole command).** Either the test executables of this build with selected targets all suit the tools, that
is, the version of test-fuzz that each depends on suits cargo-test-fuzz, and its version of afl suits cargo-afl; or
nothing but looking happens, and the process does not end with status zero. -/
theorem C25_run (o : Opts) (y : Sys) (s : RSt) :
    (∃ cafl exes ets, cargoAflVersion y.aflOutput = some cafl ∧ buildResult y.metadata (y.build s.world.fs).1 = .ok exes ∧
      executableTargets y.listing exes = .ok ets ∧
      ∀ x ∈ selectTargets o ets, Suits x.1.versions.testFuzzVersion y.ctf ∧ Suits x.1.versions.aflVersion cafl) ∨
    ((∃ l, (run o y s).2.acts = s.acts ++ l ∧ ∀ a ∈ l, Looks a) ∧ processStatus (run o y s).1 ≠ some 0) := by
  have e2 : ∀ ets, selectTargets (effectiveOpts o) ets = selectTargets o ets := by
    intro ets
    unfold effectiveOpts; split <;> rfl
  have hplain := prepare_plain (effectiveOpts o) y (P := Looks) (fun _ h => h) s
  rcases hp : prepare (effectiveOpts o) y s with ⟨r, s'⟩
  have bad : (∀ x, r ≠ .ok x) → ((∃ l, (run o y s).2.acts = s.acts ++ l ∧ ∀ a ∈ l, Looks a) ∧
      processStatus (run o y s).1 ≠ some 0) := by
    intro hr
    rw [hp] at hplain
    obtain ⟨h1, h2⟩ := hplain
    simp only at h1 h2
    unfold run runWithoutExitCode
    rw [Rm.bind_def, hp]
    cases r with
    | ok x => exact absurd rfl (hr x)
    | err e =>
      simp only
      split
      · exact ⟨h2, by simp [processStatus]⟩
      · exact ⟨h2, by simp [processStatus]⟩
    | panic => exact ⟨h2, by simp [processStatus]⟩
    | exit c => exact absurd rfl (h1 c)
    | crash => exact ⟨h2, by simp [processStatus]⟩
  by_cases hr : ∃ x, r = .ok x
  · obtain ⟨x, rfl⟩ := hr
    obtain ⟨cafl, exes, ets, h1, h2, h3, -, h5, -⟩ := prepare_ok hp
    refine .inl ⟨cafl, exes, ets, h1, h2, h3, fun z hz => ?_⟩
    rw [e2] at h5
    have := (C25_all_checked _ _ _).mp h5 _ (List.mem_map_of_mem hz)
    exact ⟨(suits_iff _ _).mp this.1, (suits_iff _ _).mp this.2⟩
  · exact .inr (bad fun x h => hr ⟨x, h⟩)

/-- Non-vacuity of C25 for the command: with another version of cargo-afl the second case arises, and the first does not
hold. -/
example : (run Demo.opts { Demo.sys with aflOutput := some c%"cargo-afl 0.9.0\n" } Demo.start).1 = .err c%"incompatible" ∧
    cargoAflVersion Demo.sys.aflOutput = some Demo.v1 := by
  decide +kernel

end TF
