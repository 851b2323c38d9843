import Verif.Props.Success
import Verif.Props.FuzzOutput
import Verif.Props.FuzzCases

/-! # C98 with several targets: what the fuzzing loop did -/

namespace TF

open Spec

/-- **C98 (every target).** With several targets, or `--exit-code`, success means that there was a cpu for each of the
selected targets, that each was fuzzed by exactly one fuzzer, started in order, that all of these have ended, and that one
of the targets at least did not fail. (That all of them were fuzzed for long is not said: a target that fails is only
warned about.) -/
theorem C98_every_target (o : Opts) (ho : Wants o .fuzzing) (y : Sys) (s : RSt) (exes ets)
    (hexes : buildResult y.metadata (y.build s.world.fs).1 = .ok exes) (hets : executableTargets y.listing exes = .ok ets)
    (hmany : o.exitCode = true ∨ (pairs (selectTargets o ets)).length ≠ 1)
    (hloop : let k := loopConfig o y ((pairs (selectTargets o ets)).map Prod.snd); LoopResult k (y.loop k))
    (hok : (run o y s).1 = .ok ()) :
    let n := (pairs (selectTargets o ets)).length
    n ≤ y.numCpus ∧ ∃ st : FState, Reach (loopConfig o y ((pairs (selectTargets o ets)).map Prod.snd)) st ∧
      st.log.filterMap started = List.range n ∧ (∀ t < n, starts t st.log = 1 ∧ ends t st.log = 1) ∧
      ∃ t < n, ¬ HasFailed t st.log := by
  obtain ⟨h1, h2, h3, -⟩ := C98_loop o ho y s exes ets hexes hets hmany hok
  dsimp only at hloop
  have hn : (pairs (selectTargets o ets)).length =
      (loopConfig o y ((pairs (selectTargets o ets)).map Prod.snd)).targets.length := by
    simp [loopConfig]
  have hc : (loopConfig o y ((pairs (selectTargets o ets)).map Prod.snd)).nCpus ≤ y.numCpus := Nat.min_le_right _ _
  rw [h3] at hloop
  generalize loopConfig o y ((pairs (selectTargets o ets)).map Prod.snd) = k at *
  generalize hr : (Out.ok () : Out Unit) = r at hloop
  cases hloop with
  | @done st st' inp hreach hd =>
    obtain ⟨d1, d2, d3, d4⟩ := C36_done k st st' hreach inp hd
    obtain ⟨e1, e2, -⟩ := iterate_done hd
    intro n
    have hn : n = k.targets.length := hn
    rw [hn]
    refine ⟨by omega, st, hreach, d3, d4, ?_⟩
    by_contra hc
    push Not at hc
    exact e2 ((failed_all_iff (Inv.refresh hreach.inv e1)).mpr (by rw [d2]; exact hc))
  | err => cases hr
  | panic => cases hr
  | exit => cases hr

namespace SuccessDemo

/-- Two targets on two cpus. -/
def opts : Opts := { Demo.opts with cpus := some 2, noUi := true }

def sys : Sys := { Demo.sys2 with loop := fun _ => .ok () }

def config : FCfg := loopConfig opts sys [c%"a", c%"b"]

/-- The first fails, the second reaches its time limit. -/
theorem ends : LoopResult config (.ok ()) := by
  have h : (runInps config [quiet, quiet, evs [endEv 0 [] false, endEv 1 (limitLine ++ abortedLine) true]]
      (FState.init config)).map (fun s => match iterate config quiet s with | .ok (.done _) => true | _ => false) =
      some true := by decide +kernel
  obtain ⟨s, h1, h2⟩ := Option.map_eq_some_iff.mp h
  split at h2
  · next s' he => exact .done (reach_runInps (P := fun _ => True) .init (fun _ _ => trivial) h1).reach he
  · cases h2

/-- The hypotheses of `C98_every_target` hold. -/
example : Wants opts .fuzzing ∧ buildResult sys.metadata (sys.build Demo.fs2).1 = .ok [Demo.exe] ∧
    executableTargets sys.listing [Demo.exe] = .ok [(Demo.exe, [c%"a", c%"b"])] ∧
    pairs (selectTargets opts [(Demo.exe, [c%"a", c%"b"])]) = [(Demo.exe, c%"a"), (Demo.exe, c%"b")] ∧
    LoopResult config (sys.loop config) ∧ (run opts sys ⟨⟨Demo.fs2, 0⟩, []⟩).1 = .ok () := by
  refine ⟨.fuzzing rfl rfl (by unfold AsksStorage; decide) (by unfold AsksReplay; decide), by decide +kernel,
    by decide +kernel, by decide +kernel, ends, by decide +kernel⟩

end SuccessDemo

end TF
