import Mathlib.Data.List.Forall2
import Verif.Spec.Fuzz

/-! # Specification: what the fuzzing is, apart from what is shown of it (C83) -/

namespace TF.Spec

open TF

/-- Two records of a fuzzer that differ at most in the lines kept for the screen. -/
structure SameFuzzer (c c' : FChild) : Prop where
  unprinted : c.unprinted = c'.unprinted
  timeLimit : c.timeLimit = c'.timeLimit
  aborted : c.aborted = c'.aborted
  recv : c.recv = c'.recv
  lines : c.lines = c'.lines

/-- Both slots are empty, or both hold the same fuzzer. -/
inductive SameSlot : Option FChild → Option FChild → Prop
  | empty : SameSlot none none
  | fuzzer {c c' : FChild} : SameFuzzer c c' → SameSlot (some c) (some c')

/-- Two states that differ at most in what was or will be shown. -/
structure SameFuzzing (s s' : FState) : Prop where
  nChildren : s.nChildren = s'.nChildren
  iTask : s.iTask = s'.iTask
  iter : s.iter = s'.iter
  failed : s.failed = s'.failed
  log : s.log = s'.log
  children : List.Forall₂ SameSlot s.children s'.children

/-- The same work: targets, number of cpus and whether to exit early; how it is shown may differ. -/
structure SameWork (k k' : FCfg) : Prop where
  targets : k.targets = k'.targets
  nCpus : k.nCpus = k'.nCpus
  exitCode : k.exitCode = k'.exitCode

/-- The fuzzers and the operating system behave the same; the terminal may differ. -/
structure SameBehaviour (i i' : Inp) : Prop where
  spawnOk : i.spawnOk = i'.spawnOk
  poll : i.poll = i'.poll

/-- The same outcome, the results being related. -/
inductive SameOut {α β : Type} (R : α → β → Prop) : Out α → Out β → Prop
  | ok {a : α} {b : β} : R a b → SameOut R (.ok a) (.ok b)
  | err (e : Str) : SameOut R (.err e) (.err e)
  | panic : SameOut R .panic .panic
  | exit (c : Nat) : SameOut R (.exit c) (.exit c)
  | crash : SameOut R .crash .crash

/-- Both runs are still going on, or both have ended the same way. -/
inductive SameRun : Option (Out FState) → Option (Out FState) → Prop
  | running : SameRun none none
  | ended {r r' : Out FState} : SameOut SameFuzzing r r' → SameRun (some r) (some r')

end TF.Spec
