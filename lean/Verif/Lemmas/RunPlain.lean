import Verif.Lemmas.Run

/-! No part of a command but the fuzzing loop ends the process with a status; which actions each part performs. -/

namespace TF

open Spec

/-! ### Pure parts -/

theorem targetDirectory_noExit (c : Ctx) (a b : Bool) : (targetDirectory c a b).NoExit := by
  unfold targetDirectory
  refine .bind (.assert _) fun _ => ?_
  split
  · exact .panic
  · exact .ok _

macro "dir_noexit" : tactic => `(tactic| (
  repeat first
    | exact Out.NoExit.ok _
    | exact Out.NoExit.err _
    | exact Out.NoExit.panic
    | exact targetDirectory_noExit _ _ _
    | exact Out.NoExit.assert _
    | exact Out.NoExit.ensure _ _
    | (refine Out.NoExit.bind ?_ fun _ => ?_)))

theorem corpusDir_noExit (c : Ctx) (k t) : (corpusDirFromTarget c k t).NoExit := by
  unfold corpusDirFromTarget corpusDirectory; dir_noexit
theorem genericArgsDir_noExit (c : Ctx) (k t) : (genericArgsDirFromTarget c k t).NoExit := by
  unfold genericArgsDirFromTarget genericArgsDirectory; dir_noexit
theorem implGenericArgsDir_noExit (c : Ctx) (k t) : (implGenericArgsDirFromTarget c k t).NoExit := by
  unfold implGenericArgsDirFromTarget implGenericArgsDirectory; dir_noexit
theorem outputDir_noExit (c : Ctx) (k t) : (outputDirFromTarget c k t).NoExit := by
  unfold outputDirFromTarget outputDirectory; dir_noexit
theorem crashesDir_noExit (c : Ctx) (k t) : (crashesDirFromTarget c k t).NoExit := by
  unfold crashesDirFromTarget; exact .bind (outputDir_noExit _ _ _) fun _ => .ok _
theorem hangsDir_noExit (c : Ctx) (k t) : (hangsDirFromTarget c k t).NoExit := by
  unfold hangsDirFromTarget; exact .bind (outputDir_noExit _ _ _) fun _ => .ok _
theorem queueDir_noExit (c : Ctx) (k t) : (queueDirFromTarget c k t).NoExit := by
  unfold queueDirFromTarget; exact .bind (outputDir_noExit _ _ _) fun _ => .ok _

theorem flagsAndDir_noExit (c : Ctx) (ob k t) : (flagsAndDir c ob k t).NoExit := by
  unfold flagsAndDir
  split
  all_goals refine Out.NoExit.bind ?_ fun _ => .ok _
  all_goals first
    | exact corpusDir_noExit _ _ _ | exact crashesDir_noExit _ _ _ | exact hangsDir_noExit _ _ _
    | exact queueDir_noExit _ _ _ | exact implGenericArgsDir_noExit _ _ _ | exact genericArgsDir_noExit _ _ _

theorem chooseFlagsAndDir_noExit (o : Opts) (c : Ctx) (k t) : (chooseFlagsAndDir o c k t).NoExit := by
  unfold chooseFlagsAndDir
  repeat' split
  all_goals first | exact flagsAndDir_noExit _ _ _ _ | exact .ok _

theorem checkObjects_noExit (o : Opts) : (checkObjects o).NoExit := by
  unfold checkObjects
  refine .bind ?_ fun _ => ?_
  · unfold checkCoverage
    split
    · exact .ensure _ _
    · exact .ok _
  · unfold checkReplay
    split
    · exact .ensure _ _
    · exact .ok _

theorem command_noExit (l as) : (command l as).NoExit := by
  unfold command; split
  · exact .panic
  · exact .ok _

theorem llvmEnvs_noExit (o : Opts) (t n s) : (llvmEnvs o t n s).NoExit := by
  unfold llvmEnvs
  split
  · exact .ok _
  · split
    · exact .panic
    · next ls =>
      induction ls with
      | nil => exact .ok _
      | cons l ls ih =>
        unfold llvmEnvLines
        refine .bind ?_ fun _ => .bind ih fun _ => .ok _
        unfold llvmEnvLine
        split
        · exact .panic
        · exact .ok _

theorem package_noExit (m : Metadata) (id) : (package m id).NoExit := by
  unfold package; split
  · exact .ok _
  · exact .err _

theorem packageDependency_noExit (m : Metadata) (id n) : (packageDependency m id n).NoExit := by
  unfold packageDependency
  split
  · exact .err _
  · split
    · exact .err _
    · next node _ =>
      refine .bind ?_ fun _ => .ok _
      generalize node.dependencies = ids
      induction ids with
      | nil => exact .ok _
      | cons i is ih =>
        unfold idsAndNames
        exact .bind (.bind (package_noExit _ _) fun _ => .ok _) fun _ => .bind ih fun _ => .ok _

theorem versions_noExit (m : Metadata) (id) : (testFuzzAndAflVersions m id).NoExit := by
  unfold testFuzzAndAflVersions
  refine .bind (packageDependency_noExit _ _ _) fun _ => ?_
  split
  · exact .ok _
  · refine .bind (packageDependency_noExit _ _ _) fun _ => .bind (.bind (package_noExit _ _) fun _ => .ok _) fun _ => ?_
    split
    · exact .ok _
    · exact .bind (.bind (package_noExit _ _) fun _ => .ok _) fun _ => .ok _

theorem buildResult_noExit (m : Metadata) (r) : (buildResult m r).NoExit := by
  unfold buildResult
  split
  · exact .err _
  · exact .err _
  · exact .err _
  · exact .err _
  · next msgs =>
    induction msgs with
    | nil => exact .ok _
    | cons x xs ih =>
      unfold executablesOf
      split
      · next h => cases h
      · next h => cases h; exact .bind (versions_noExit _ _) fun _ => .bind ih fun _ => .ok _
      · next h => cases h; exact ih

theorem executableTargets_noExit (run es) : (executableTargets run es).NoExit := by
  unfold executableTargets
  refine .bind ?_ fun _ => .ok _
  induction es with
  | nil => exact .ok _
  | cons e es ih =>
    unfold allTargets
    refine .bind ?_ fun _ => .bind ih fun _ => .ok _
    unfold targets
    split
    · exact .err _
    · next b _ =>
      generalize splitNl b = ls
      induction ls with
      | nil => exact .ok _
      | cons l ls ih =>
        unfold targetsLoop
        split
        · exact .err _
        · refine .bind ih fun _ => ?_
          split <;> exact .ok _

theorem checkVersions_noExit (a b l) : (checkVersions a b l).NoExit := by
  have h : ∀ d v, (checkDependencyVersion d v).NoExit := by
    intro d v
    unfold checkDependencyVersion
    repeat' split
    all_goals first | exact .ok _ | exact .err _ | exact .bind (.ensure _ _) fun _ => .ok _
  induction l with
  | nil => exact .ok _
  | cons e es ih =>
    unfold checkVersions
    exact .bind (h _ _) fun _ => .bind (h _ _) fun _ => ih

theorem flatten_noExit (o ets) : (flattenExecutableTargets o ets).NoExit := by
  unfold flattenExecutableTargets
  exact .bind (.ensure _ _) fun _ => .ok _

theorem fuzzCommand_noExit (k o c l cfg e t) : (fuzzCommand k o c l cfg e t).NoExit := by
  unfold fuzzCommand
  refine .bind (corpusDir_noExit _ _ _) fun _ => .bind (outputDir_noExit _ _ _) fun _ => .bind ?_ fun _ =>
    .bind (command_noExit _ _) fun _ => .ok _
  unfold timeoutArgs
  split
  · refine .bind ?_ fun _ => .ok _
    unfold mulU64
    repeat' split
    all_goals first | exact .ok _ | exact .panic
  · exact .ok _

theorem autoGenerateCommand_noExit (l e t) : (autoGenerateCommand l e t).NoExit := by
  unfold autoGenerateCommand
  exact .bind (command_noExit _ _) fun _ => .ok _

theorem fuzzSetup_noExit (o n t v) : (fuzzSetup o n t v).NoExit := by
  unfold fuzzSetup
  refine .bind (.ensure _ _) fun _ => ?_
  dsimp only
  split
  · exact .bind (.ensure _ _) fun _ => .ok _
  · exact .ok _

/-! ### File-system parts -/

theorem pathExists_noExit (p) : (pathExists p).NoExit := by
  intro pl w c h
  unfold pathExists at h
  split at h <;> cases h

theorem createDirAll_noExit (p) : (createDirAll p).NoExit := by
  unfold createDirAll
  refine .prim fun fs => ?_
  split
  · exact .ok _
  · exact .err _

theorem writeFile_noExit (p d) : (writeFile p d).NoExit := by
  unfold writeFile
  refine .prim fun fs => ?_
  split
  · exact .err _
  · exact .ok _

theorem readFile_noExit (p) : (readFile p).NoExit := by
  unfold readFile
  refine .prim fun fs => ?_
  split
  · exact .ok _
  · exact .err _

theorem openEntry_noExit (p) : (openEntry p).NoExit := by
  unfold openEntry
  refine .prim fun fs => ?_
  split
  · exact .ok _
  · exact .ok _
  · exact .err _

theorem readDir_noExit (ls p) : (readDir ls p).NoExit := by
  unfold readDir
  refine .prim fun fs => ?_
  split
  · exact .ok _
  · exact .err _

theorem removeDirAll_noExit (p) : (removeDirAll p).NoExit := by
  unfold removeDirAll
  refine .prim fun fs => ?_
  split
  · exact .ok _
  · exact .err _

theorem ignore_noExit {x : IOm Unit} (h : x.NoExit) : (IOm.ignore x).NoExit := by
  intro pl w c h'
  have := h pl w c
  unfold IOm.ignore at h'
  split at h'
  · cases h'
  · exact this h'

theorem fuzzCommandIO_noExit (k o c l cfg e t) : (fuzzCommandIO k o c l cfg e t).NoExit := by
  unfold fuzzCommandIO
  exact .bind (.lift (outputDir_noExit _ _ _)) fun _ => .bind (ignore_noExit (createDirAll_noExit _)) fun _ =>
    .lift (fuzzCommand_noExit _ _ _ _ _ _ _)

theorem writeData_noExit (d b) : (writeData d b).NoExit := by
  unfold writeData
  exact .bind (ignore_noExit (createDirAll_noExit _)) fun _ => writeFile_noExit _ _

theorem consolidateDir_noExit (ls c d) : (consolidateDir ls c d).NoExit := by
  unfold consolidateDir
  refine .bind (readDir_noExit _ _) fun names => ?_
  induction names with
  | nil => exact .pure _
  | cons n ns ih =>
    unfold consolidateEntries
    split
    · exact ih
    · exact .bind (readFile_noExit _) fun _ => .bind (writeData_noExit _ _) fun _ => ih

theorem consolidate_noExit (o c ls ets) : (consolidate o c ls ets).NoExit := by
  unfold consolidate
  refine .bind (.lift (.assert _)) fun _ => ?_
  induction ets with
  | nil => exact .pure _
  | cons e es ih =>
    obtain ⟨e, ts⟩ := e
    unfold consolidateLoop
    refine .bind (.lift (.assert _)) fun _ => .bind ?_ fun _ => ih
    induction ts with
    | nil => exact .pure _
    | cons t ts ih =>
      unfold consolidateTargets
      refine .bind ?_ fun _ => ih
      unfold consolidateTarget
      exact .bind (.lift (corpusDir_noExit _ _ _)) fun _ => .bind (.lift (crashesDir_noExit _ _ _)) fun _ =>
        .bind (.lift (hangsDir_noExit _ _ _)) fun _ => .bind (.lift (queueDir_noExit _ _ _)) fun _ =>
        .bind (consolidateDir_noExit _ _ _) fun _ => .bind (consolidateDir_noExit _ _ _) fun _ =>
        consolidateDir_noExit _ _ _

theorem reset_noExit (o c ets) : (reset o c ets).NoExit := by
  unfold reset
  refine .bind (.lift (.assert _)) fun _ => ?_
  induction ets with
  | nil => exact .pure _
  | cons e es ih =>
    obtain ⟨e, ts⟩ := e
    unfold resetLoop
    refine .bind (.lift (.assert _)) fun _ => .bind ?_ fun _ => ih
    induction ts with
    | nil => exact .pure _
    | cons t ts ih =>
      unfold resetTargets
      refine .bind ?_ fun _ => ih
      unfold resetTarget
      refine .bind (.lift (outputDir_noExit _ _ _)) fun _ => .bind (pathExists_noExit _) fun _ => ?_
      split
      · exact .pure _
      · exact removeDirAll_noExit _

theorem storage_noExit (o c ls ets) : (storage o c ls ets).NoExit := by
  unfold storage
  split
  · dsimp only
    split
    · exact .bind (consolidate_noExit _ _ _ _) fun _ => reset_noExit _ _ _
    · exact reset_noExit _ _ _
  · dsimp only
    split
    · exact .bind (consolidate_noExit _ _ _ _) fun _ => reset_noExit _ _ _
    · exact reset_noExit _ _ _

/-! ### Parts of the command -/

variable {P : Act → Prop}

theorem build_plain (o : Opts) (y : Sys) (q : Bool) (hP : ∀ a b, P (.build a b)) : Plain P (build o y q) := by
  unfold build
  refine .bind (.lift (targetDirectory_noExit _ _ _)) fun dir => .bind (.act (hP _ _)) fun _ => ?_
  intro s
  exact ⟨fun c => buildResult_noExit _ _ c, [], by simp, by simp⟩

theorem listTargets_plain (y : Sys) (es) (hP : ∀ a, P (.listTests a)) : Plain P (listTargets y es) := by
  intro s
  refine ⟨fun c => executableTargets_noExit _ _ c, _, rfl, fun a ha => ?_⟩
  obtain ⟨e, -, rfl⟩ := List.mem_map.mp ha
  exact hP _

theorem runEntry_plain (lim : Nat) (y : Sys) (f a e p i) (hP : P (.harness a e p i)) (hw : P .wait) (hk : P .kill) :
    Plain P (runEntry lim y f a e p i) := by
  unfold runEntry
  split
  · split
    · exact .pure _
    · exact .lift (.err _)
  · refine .bind (.harness _ _ hP) fun r => ?_
    split
    · exact .lift (.err _)
    · exact .lift (.err _)
    · refine .bind (.act hw) fun _ => ?_
      split
      · exact .lift (.err _)
      · exact .pure _
    · refine .bind (.act hk) fun _ => ?_
      split
      · exact .lift (.err _)
      · refine .bind (.act hw) fun _ => ?_
        split
        · exact .lift (.err _)
        · exact .pure _
    · refine .bind (.act hk) fun _ => ?_
      split
      · exact .lift (.err _)
      · exact .lift (.err _)

theorem reportEntry_plain (f n b st se) (hP : ∀ r, P (.report r)) : Plain P (reportEntry f n b st se) := by
  unfold reportEntry
  exact .bind (.act (hP _)) fun _ => .pure _

theorem closing_plain (o se) (hP : ∀ r, P (.note r)) : Plain P (closing o se) := by
  unfold closing
  refine .bind (.lift (.assert _)) fun _ => ?_
  split
  · exact .act (hP _)
  · split
    · exact .act (hP _)
    · split
      · exact .act (hP _)
      · exact .pure _

/-- Actions of displaying, replaying and measuring coverage. -/
def ReplayAct : Act → Prop
  | .harness .. | .kill | .wait | .report _ | .note _ | .heading .. | .command _ => True
  | _ => False

theorem entriesLoop_plain (lim : Nat) (y : Sys) (f a e d ns se) : Plain ReplayAct (entriesLoop lim y f a e d ns se) := by
  induction ns generalizing se with
  | nil => exact .pure _
  | cons n ns ih =>
    unfold entriesLoop
    refine .bind (.io _ (openEntry_noExit _)) fun input => ?_
    split
    · exact ih _
    · refine .bind (runEntry_plain _ _ _ _ _ _ _ trivial trivial trivial) fun x => ?_
      obtain ⟨b, st⟩ := x
      exact .bind (reportEntry_plain _ _ _ _ _ fun _ => trivial) fun _ => ih _

theorem forEachEntry_plain (o : Opts) (y : Sys) (e t f d) : Plain ReplayAct (forEachEntry o y e t f d) := by
  unfold forEachEntry
  exact .bind (.io _ (pathExists_noExit _)) fun _ => .bind (.lift (.ensure _ _)) fun _ =>
    .bind (.io _ (readDir_noExit _ _)) fun _ => .bind (entriesLoop_plain _ _ _ _ _ _ _ _) fun _ =>
    closing_plain _ _ fun _ => trivial

theorem mustSucceed_plain (y : Sys) (c) (hP : P (.command c)) : Plain P (mustSucceed y c) := by
  unfold mustSucceed
  refine .bind (.command _ hP) fun r => ?_
  split
  · exact .lift (.err _)
  · exact .lift (.ensure _ _)

theorem widthSearch_cases (vis : Bytes → Nat) (b : Bytes) (width : Nat) : ∀ (n min max : Nat), max - min = n →
    widthSearch vis b width min max = .panic ∨ ∃ r, widthSearch vis b width min max = .ok r := by
  intro n
  induction n using Nat.strongRecOn with
  | ind n ih =>
    intro min max hn
    rw [widthSearch]
    split
    · simp only
      unfold sliceTo
      by_cases hb : isBoundary b ((min + max) / 2) = true
      · rw [if_pos hb]
        simp only
        split
        · exact ih _ (by omega) _ _ rfl
        · exact ih _ (by omega) _ _ rfl
      · rw [if_neg hb]
        exact .inl rfl
    · split
      · exact .inr ⟨_, rfl⟩
      · exact .inl rfl

theorem headingText_cases (y : Sys) (target : Str) : headingText y target = .panic ∨ ∃ d, headingText y target = .ok d := by
  unfold headingText dividerWithWidth prefixWithWidth
  simp only
  split
  · rcases widthSearch_cases y.vis (utf8Encode target ++ [32]) _ _ 0 _ rfl with h | ⟨r, h⟩
    · exact .inl (by rw [h]; rfl)
    · rw [h, Out.ok_bind]
      unfold sliceTo
      split
      · exact .inr ⟨_, rfl⟩
      · exact .inl rfl
  · exact .inr ⟨_, rfl⟩

theorem headingText_noExit (y : Sys) (target : Str) : (headingText y target).NoExit := by
  rcases headingText_cases y target with h | ⟨d, h⟩ <;> rw [h]
  · exact .panic
  · exact .ok _

theorem replayLoop_plain (o : Opts) (y : Sys) (m l) : Plain ReplayAct (replayLoop o y m l) := by
  induction l with
  | nil => exact .pure _
  | cons x l ih =>
    obtain ⟨exe, target⟩ := x
    unfold replayLoop printHeading
    exact .bind (.when (.bind (.lift (headingText_noExit _ _)) fun _ => .act trivial)) fun _ => .bind (.lift (chooseFlagsAndDir_noExit _ _ _ _)) fun _ =>
      .bind (forEachEntry_plain _ _ _ _ _ _) fun _ => ih

theorem replayAll_plain (o : Opts) (y : Sys) (l ets) : Plain ReplayAct (replayAll o y l ets) := by
  unfold replayAll coverageClean coverageReport
  refine .bind (.when (.bind (.lift (command_noExit _ _)) fun _ => mustSucceed_plain _ _ trivial)) fun _ =>
    .bind (.lift (flatten_noExit _ _)) fun _ => .bind (replayLoop_plain _ _ _ _) fun _ =>
    .when (.bind ?_ fun _ => .bind (.lift (command_noExit _ _)) fun _ => mustSucceed_plain _ _ trivial)
  unfold coverageWarning
  split
  · exact .lift (.err _)
  · exact .when (.act trivial)

theorem storageAll_plain (o : Opts) (y : Sys) (ets) (h1 : P (.consolidate ets)) (h2 : P (.reset ets)) :
    Plain P (storageAll o y ets) := by
  unfold storageAll
  exact .bind (.when (.act h1)) fun _ => .bind (.act h2) fun _ => .io _ (storage_noExit _ _ _ _)

theorem autoGenerateLoop_plain (y : Sys) (l ets errs) (hc : ∀ c, P (.command c)) (hn : ∀ n, P (.note n)) :
    Plain P (autoGenerateLoop y l ets errs) := by
  induction ets generalizing errs with
  | nil => exact .pure _
  | cons x ets ih =>
    obtain ⟨exe, target⟩ := x
    unfold autoGenerateLoop
    refine .bind (.lift (corpusDir_noExit _ _ _)) fun _ => .bind (.io _ (pathExists_noExit _)) fun _ => ?_
    split
    · exact ih _
    · refine .bind (.act (hn _)) fun _ => .bind ?_ fun e => ?_
      · unfold autoGenerateCorpus
        refine .bind (.lift (autoGenerateCommand_noExit _ _ _)) fun _ => .bind (.command _ (hc _)) fun _ => ?_
        split <;> exact .pure _
      · split
        · exact ih _
        · refine .bind (.io _ (pathExists_noExit _)) fun _ => ?_
          split
          · exact ih _
          · exact .bind (.act (hn _)) fun _ => ih _

theorem autoGenerateCorpora_plain (y : Sys) (l ets) (hc : ∀ c, P (.command c)) (hn : ∀ n, P (.note n)) :
    Plain P (autoGenerateCorpora y l ets) := by
  unfold autoGenerateCorpora
  refine .bind (autoGenerateLoop_plain _ _ _ _ hc hn) fun _ => ?_
  split
  · exact .pure _
  · exact .lift (.err _)

end TF
