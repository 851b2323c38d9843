import Verif.Spec.Run
import Verif.Props.Run

/-! # The build: C62 -/

namespace TF

namespace Spec

/-- The arguments that belong together, each present exactly if the option is given. -/
inductive BuildOption (o : Opts) (dir : Str) : List Str → Prop
  | noDefault : o.noDefaultFeatures = true → BuildOption o dir [c%"--no-default-features"]
  | features {f} : f ∈ o.features → BuildOption o dir [c%"--features", f]
  | release : o.release = true → BuildOption o dir [c%"--release"]
  | targetDir : includeCoverage o = true ∨ includeFuzzing o = true → BuildOption o dir [c%"--target-dir", dir]
  | manifest {p} : o.manifestPath = some p → BuildOption o dir [c%"--manifest-path", p]
  | package {p} : o.package = some p → BuildOption o dir [c%"--package", p]
  | persistent : o.persistent = true → BuildOption o dir [c%"--features", c%"test-fuzz/__persistent"]
  | test {n} : o.test = some n → BuildOption o dir [c%"--test", n]

/-- The value of a `--features` option. -/
def featureOf : List Str → Option Str
  | [k, v] => if k = c%"--features" then some v else none
  | _ => none

/-- A test executable among the compiler artifacts: its path and its name. -/
def testArtifact : Message → Option (Str × Str)
  | .artifact _ name true (some path) => some (path, name)
  | _ => none

end Spec

open Spec

/-- The groups of arguments in the order of the code. -/
def buildGroups (o : Opts) (dir : Str) : List (List Str) :=
  (if o.noDefaultFeatures then [[c%"--no-default-features"]] else []) ++
  o.features.map (fun f => [c%"--features", f]) ++
  (if o.release then [[c%"--release"]] else []) ++
  (if includeCoverage o || includeFuzzing o then [[c%"--target-dir", dir]] else []) ++
  (match o.manifestPath with | some p => [[c%"--manifest-path", p]] | none => []) ++
  (match o.package with | some p => [[c%"--package", p]] | none => []) ++
  (if o.persistent then [[c%"--features", c%"test-fuzz/__persistent"]] else []) ++
  (match o.test with | some n => [[c%"--test", n]] | none => [])

theorem buildArgs_groups (o : Opts) (dir : Str) :
    buildArgs o dir = (if includeFuzzing o then [c%"afl"] else []) ++ [c%"test", c%"--no-run"] ++
      (buildGroups o dir).flatten := by
  unfold buildArgs buildGroups
  simp only [List.flatten_append, List.flatMap_def, List.append_assoc]
  cases o.noDefaultFeatures <;> cases o.release <;> cases (includeCoverage o || includeFuzzing o) <;>
    cases o.persistent <;> rcases o.manifestPath with _ | _ <;> rcases o.package with _ | _ <;> rcases o.test with _ | _ <;>
    rfl

theorem featureOf_one (x : Str) : featureOf [x] = none := rfl
theorem featureOf_dir (x : Str) : featureOf [c%"--target-dir", x] = none :=
  show (if c%"--target-dir" = c%"--features" then some x else none) = none from if_neg (by decide)
theorem featureOf_manifest (x : Str) : featureOf [c%"--manifest-path", x] = none :=
  show (if c%"--manifest-path" = c%"--features" then some x else none) = none from if_neg (by decide)
theorem featureOf_package (x : Str) : featureOf [c%"--package", x] = none :=
  show (if c%"--package" = c%"--features" then some x else none) = none from if_neg (by decide)
theorem featureOf_test (x : Str) : featureOf [c%"--test", x] = none :=
  show (if c%"--test" = c%"--features" then some x else none) = none from if_neg (by decide)
theorem featureOf_feature (x : Str) : featureOf [c%"--features", x] = some x :=
  show (if c%"--features" = c%"--features" then some x else none) = some x from if_pos rfl
theorem featureOf_persistent : featureOf [c%"--features", c%"test-fuzz/__persistent"] = some c%"test-fuzz/__persistent" :=
  featureOf_feature _

/-- The build is `cargo test --no-run`, through afl exactly if instrumented for fuzzing, with exactly the options that
were given; the features keep their order and number (and are followed by the one for --persistent), no other option is repeated. -/
theorem C62_command (o : Opts) (dir : Str) :
    ∃ groups : List (List Str), buildArgs o dir = (if includeFuzzing o then [c%"afl"] else []) ++ [c%"test", c%"--no-run"] ++ groups.flatten ∧
      (∀ g, g ∈ groups ↔ BuildOption o dir g) ∧
      groups.filterMap featureOf = o.features ++ (if o.persistent then [c%"test-fuzz/__persistent"] else []) ∧
      ((groups.filter fun g => (featureOf g).isNone).map List.head?).Nodup := by
  refine ⟨buildGroups o dir, buildArgs_groups o dir, fun g => ⟨fun h => ?_, fun h => ?_⟩, ?_, ?_⟩
  · unfold buildGroups at h
    simp only [List.mem_append] at h
    rcases h with ((((((h | h) | h) | h) | h) | h) | h) | h
    · split at h
      · next hx => rw [List.mem_singleton] at h; subst h; exact .noDefault hx
      · cases h
    · obtain ⟨f, hf, rfl⟩ := List.mem_map.mp h; exact .features hf
    · split at h
      · next hx => rw [List.mem_singleton] at h; subst h; exact .release hx
      · cases h
    · split at h
      · next hx => rw [List.mem_singleton] at h; subst h; exact .targetDir (by simpa using hx)
      · cases h
    · split at h
      · next hx => rw [List.mem_singleton] at h; subst h; exact .manifest hx
      · cases h
    · split at h
      · next hx => rw [List.mem_singleton] at h; subst h; exact .package hx
      · cases h
    · split at h
      · next hx => rw [List.mem_singleton] at h; subst h; exact .persistent hx
      · cases h
    · split at h
      · next hx => rw [List.mem_singleton] at h; subst h; exact .test hx
      · cases h
  · unfold buildGroups
    simp only [List.mem_append]
    cases h with
    | noDefault h => simp [h]
    | features h => exact Or.inl (Or.inl (Or.inl (Or.inl (Or.inl (Or.inl (Or.inr (List.mem_map.mpr ⟨_, h, rfl⟩)))))))
    | release h => simp [h]
    | targetDir h => simp [h]
    | manifest h => simp [h]
    | package h => simp [h]
    | persistent h => simp [h]
    | test h => simp [h]
  · have hmap : (o.features.map fun f => [c%"--features", f]).filterMap featureOf = o.features := by
      rw [List.filterMap_map]
      have : (featureOf ∘ fun f => [c%"--features", f]) = some := by funext f; exact featureOf_feature f
      rw [this, List.filterMap_some]
    unfold buildGroups
    simp only [List.filterMap_append, hmap]
    cases o.noDefaultFeatures <;> cases o.release <;> cases (includeCoverage o || includeFuzzing o) <;>
      cases o.persistent <;> rcases o.manifestPath with _ | _ <;> rcases o.package with _ | _ <;> rcases o.test with _ | _ <;>
      simp only [if_true, if_false, Bool.false_eq_true, List.filterMap_cons, List.filterMap_nil, featureOf_one,
        featureOf_dir, featureOf_manifest, featureOf_package, featureOf_test, featureOf_persistent, List.append_nil,
        List.nil_append]
  · have hmap : (o.features.map fun f => [c%"--features", f]).filter (fun g => (featureOf g).isNone) = [] := by
      rw [List.filter_eq_nil_iff]
      intro g hg
      obtain ⟨f, -, rfl⟩ := List.mem_map.mp hg
      rw [featureOf_feature]
      simp
    have hsub : (((buildGroups o dir).filter fun g => (featureOf g).isNone).map List.head?).Sublist
        ([c%"--no-default-features", c%"--release", c%"--target-dir", c%"--manifest-path", c%"--package",
          c%"--test"].map some) := by
      unfold buildGroups
      simp only [List.filter_append, List.map_append, hmap, List.map_nil, List.append_nil]
      have hp : ((if o.persistent then [[c%"--features", c%"test-fuzz/__persistent"]] else []).filter
          fun g => (featureOf g).isNone) = [] := by
        cases o.persistent
        · rfl
        · rw [if_pos rfl, List.filter_cons, featureOf_persistent]; rfl
      rw [hp, List.map_nil, List.append_nil]
      have one : ∀ (c : Bool) (x : List Str) (k : Str), x.head? = some k →
          (((if c then [x] else []).filter fun g => (featureOf g).isNone).map List.head?).Sublist [some k] := by
        intro c x k hk
        cases c
        · simp
        · rw [if_pos rfl, List.filter_cons]
          split
          · simp [hk]
          · simp
      have two : ∀ (c : Option Str) (k : Str),
          (((match c with | some p => [[k, p]] | none => []).filter fun g => (featureOf g).isNone).map List.head?).Sublist
            [some k] := by
        intro c k
        cases c with
        | none => simp
        | some p => exact one true [k, p] k rfl
      exact List.Sublist.append (l₂ := [_, _, _, _, _]) (List.Sublist.append (l₂ := [_, _, _, _])
        (List.Sublist.append (l₂ := [_, _, _]) (List.Sublist.append (l₂ := [_, _]) (List.Sublist.append (l₂ := [_])
          (one _ _ _ rfl) (one _ _ _ rfl)) (one _ _ _ rfl)) (two _ _)) (two _ _)) (two _ _)
    exact hsub.nodup (by decide)

/-- A successful build yields exactly the test executables among the compiler artifacts, in order, each with the
versions its package depends on; any other outcome is an error. -/
theorem C62_result (m : Metadata) (r : BuildRes) (exes : List Exe) (h : buildResult m r = .ok exes) :
    ∃ msgs, r = .done msgs (some true) ∧ exes.map (fun e => (e.path, e.name)) = msgs.filterMap testArtifact ∧
      ∀ e ∈ exes, ∃ id, Message.artifact id e.name true (some e.path) ∈ msgs ∧
        testFuzzAndAflVersions m id = .ok (e.versions.testFuzzVersion, e.versions.aflVersion) := by
  cases r with
  | startErr => cases h
  | streamErr => cases h
  | done msgs st =>
    rcases st with _ | _ | _
    · cases h
    · cases h
    · refine ⟨msgs, rfl, ?_⟩
      simp only [buildResult] at h
      induction msgs generalizing exes with
      | nil => simp only [executablesOf] at h; cases h; exact ⟨rfl, by simp⟩
      | cons x xs ih =>
        unfold executablesOf at h
        split at h
        · next hx => cases hx
        · next id name path ms hx =>
          cases hx
          cases hv : testFuzzAndAflVersions m id with
          | ok v =>
            obtain ⟨tf, afl⟩ := v
            rw [hv, Out.ok_bind] at h
            dsimp only at h
            cases he : executablesOf m xs with
            | ok rest =>
              rw [he, Out.ok_bind] at h
              cases h
              obtain ⟨h1, h2⟩ := ih rest he
              refine ⟨by simp [testArtifact, h1], fun e hem => ?_⟩
              rcases List.mem_cons.mp hem with rfl | hem
              · exact ⟨id, by simp, hv⟩
              · obtain ⟨id', h3, h4⟩ := h2 e hem
                exact ⟨id', List.mem_cons_of_mem _ h3, h4⟩
            | _ => rw [he] at h; cases h
          | _ => rw [hv] at h; cases h
        · next hne hx =>
          cases hx
          obtain ⟨h1, h2⟩ := ih exes h
          refine ⟨?_, fun e hem => ?_⟩
          · rw [h1, List.filterMap_cons_none]
            cases x with
            | artifact id name t p =>
              cases t <;> cases p <;> first | rfl | exact absurd rfl (hne _ _ _)
            | compilerMessage _ => rfl
            | other => rfl
          · obtain ⟨id', h3, h4⟩ := h2 e hem
            exact ⟨id', List.mem_cons_of_mem _ h3, h4⟩

/-- A build that cannot be started, read or waited for, or that fails, is an error. -/
theorem C62_failure (m : Metadata) (r : BuildRes) (h : ∀ msgs, r ≠ .done msgs (some true)) :
    ∃ e, buildResult m r = .err e := by
  cases r with
  | startErr => exact ⟨_, rfl⟩
  | streamErr => exact ⟨_, rfl⟩
  | done msgs st =>
    rcases st with _ | _ | _
    · exact ⟨_, rfl⟩
    · exact ⟨_, rfl⟩
    · exact absurd rfl (h msgs)

/-- The directory that a build with these options goes to: one for each kind of instrumentation, below the target directory `w`
of the workspace. -/
inductive Spec.BuildDir (o : Opts) (w : Path) : Path → Prop
  | coverage (ob : Object) : o.coverage = some ob → BuildDir o w (w ++ [c%"coverage"])
  | fuzzing : o.list = false → o.coverage = none → (∀ ob, o.display = some ob → Instrumented ob) →
      (∀ ob, o.replay = some ob → Instrumented ob) → BuildDir o w (w ++ [c%"afl"])
  | list : o.coverage = none → o.list = true → BuildDir o w w
  | display (ob : Object) : o.coverage = none → o.display = some ob → ¬ Instrumented ob → BuildDir o w w
  | replay (ob : Object) : o.coverage = none → o.replay = some ob → ¬ Instrumented ob → BuildDir o w w

/-- Builds with different instrumentation do not share a directory, and each goes to the directory for its own. -/
theorem C62_directory (o : Opts) (c : Ctx) (hv : Spec.ObjectsValid o) (w d : Path)
    (hw : c.metadata (c.env.var c%"TEST_FUZZ_MANIFEST_PATH") = some w) :
    optsTargetDirectory o c = .ok d ↔ Spec.BuildDir o w d := by
  have hf := C26_fuzzing_iff o hv
  have hc := C26_coverage_iff o
  have key : optsTargetDirectory o c = .ok (w ++ (if includeCoverage o then [c%"coverage"] else if includeFuzzing o then [c%"afl"] else [])) := by
    have hn := (C26_never_both o c).1
    unfold optsTargetDirectory targetDirectory assert
    rw [hw]
    cases h1 : includeCoverage o <;> cases h2 : includeFuzzing o
    · simp
    · simp [Path.join]; decide
    · simp [Path.join]; decide
    · exact absurd ⟨h1, h2⟩ hn
  rw [key]
  simp only [Out.ok.injEq]
  by_cases h1 : includeCoverage o = true
  · rw [if_pos h1]
    obtain ⟨ob, hob⟩ := hc.mp h1
    constructor
    · rintro rfl; exact .coverage ob hob
    · intro h
      cases h with
      | coverage => rfl
      | fuzzing _ h => rw [hob] at h; cases h
      | list h => rw [hob] at h; cases h
      | display _ h => rw [hob] at h; cases h
      | replay _ h => rw [hob] at h; cases h
  · rw [if_neg h1]
    have hcn : o.coverage = none := by
      cases h : o.coverage with
      | none => rfl
      | some ob => exact absurd (hc.mpr ⟨ob, h⟩) h1
    by_cases h2 : includeFuzzing o = true
    · rw [if_pos h2]
      obtain ⟨g1, -, g3, g4⟩ := hf.mp h2
      constructor
      · rintro rfl; exact .fuzzing g1 hcn g3 g4
      · intro h
        cases h with
        | coverage _ h => rw [hcn] at h; cases h
        | fuzzing => rfl
        | list _ h => rw [g1] at h; cases h
        | display _ _ h h' => exact absurd (g3 _ h) h'
        | replay _ _ h h' => exact absurd (g4 _ h) h'
    · rw [if_neg h2, List.append_nil]
      constructor
      · rintro rfl
        rw [hf] at h2
        by_cases h3 : o.list = false
        · by_cases h4 : ∀ ob, o.display = some ob → Spec.Instrumented ob
          · have h5 : ¬ ∀ ob, o.replay = some ob → Spec.Instrumented ob := fun h5 => h2 ⟨h3, hcn, h4, h5⟩
            obtain ⟨ob, h5⟩ := Classical.not_forall.mp h5
            obtain ⟨h6, h7⟩ := Classical.not_imp.mp h5
            exact .replay ob hcn h6 h7
          · obtain ⟨ob, h5⟩ := Classical.not_forall.mp h4
            obtain ⟨h6, h7⟩ := Classical.not_imp.mp h5
            exact .display ob hcn h6 h7
        · exact .list hcn (by simpa using h3)
      · intro h
        cases h with
        | coverage _ h => rw [hcn] at h; cases h
        | fuzzing g1 g2 g3 g4 => exact absurd (hf.mpr ⟨g1, g2, g3, g4⟩) h2
        | list => rfl
        | display => rfl
        | replay => rfl

/-- The build that a command runs: with the directory for its instrumentation and the message format at the end, in colour if
the output goes to a terminal. -/
theorem C62_run (o : Opts) (y : Sys) (q : Bool) (s : RSt) (exes : List Exe) (s' : RSt)
    (h : build o y q s = (.ok exes, s')) :
    ∃ dir fmt, optsTargetDirectory o y.ctx = .ok dir ∧
      (y.terminal = false → fmt = c%"--message-format=json") ∧
      (y.terminal = true → fmt = c%"--message-format=json-diagnostic-rendered-ansi") ∧
      s'.acts = s.acts ++ [.build (buildArgs o (pathStr dir) ++ [fmt]) (q && !o.verbose)] ∧
      s'.world.fs = (y.build s.world.fs).2 ∧ buildResult y.metadata (y.build s.world.fs).1 = .ok exes := by
  unfold build at h
  obtain ⟨dir, s1, h1, h⟩ := Rm.bind_eq_ok h
  simp only [Rm.lift_run, Prod.mk.injEq] at h1
  obtain ⟨hd, rfl⟩ := h1
  obtain ⟨_, s2, h2, h⟩ := Rm.bind_eq_ok h
  simp only [Rm.act_run, Prod.mk.injEq] at h2
  obtain ⟨-, rfl⟩ := h2
  simp only [Prod.mk.injEq] at h
  obtain ⟨hb, rfl⟩ := h
  refine ⟨dir, messageFormat y.terminal, hd, ?_, ?_, rfl, rfl, hb⟩ <;> (intro ht; rw [ht]; rfl)

/-- Two commands, two directories. -/
example : Spec.BuildDir {} [c%"w"] [c%"w", c%"afl"] ∧ Spec.BuildDir { coverage := some .corpus } [c%"w"] [c%"w", c%"coverage"] ∧
    Spec.BuildDir { replay := some .crashes } [c%"w"] [c%"w"] :=
  ⟨.fuzzing rfl rfl (by simp) (by simp), .coverage _ rfl, .replay _ rfl rfl (by simp [Spec.Instrumented])⟩

/-- A build with several options. -/
example : buildArgs { features := [c%"a", c%"b"], release := true, persistent := true, test := some c%"t" } c%"/d" =
    [c%"afl", c%"test", c%"--no-run", c%"--features", c%"a", c%"--features", c%"b", c%"--release", c%"--target-dir",
      c%"/d", c%"--features", c%"test-fuzz/__persistent", c%"--test", c%"t"] := by decide +kernel

example : buildArgs { replay := some .crashes, package := some c%"p" } c%"/d" =
    [c%"test", c%"--no-run", c%"--package", c%"p"] := by decide +kernel

end TF
