import Verif.Props.Command

/-! # Environments and directories of the processes started: C08 (environment), C60, C64 -/

namespace TF

open Spec

/-! ## C08 -/

theorem on_of_last {l : List (Str × Option Str)} {e : Env} {k v : Str} (h : LastChange l k (some v)) :
    l.foldl Env.apply e k = some (.utf8 v) := foldl_apply_last _ _ _ _ h

/-- Fuzzers run with `TEST_FUZZ` on and `TEST_FUZZ_WRITE` off, whatever the user's environment and the coverage
variables. -/
theorem C08_fuzzer_environment (checks : Bool) (o : Opts) (c : Ctx) (llvm : List (Str × Str)) (cfg : Config) (exe : Exe)
    (target : Str) (cmd : Cmd) (h : fuzzCommand checks o c llvm cfg exe target = .ok cmd) (parent : Env) :
    On (cmd.childEnv parent) c%"TEST_FUZZ" ∧ ¬ On (cmd.childEnv parent) c%"TEST_FUZZ_WRITE" := by
  obtain ⟨-, -, -, -, -, -, -, -, -, he⟩ := fuzzCommand_ok h
  unfold Cmd.childEnv
  rw [he, List.foldl_append]
  generalize (llvm.map fun x => (x.1, some x.2)).foldl Env.apply parent = E
  refine ⟨⟨c%"1", ?_, by decide⟩, ?_⟩
  · cases cfg.ui <;> cases o.runUntilCrash <;> rfl
  · rintro ⟨v, hv, h0⟩
    have : (List.map (fun x : Str × Str => (x.1, some x.2)) (baseEnvs ++ (if !cfg.ui then [(c%"AFL_NO_UI", c%"1")] else []) ++
        (if o.runUntilCrash then [(c%"AFL_BENCH_UNTIL_CRASH", c%"1")] else []))).foldl Env.apply E c%"TEST_FUZZ_WRITE" =
        some (.utf8 c%"0") := by
      cases cfg.ui <;> cases o.runUntilCrash <;> rfl
    rw [this] at hv
    cases hv
    exact h0 rfl

theorem entryEnvs_keys (o : Opts) :
    ∃ rest, entryEnvs o = (c%"TEST_FUZZ", c%"1") :: (c%"TEST_FUZZ_WRITE", c%"0") :: rest ∧
      ∀ x ∈ rest, x.1 ∈ [c%"AFL_QUIET", c%"TEST_FUZZ_COVERAGE", c%"TEST_FUZZ_DISPLAY", c%"TEST_FUZZ_REPLAY",
        c%"RUST_BACKTRACE", c%"TEST_FUZZ_PRETTY_PRINT"] := by
  refine ⟨_, rfl, fun x hx => ?_⟩
  simp at hx
  rcases hx with rfl | ⟨-, rfl⟩ | ⟨-, rfl⟩ | ⟨-, rfl⟩ | ⟨-, rfl⟩ | ⟨-, rfl⟩ <;> decide

/-- So do the harnesses that display, replay or measure coverage. -/
theorem C08_harness_environment (o : Opts) (parent : Env) (llvm : List (Str × Str))
    (listing : Cmd → List (Str × Option Str)) (exe : Exe) (target : Str) (e : Exec)
    (h : entryExec o parent llvm listing exe target = .ok e) :
    On e.env c%"TEST_FUZZ" ∧ ¬ On e.env c%"TEST_FUZZ_WRITE" := by
  unfold entryExec at h
  simp only [command, Out.ok_bind] at h
  cases h
  simp only [Exec.addArgs, Exec.envExtend]
  rw [setAll_eq]
  generalize (toExec parent _ _).env = E
  obtain ⟨rest, hr, hk⟩ := entryEnvs_keys o
  rw [hr]
  have hne : ∀ k, k ∉ [c%"AFL_QUIET", c%"TEST_FUZZ_COVERAGE", c%"TEST_FUZZ_DISPLAY", c%"TEST_FUZZ_REPLAY",
        c%"RUST_BACKTRACE", c%"TEST_FUZZ_PRETTY_PRINT"] → ∀ x ∈ rest.map (fun x => (x.1, some x.2)), x.1 ≠ k := by
    rintro k hk' x hx rfl
    obtain ⟨z, hz, rfl⟩ := List.mem_map.mp hx
    exact hk' (hk z hz)
  simp only [List.map_cons]
  refine ⟨⟨c%"1", ?_, by decide⟩, ?_⟩
  · refine on_of_last (v := c%"1") ⟨[], _, rfl, fun x hx => ?_⟩
    rcases List.mem_cons.mp hx with rfl | hx
    · decide
    · exact hne _ (by decide) x hx
  · rintro ⟨v, hv, h0⟩
    have hw : List.foldl Env.apply E ((c%"TEST_FUZZ", some c%"1") :: (c%"TEST_FUZZ_WRITE", some c%"0") ::
        rest.map fun x => (x.1, some x.2)) c%"TEST_FUZZ_WRITE" = some (.utf8 c%"0") :=
      on_of_last ⟨[(c%"TEST_FUZZ", some c%"1")], _, rfl, hne _ (by decide)⟩
    cases hw.symm.trans hv
    exact h0 rfl

/-- Even if the user has switched writing on and the coverage variables interfere. -/
example : ∃ e, entryExec { replay := some .corpus } (fun _ => some (.utf8 c%"1")) [(c%"TEST_FUZZ", c%"0")]
    (fun c => c.envs) ⟨c%"/x", c%"x", none, none⟩ c%"t" = .ok e ∧ e.env c%"TEST_FUZZ_WRITE" = some (.utf8 c%"0") ∧
      e.env c%"TEST_FUZZ" = some (.utf8 c%"1") ∧ e.env c%"TEST_FUZZ_REPLAY" = some (.utf8 c%"1") :=
  ⟨_, rfl, by decide +kernel, by decide +kernel, by decide +kernel⟩

/-! ## C60 -/

theorem splitChar_append (sep : Char) (a b : Str) (h : sep ∉ a) :
    splitChar sep (a ++ sep :: b) = a :: splitChar sep b := by
  induction a with
  | nil => simp [splitChar]
  | cons c a ih =>
    rw [List.mem_cons, not_or] at h
    rw [List.cons_append, splitChar, if_neg (fun hh => h.1 hh.symm), ih h.2]

theorem splitChar_pathStr (p : Path) (h : ∀ s ∈ p, '/' ∉ s) : splitChar '/' (pathStr p) = [] :: p := by
  cases p with
  | nil => rfl
  | cons x p =>
    show splitChar '/' ('/' :: (x ++ pathStr p)) = _
    rw [splitChar, if_pos rfl]
    congr 1
    induction p generalizing x with
    | nil =>
      rw [show pathStr [] = [] from rfl, List.append_nil]
      exact splitChar_of_not_mem _ _ (h x List.mem_cons_self)
    | cons z p ih =>
      show splitChar '/' (x ++ '/' :: (z ++ pathStr p)) = _
      rw [splitChar_append _ _ _ (h x List.mem_cons_self), ih z fun s hs => h s (List.mem_cons_of_mem _ hs)]

theorem pathComponents_pathStr (p : Path) (h : Proper p) (hne : p ≠ []) : pathComponents (pathStr p) = (true, p) := by
  unfold pathComponents
  rw [splitChar_pathStr p fun s hs => (h s hs).2.2]
  refine Prod.ext ?_ ?_
  · cases p with
    | nil => exact absurd rfl hne
    | cons x p => rfl
  · simp only
    rw [List.filter_cons_of_neg (by simp), List.filter_eq_self]
    intro s hs
    have := h s hs
    simp [this.1, this.2.1]

theorem joinWith_slash (x : Str) (r : Path) : joinWith c%"/" (x :: r) = x ++ pathStr r := by
  induction r generalizing x with
  | nil => simp [joinWith, pathStr]
  | cons z r ih =>
    rw [joinWith, ih z]
    simp [pathStr]

/-- A path below the target directory is moved below the coverage directory, any other absolute path is unchanged. -/
theorem C60_paths (t n p : Path) (ht : Proper t) (hp : Proper p) (htn : t ≠ []) (hpn : p ≠ []) :
    Moved t n p (replaceTargetDir (pathStr t) (pathStr n) (pathStr p)) := by
  unfold replaceTargetDir
  rw [pathComponents_pathStr p hp hpn, pathComponents_pathStr t ht htn]
  simp only [true_and]
  split
  · next h =>
    obtain ⟨r, rfl⟩ := List.isPrefixOf_iff_prefix.mp h
    rw [List.drop_left]
    cases r with
    | nil => simp only [joinWith, List.append_nil]; exact .itself
    | cons x r =>
      rw [joinWith_slash]
      have : pathStr n ++ c%"/" ++ (x ++ pathStr r) = pathStr (n ++ x :: r) := by simp [pathStr]
      rw [this]
      exact .below
  · next h => exact .elsewhere fun hh => h (List.isPrefixOf_iff_prefix.mpr hh)

/-- A value that is not an absolute path is unchanged. -/
theorem C60_not_a_path (t : Path) (htn : t ≠ []) (n value : Str) (h : value.head? ≠ some '/') :
    replaceTargetDir (pathStr t) n value = value := by
  unfold replaceTargetDir
  refine if_neg fun hh => ?_
  have h1 : (pathComponents (pathStr t)).1 = true := by
    cases t with
    | nil => exact absurd rfl htn
    | cons x t => rfl
  have h2 : (pathComponents value).1 = false := by simp [pathComponents, h]
  rw [h1, h2] at hh
  exact absurd hh.1 (by decide)

/-- Not quoted at either end. -/
def Spec.Unquoted (v : Str) : Prop := v.head? ≠ some '\'' ∧ v.getLast? ≠ some '\''

theorem dropWhile_quotes (n : Nat) (v : Str) (h : v.head? ≠ some '\'') :
    (List.replicate n '\'' ++ v).dropWhile (· == '\'') = v := by
  induction n with
  | zero =>
    cases v with
    | nil => rfl
    | cons c v =>
      rw [List.replicate_zero, List.nil_append, List.dropWhile_cons]
      rw [if_neg]
      simpa using h
  | succ n ih => rw [List.replicate_succ, List.cons_append, List.dropWhile_cons]; simpa using ih

theorem trimMatches_quotes (m n : Nat) (v : Str) (h : Unquoted v) :
    trimMatches '\'' (List.replicate m '\'' ++ v ++ List.replicate n '\'') = v := by
  unfold trimMatches
  cases v with
  | nil =>
    have : (List.replicate m '\'' ++ [] ++ List.replicate n '\'').dropWhile (· == '\'') = [] := by
      rw [List.append_nil, List.replicate_append_replicate]
      have := dropWhile_quotes (m + n) [] (by simp)
      simpa using this
    rw [this]; rfl
  | cons c v =>
    rw [List.append_assoc, dropWhile_quotes m _ (by simpa using h.1), List.reverse_append, List.reverse_replicate,
      dropWhile_quotes n _ (by rw [List.head?_reverse]; exact h.2), List.reverse_reverse]

/-- Each line `KEY=VALUE` gives the variable with its quotes removed and the target directory replaced, in order; other
lines make the program panic. -/
theorem C60_variables (o : Opts) (t n : Str) (vars : List (Str × Nat × Str × Nat)) (ho : o.coverage.isSome)
    (h : ∀ x ∈ vars, '=' ∉ x.1 ∧ Unquoted x.2.2.1) :
    llvmEnvs o t n (some (vars.map fun x =>
        x.1 ++ '=' :: (List.replicate x.2.1 '\'' ++ x.2.2.1 ++ List.replicate x.2.2.2 '\''))) =
      .ok (vars.map fun x => (x.1, replaceTargetDir t n x.2.2.1)) := by
  unfold llvmEnvs
  rw [if_neg (by cases hc : o.coverage <;> simp_all)]
  simp only
  induction vars with
  | nil => rfl
  | cons x vars ih =>
    obtain ⟨k, a, v, b⟩ := x
    have hx := h (k, a, v, b) List.mem_cons_self
    rw [List.map_cons, llvmEnvLines, llvmEnvLine, (splitOnce_eq_some _ _ k _).mpr ⟨rfl, hx.1⟩]
    simp only [Out.ok_bind, trimMatches_quotes _ _ _ hx.2, ih fun x hx => h x (List.mem_cons_of_mem _ hx), List.map_cons]

/-- Without --coverage no variable is passed on, and `cargo llvm-cov` is not consulted. -/
theorem C60_none (o : Opts) (t n : Str) (s : Option (List Str)) (h : o.coverage = none) : llvmEnvs o t n s = .ok [] := by
  unfold llvmEnvs; rw [h]; rfl

/-- Output as `cargo llvm-cov show-env` prints it. -/
example : llvmEnvs { coverage := some .corpus } c%"/w/target" c%"/w/target/coverage"
    (some [c%"RUSTFLAGS=' -C instrument-coverage'", c%"LLVM_PROFILE_FILE='/w/target/w-%p.profraw'",
      c%"CARGO_LLVM_COV_TARGET_DIR=/w/target", c%"OTHER=/w/targets/x"]) =
    .ok [(c%"RUSTFLAGS", c%" -C instrument-coverage"), (c%"LLVM_PROFILE_FILE", c%"/w/target/coverage/w-%p.profraw"),
      (c%"CARGO_LLVM_COV_TARGET_DIR", c%"/w/target/coverage/"), (c%"OTHER", c%"/w/targets/x")] := by decide +kernel

/-! ## C64 -/

/-- The directories consulted for a target. -/
def Spec.Consulted (o : Opts) (c : Ctx) (krate target : Str) (d : Path) : Prop :=
  (∃ ob f, flagsAndDir c ob krate target = .ok (f, d)) ∨ outputDirFromTarget c krate target = .ok d ∨
    optsTargetDirectory o c = .ok d

theorem targetDirectory_below {c : Ctx} {a b : Bool} {d : Path} (h : targetDirectory c a b = .ok d) :
    ∃ w r, c.metadata (c.env.var c%"TEST_FUZZ_MANIFEST_PATH") = some w ∧ d = w ++ r := by
  unfold targetDirectory at h
  cases hab : assert (!(a && b)) with
  | ok u =>
    rw [hab, Out.ok_bind] at h
    split at h
    · cases h
    · next w hw =>
      cases h
      refine ⟨w, (if a then [c%"coverage"] else []) ++ (if b then [c%"afl"] else []), hw, ?_⟩
      cases a <;> cases b <;> simp [Path.join] <;> decide
  | _ => rw [hab] at h; cases h

theorem dir_below {x : Out Path} {f : Path → Path} {d : Path} (h : (do let d ← x; Out.ok (f d)) = .ok d) :
    ∃ d0, x = .ok d0 ∧ d = f d0 := by
  cases hx : x with
  | ok a => rw [hx, Out.ok_bind] at h; cases h; exact ⟨a, rfl, rfl⟩
  | _ => rw [hx] at h; cases h

theorem join_below (p : Path) (s : Str) (h : s.head? ≠ some '/') : ∃ r, p.join s = p ++ r := by
  unfold Path.join; rw [if_neg h]; exact ⟨_, rfl⟩

/-- The workspace whose `target` directory holds the artifacts, as far as the code is concerned. -/
def Below (c : Ctx) (d : Path) : Prop :=
  ∃ w, c.metadata (c.env.var c%"TEST_FUZZ_MANIFEST_PATH") = some w ∧ w <+: d

theorem Below.join {c : Ctx} {d : Path} (h : Below c d) {s : Str} (hs : s.head? ≠ some '/') : Below c (d.join s) := by
  obtain ⟨w, hw, hd⟩ := h
  obtain ⟨r, hr⟩ := join_below d s hs
  exact ⟨w, hw, hr ▸ hd.trans (List.prefix_append _ _)⟩

theorem pathSegment_rel (c : Ctx) (b : Char) (s : Str) (hb : b ≠ '/') : (pathSegment c (b :: s)).head? ≠ some '/' := by
  unfold pathSegment; simpa using hb

theorem pathFromTarget_rel (k t : Str) (h : NoSlash k) : (pathFromTarget k t).head? ≠ some '/' := by
  intro hh
  have h3 : '/' ∉ replaceChar '-' '_' k := replaceChar_not_mem h (by decide)
  unfold pathFromTarget at hh
  cases hk : replaceChar '-' '_' k with
  | nil => rw [hk] at hh; simp at hh
  | cons a as =>
    rw [hk] at hh h3
    simp only [List.cons_append, List.head?_cons, Option.some.injEq] at hh
    exact h3 (hh ▸ List.mem_cons_self)

theorem outputDir_below {c : Ctx} {k t : Str} {d : Path} (hk : NoSlash k) (h : outputDirFromTarget c k t = .ok d) :
    Below c d := by
  obtain ⟨d1, h1, rfl⟩ := dir_below h
  obtain ⟨d2, h2, rfl⟩ := dir_below h1
  obtain ⟨w, r, hw, rfl⟩ := targetDirectory_below h2
  exact (Below.join (Below.join ⟨w, hw, List.prefix_append _ _⟩ (pathSegment_rel _ _ _ (by decide)))
    (pathFromTarget_rel k t hk))

theorem consulted_below {o : Opts} {c : Ctx} {k t : Str} {d : Path} (hk : NoSlash k) (h : Consulted o c k t d) :
    Below c d := by
  have two : ∀ {base : Str} {d : Path}, (pathSegment c base).head? ≠ some '/' →
      (do let e ← (do let d ← targetDirectory c false false; Out.ok (d.join (pathSegment c base)))
          Out.ok (e.join (pathFromTarget k t))) = .ok d → Below c d := by
    intro base d hb h
    obtain ⟨d1, h1, rfl⟩ := dir_below h
    obtain ⟨d2, h2, rfl⟩ := dir_below h1
    obtain ⟨w, r, hw, rfl⟩ := targetDirectory_below h2
    exact (Below.join (Below.join ⟨w, hw, List.prefix_append _ _⟩ hb) (pathFromTarget_rel k t hk))
  rcases h with ⟨ob, f, h⟩ | h | h
  · have pair : ∀ {x : Out Path} {g : Flags}, (do let d ← x; Out.ok (g, d)) = .ok (f, d) → x = .ok d := by
      intro x g h
      cases hx : x with
      | ok a => rw [hx, Out.ok_bind] at h; cases h; rfl
      | _ => rw [hx] at h; cases h
    unfold flagsAndDir at h
    split at h
    all_goals replace h := pair h
    all_goals first
      | exact two (base := c%"corpus") (pathSegment_rel _ _ _ (by decide)) h
      | exact two (base := c%"impl_generic_args") (pathSegment_rel _ _ _ (by decide)) h
      | exact two (base := c%"generic_args") (pathSegment_rel _ _ _ (by decide)) h
      | (obtain ⟨d1, h1, rfl⟩ := dir_below h
         exact (outputDir_below hk h1).join (by decide))
  · exact outputDir_below hk h
  · obtain ⟨w, r, hw, rfl⟩ := targetDirectory_below h
    exact ⟨w, hw, List.prefix_append _ _⟩

/-- The directories that are consulted belong to the workspace given by --manifest-path if that is also the one of the
working directory (or of `TEST_FUZZ_MANIFEST_PATH`). Without that proviso they do not: `C64_wrong_workspace`. -/
theorem C64_same_workspace (o : Opts) (c : Ctx) (k t : Str) (hk : NoSlash k) (w : Path)
    (hm : c.metadata o.manifestPath = some w)
    (hsame : c.metadata (c.env.var c%"TEST_FUZZ_MANIFEST_PATH") = c.metadata o.manifestPath)
    (d : Path) (h : Consulted o c k t d) : w <+: d := by
  obtain ⟨w', hw', hd⟩ := consulted_below hk h
  rw [hsame, hm] at hw'
  cases hw'
  exact hd

/-- If --manifest-path names another workspace, no directory that is consulted belongs to it. -/
theorem C64_wrong_workspace (o : Opts) (c : Ctx) (k t : Str) (hk : NoSlash k) (w w' : Path)
    (hm : c.metadata o.manifestPath = some w)
    (hother : c.metadata (c.env.var c%"TEST_FUZZ_MANIFEST_PATH") = some w') (hap : Apart w w')
    (d : Path) (h : Consulted o c k t d) : ¬ w <+: d := by
  obtain ⟨w2, hw2, hd⟩ := consulted_below hk h
  rw [hother] at hw2
  cases hw2
  intro hw
  rcases List.prefix_or_prefix_of_prefix hw hd with h1 | h1
  · exact hap.1 h1
  · exact hap.2 h1

/-- Such a situation: `cargo test-fuzz --manifest-path /b/Cargo.toml --replay corpus` in `/a`. -/
example : let c : Ctx := ⟨fun _ => none, false, c%"ThreadId(1)",
      fun m => if m = some c%"/b/Cargo.toml" then some [c%"b", c%"target"] else some [c%"a", c%"target"]⟩
    let o : Opts := { manifestPath := some c%"/b/Cargo.toml", replay := some .corpus }
    c.metadata o.manifestPath = some [c%"b", c%"target"] ∧ Apart [c%"b", c%"target"] [c%"a", c%"target"] ∧
      Consulted o c c%"x" c%"t" [c%"a", c%"target", c%"corpus", c%"x::t"] := by
  refine ⟨rfl, ⟨by decide, by decide⟩, Or.inl ⟨.corpus, ⟨true, false⟩, by decide +kernel⟩⟩

end TF
