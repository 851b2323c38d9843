import Verif.Model.Runtime
import Verif.Model.Targets
import Verif.Lemmas.Str
import Verif.Spec.Naming

/-!
# C05, C06, C09: names, directories, switches
-/

namespace TF

open Spec

/-! ## Helpers -/

theorem colons_snoc2 (xs : List Str) (a s b : Str) :
    colons (xs ++ [a ++ s, b]) = colons (xs ++ [a]) ++ s ++ c%"::" ++ b := by
  induction xs with
  | nil => simp [colons]
  | cons x xs ih =>
    cases xs with
    | nil => simp [colons]
    | cons y ys =>
      simp only [List.cons_append, colons] at ih ⊢
      rw [ih]
      simp

theorem colons_cons (x : Str) (xs : List Str) (h : xs ≠ []) :
    colons (x :: xs) = x ++ c%"::" ++ colons xs := by
  cases xs with
  | nil => exact absurd rfl h
  | cons y ys => rfl

theorem harnessName_eq (d : Decl) : harnessName d = targetName d ++ c%"_fuzz__::entry" := by
  unfold harnessName targetName
  rw [colons_snoc2]
  simp

theorem autoGenerateName_eq (d : Decl) :
    autoGenerateName d = targetName d ++ c%"_fuzz__::auto_generate" := by
  unfold autoGenerateName targetName
  rw [colons_snoc2]
  simp

theorem argsTypeName_eq (d : Decl) :
    argsTypeName d = qualifiedName d ++ c%"_fuzz__" ++ (c%"::Args" ++ d.generics) := by
  unfold argsTypeName qualifiedName targetName
  rw [List.cons_append, colons_cons _ _ (by simp), colons_snoc2]
  simp

theorem targetOfLine_harness (d : Decl) :
    targetOfLine (harnessName d ++ c%": test") = some (targetName d) := by
  unfold targetOfLine
  rw [(stripSuffix_eq_some _ _ (harnessName d)).mpr rfl]
  exact (stripSuffix_eq_some _ _ _).mpr (harnessName_eq d)

theorem qualified_eq_pathFromTarget (d : Decl) :
    qualifiedName d = pathFromTarget d.krate (targetName d) := rfl

/-- An earlier occurrence of `m ++ [x]` in `s ++ (m ++ [x]) ++ r` lies inside `s ++ m`. -/
theorem earlier_iff (s m r : Str) (x : Char) :
    (∃ j < s.length, (m ++ [x]) <+: (s ++ (m ++ [x]) ++ r).drop j) ↔ (m ++ [x]) <:+: (s ++ m) := by
  constructor
  · rintro ⟨j, hj, hp⟩
    rw [List.append_assoc, List.drop_append_of_le_length (by omega)] at hp
    have h2 : (m ++ [x]) <+: (s.drop j ++ m) := by
      have hlen : (m ++ [x]).length ≤ (s.drop j ++ m).length := by simp; omega
      have h3 : (s.drop j ++ m) <+: s.drop j ++ (m ++ [x] ++ r) :=
        ⟨[x] ++ r, by simp⟩
      exact List.prefix_of_prefix_length_le hp h3 hlen
    exact h2.isInfix.trans ⟨s.take j, [], by simp [← List.append_assoc]⟩
  · rintro ⟨a, b, hab⟩
    have hlen := congrArg List.length hab
    simp only [List.length_append, List.length_cons, List.length_nil] at hlen
    refine ⟨a.length, by omega, ?_⟩
    have : s ++ (m ++ [x]) ++ r = a ++ ((m ++ [x]) ++ (b ++ [x] ++ r)) := by
      rw [← List.append_assoc s m [x], ← hab]; simp
    rw [this, List.drop_left]
    exact List.prefix_append _ _

/-- The search stops at the end of the qualified name exactly if the marker is not met before. -/
theorem find_marker_iff (d : Decl) :
    find marker (argsTypeName d) = some (qualifiedName d).length ↔ MarkerFree d := by
  rw [find_eq_some_iff]
  have hm : marker = c%"_fuzz_" ++ ['_'] := by decide
  have he := earlier_iff (qualifiedName d) c%"_fuzz_" (c%"::Args" ++ d.generics) '_'
  rw [show c%"_fuzz_" ++ ['_'] = c%"_fuzz__" from by decide] at he hm
  rw [hm, argsTypeName_eq]
  unfold MarkerFree
  rw [← he]
  constructor
  · rintro ⟨-, -, h⟩ ⟨j, hj, hp⟩
    exact h j hj hp
  · intro h
    refine ⟨by simp only [List.length_append]; omega, ?_, fun j hj hp => h ⟨j, hj, hp⟩⟩
    rw [List.append_assoc, List.drop_left]
    exact List.prefix_append _ _

/-! ## C05 -/

/-- **C05.** Let `d` be a target, `w` the surroundings of the instrumented test process and `r` those of
`cargo test-fuzz`, which agree on the run id and cargo's target directory. If the marker does not occur
earlier in the target's name, then cargo test-fuzz discovers the target under its name and looks for
its corpus, generic args and impl generic args exactly where the instrumented function puts them. -/
theorem C05_writer_reader_agree (d : Decl) (w r : Ctx) (hid : maybeId w = maybeId r)
    (hdir : targetDirectory w false false = targetDirectory r false false) (hfree : MarkerFree d) :
    ∃ t, targetOfLine (harnessName d ++ c%": test") = some t ∧
      corpusDirFromArgsType w (argsTypeName d) = corpusDirFromTarget r d.krate t ∧
      genericArgsDirFromArgsType w (argsTypeName d) = genericArgsDirFromTarget r d.krate t ∧
      implGenericArgsDirFromArgsType w (argsTypeName d) = implGenericArgsDirFromTarget r d.krate t := by
  refine ⟨targetName d, targetOfLine_harness d, ?_⟩
  have hp : pathFromArgsType (argsTypeName d) = .ok (pathFromTarget d.krate (targetName d)) := by
    unfold pathFromArgsType
    rw [(find_marker_iff d).mpr hfree, ← qualified_eq_pathFromTarget]
    simp [argsTypeName_eq]
  have hs : ∀ s, pathSegment w s = pathSegment r s := by intro s; simp [pathSegment, hid]
  simp only [corpusDirFromArgsType, corpusDirFromTarget, genericArgsDirFromArgsType,
    genericArgsDirFromTarget, implGenericArgsDirFromArgsType, implGenericArgsDirFromTarget,
    corpusDirectory, genericArgsDirectory, implGenericArgsDirectory, hdir, hs, hp]
  cases targetDirectory r false false <;> simp

/-- **C05 (the proviso is needed).** If the marker does occur earlier, the two paths differ. -/
theorem C05_disagree_without_proviso (d : Decl) (h : ¬ MarkerFree d) :
    pathFromArgsType (argsTypeName d) ≠ .ok (pathFromTarget d.krate (targetName d)) := by
  unfold pathFromArgsType
  intro hc
  cases hf : find marker (argsTypeName d) with
  | none => rw [hf] at hc; cases hc
  | some n =>
    rw [hf] at hc
    simp only [Out.ok.injEq] at hc
    have hle := ((find_eq_some_iff _ _ _).mp hf).1
    have hlen := congrArg List.length hc
    rw [List.length_take_of_le hle, ← qualified_eq_pathFromTarget] at hlen
    rw [hlen] at hf
    exact h ((find_marker_iff d).mp hf)

/-- **C05 (witness).** A target named `a_fuzz_` is recorded into the directory of target `a`. -/
theorem C05_witness :
    pathFromArgsType (argsTypeName ⟨c%"k", [], c%"a_fuzz_", []⟩) =
      .ok (pathFromTarget c%"k" (targetName ⟨c%"k", [], c%"a", []⟩)) ∧
    pathFromTarget c%"k" (targetName ⟨c%"k", [], c%"a", []⟩) ≠
      pathFromTarget c%"k" (targetName ⟨c%"k", [], c%"a_fuzz_", []⟩) := by decide

/-- Non-vacuity of C05: `parse::expr` in crate `my-crate`, with a generic argument. -/
example : MarkerFree ⟨c%"my-crate", [c%"parse"], c%"expr", c%"<u8>"⟩ := by
  unfold MarkerFree
  rw [← contains_iff]
  decide +kernel

/-! ## C06 -/

/-- The kinds of artifact directories of a target. -/
inductive Kind where
  | corpus | genericArgs | implGenericArgs | output
  deriving DecidableEq

/-- The directory of a target's artifacts of one kind. -/
def dirOf (c : Ctx) (krate target : Str) : Kind → Out Path
  | .corpus => corpusDirFromTarget c krate target
  | .genericArgs => genericArgsDirFromTarget c krate target
  | .implGenericArgs => implGenericArgsDirFromTarget c krate target
  | .output => outputDirFromTarget c krate target

def Kind.base : Kind → Str
  | .corpus => c%"corpus"
  | .genericArgs => c%"generic_args"
  | .implGenericArgs => c%"impl_generic_args"
  | .output => c%"output"

/-- The run id (if any) contains no `/`. -/
def IdOk (c : Ctx) : Prop := ∀ id, maybeId c = some id → NoSlash id

theorem targetDirectory_fuzzing {c : Ctx} {root : Path} (h : targetDirectory c false false = .ok root) :
    targetDirectory c false true = .ok (root ++ [c%"afl"]) := by
  unfold targetDirectory assert at h ⊢
  simp only [Bool.and_false, Bool.not_false, if_true, Out.ok_bind, Bool.false_and] at h ⊢
  split at h
  · cases h
  · next d hd =>
    simp only [Bool.false_eq_true, if_false, Out.ok.injEq] at h
    subst h
    simp only [Bool.false_eq_true, if_false]
    rw [Path.join_simple _ _ (by decide) (by decide) (by decide)]

theorem pathSegment_head (c : Ctx) (k : Kind) : ∃ rest, pathSegment c k.base = k.base ++ rest := by
  unfold pathSegment
  exact ⟨_, by rw [List.append_assoc]⟩

theorem pathSegment_ok (c : Ctx) (hid : IdOk c) (k : Kind) :
    '/' ∉ pathSegment c k.base ∧ pathSegment c k.base ≠ [] ∧ pathSegment c k.base ≠ ['.'] := by
  have hb : '/' ∉ k.base := by cases k <;> decide
  have hne : k.base ≠ [] := by cases k <;> decide
  have hh : k.base.head? ≠ some '.' := by cases k <;> decide
  obtain ⟨rest, hr⟩ := pathSegment_head c k
  refine ⟨?_, ?_, ?_⟩
  · unfold pathSegment
    cases hm : maybeId c with
    | none => simpa using hb
    | some id =>
      have := hid id hm
      simp only [NoSlash] at this
      simp [hb, this]
  · rw [hr]; simp [hne]
  · rw [hr]
    intro h
    have := congrArg List.head? h
    cases hk : k.base with
    | nil => exact hne hk
    | cons a as => rw [hk] at this hh; simp at this hh; exact hh this

theorem pathFromTarget_ok (krate target : Str) (h1 : NoSlash krate) (h2 : NoSlash target) :
    '/' ∉ pathFromTarget krate target ∧ pathFromTarget krate target ≠ [] ∧
      pathFromTarget krate target ≠ ['.'] := by
  have h3 : '/' ∉ replaceChar '-' '_' krate := replaceChar_not_mem h1 (by decide)
  unfold NoSlash at h2
  refine ⟨?_, ?_, ?_⟩
  · simp [pathFromTarget, h2, h3]
  · simp [pathFromTarget]
  · intro h
    have := congrArg List.length h
    simp [pathFromTarget] at this
    omega

/-- The directories, spelled out. -/
theorem dirOf_eq (c : Ctx) (root : Path) (krate target : Str) (k : Kind) (hid : IdOk c)
    (hk : NoSlash krate) (ht : NoSlash target) (h : targetDirectory c false false = .ok root) :
    dirOf c krate target k = .ok (root ++ (if k = .output then [c%"afl"] else []) ++
      [pathSegment c k.base, pathFromTarget krate target]) := by
  have h1 := pathFromTarget_ok krate target hk ht
  have h2 := pathSegment_ok c hid k
  have h3 := targetDirectory_fuzzing h
  have hj : ∀ p : Path, p.join (pathSegment c k.base) = p ++ [pathSegment c k.base] :=
    fun p => Path.join_simple p _ h2.1 h2.2.1 h2.2.2
  have hj' : ∀ p : Path, p.join (pathFromTarget krate target) = p ++ [pathFromTarget krate target] :=
    fun p => Path.join_simple p _ h1.1 h1.2.1 h1.2.2
  cases k <;> simp only [Kind.base] at hj <;>
    simp [dirOf, corpusDirFromTarget, genericArgsDirFromTarget, implGenericArgsDirFromTarget,
      outputDirFromTarget, corpusDirectory, genericArgsDirectory, implGenericArgsDirectory,
      outputDirectory, h, h3, hj, hj', Kind.base]

theorem pathFromTarget_inj {k k' t t' : Str} (hk : ':' ∉ k) (hk' : ':' ∉ k')
    (h : pathFromTarget k t = pathFromTarget k' t') :
    replaceChar '-' '_' k = replaceChar '-' '_' k' ∧ t = t' := by
  have h1 : ':' ∉ replaceChar '-' '_' k := replaceChar_not_mem hk (by decide)
  have h2 : ':' ∉ replaceChar '-' '_' k' := replaceChar_not_mem hk' (by decide)
  unfold pathFromTarget at h
  have e : ∀ a b : Str, a ++ c%"::" ++ b = a ++ ':' :: (':' :: b) := by intro a b; simp
  rw [e, e] at h
  obtain ⟨h3, h4⟩ := append_sep_inj h h1 h2
  simpa [h3] using h4

theorem pathSegment_inj {c c' : Ctx} {k k' : Kind} (h : pathSegment c k.base = pathSegment c' k'.base) :
    k = k' ∧ maybeId c = maybeId c' := by
  have hk : k = k' := by
    obtain ⟨r, hr⟩ := pathSegment_head c k
    obtain ⟨r', hr'⟩ := pathSegment_head c' k'
    rw [hr, hr'] at h
    have := congrArg List.head? h
    cases k <;> cases k' <;> simp_all [Kind.base]
  subst hk
  refine ⟨rfl, ?_⟩
  unfold pathSegment at h
  cases h1 : maybeId c <;> cases h2 : maybeId c' <;> simp_all

/-- **C06.** Take two artifact directories, of any kinds, any (crate, target) names and any run ids, below
the same cargo target directory. If they are for different kinds, different runs, or different
(crate, target) names – crate names compared as rustc does, `-` being `_` – then neither is the other
nor inside the other. -/
theorem C06_directories_apart (c c' : Ctx) (root : Path)
    (hroot : targetDirectory c false false = .ok root) (hroot' : targetDirectory c' false false = .ok root)
    (hid : IdOk c) (hid' : IdOk c') (k k' t t' : Str) (kind kind' : Kind)
    (hk : NoSlash k) (hk' : NoSlash k') (ht : NoSlash t) (ht' : NoSlash t')
    (hc : ':' ∉ k) (hc' : ':' ∉ k')
    (hne : ¬ (kind = kind' ∧ maybeId c = maybeId c' ∧
      k.map (fun x => if x = '-' then '_' else x) = k'.map (fun x => if x = '-' then '_' else x) ∧
      t = t')) :
    ∃ p p', dirOf c k t kind = .ok p ∧ dirOf c' k' t' kind' = .ok p' ∧ Apart p p' := by
  refine ⟨_, _, dirOf_eq c root k t kind hid hk ht hroot,
    dirOf_eq c' root k' t' kind' hid' hk' ht' hroot', ?_⟩
  -- equal components force everything to be equal
  have core : [pathSegment c kind.base, pathFromTarget k t] <+:
      [pathSegment c' kind'.base, pathFromTarget k' t'] ∨
      [pathSegment c' kind'.base, pathFromTarget k' t'] <+:
      [pathSegment c kind.base, pathFromTarget k t] → False := by
    intro h
    have he : [pathSegment c kind.base, pathFromTarget k t] =
        [pathSegment c' kind'.base, pathFromTarget k' t'] := by
      rcases h with h | h
      · exact h.eq_of_length (by simp)
      · exact (h.eq_of_length (by simp)).symm
    simp only [List.cons.injEq, and_true] at he
    obtain ⟨h1, h2⟩ := pathSegment_inj he.1
    obtain ⟨h3, h4⟩ := pathFromTarget_inj hc hc' he.2
    exact hne ⟨h1, h2, h3, h4⟩
  have segAfl : ∀ (x : Ctx) (q : Kind), q ≠ .output → pathSegment x q.base ≠ c%"afl" := by
    intro x q hq h
    obtain ⟨r, hr⟩ := pathSegment_head x q
    rw [hr] at h
    have := congrArg List.head? h
    cases q <;> simp_all [Kind.base]
  unfold Apart
  by_cases ho : kind = .output <;> by_cases ho' : kind' = .output
  · simp only [ho, ho', if_true, List.append_assoc, List.prefix_append_right_inj]
    rw [ho, ho'] at core
    constructor
    · intro h; exact core (Or.inl (by simpa using h))
    · intro h; exact core (Or.inr (by simpa using h))
  · have := segAfl c' kind' ho'
    simp only [ho, ho', if_true, if_false, List.append_assoc, List.prefix_append_right_inj,
      List.nil_append, List.singleton_append, List.cons_prefix_cons]
    exact ⟨fun h => this h.1.symm, fun h => this h.1⟩
  · have := segAfl c kind ho
    simp only [ho, ho', if_true, if_false, List.append_assoc, List.prefix_append_right_inj,
      List.nil_append, List.singleton_append, List.cons_prefix_cons]
    exact ⟨fun h => this h.1, fun h => this h.1.symm⟩
  · simp only [ho, ho', if_false, List.append_assoc, List.prefix_append_right_inj, List.nil_append]
    exact ⟨fun h => core (Or.inl h),
      fun h => core (Or.inr h)⟩

/-- **C06 (below the output directory).** Crashes, hangs and queue are three different directories inside
the target's output directory. -/
theorem C06_findings_inside (c : Ctx) (k t : Str) (p : Path) (h : outputDirFromTarget c k t = .ok p) :
    crashesDirFromTarget c k t = .ok (p ++ [c%"default", c%"crashes"]) ∧
    hangsDirFromTarget c k t = .ok (p ++ [c%"default", c%"hangs"]) ∧
    queueDirFromTarget c k t = .ok (p ++ [c%"default", c%"queue"]) := by
  have e : ∀ x, x ∈ [c%"crashes", c%"hangs", c%"queue"] →
      Path.join p (c%"default/" ++ x) = p ++ [c%"default", x] := by
    intro x hx
    simp only [List.mem_cons, List.not_mem_nil, or_false] at hx
    rcases hx with rfl | rfl | rfl <;> rfl
  simp only [crashesDirFromTarget, hangsDirFromTarget, queueDirFromTarget, h, Out.ok_bind]
  exact ⟨congrArg Out.ok (e _ (by simp)), congrArg Out.ok (e _ (by simp)), congrArg Out.ok (e _ (by simp))⟩

/-- **C06 (limit).** Only the names count: cargo targets `a-b` and `a_b` (e.g. integration tests of two
packages of a workspace) share all directories. -/
theorem C06_dash_underscore_share (c : Ctx) (t : Str) (kind : Kind) :
    dirOf c c%"a-b" t kind = dirOf c c%"a_b" t kind := by
  cases kind <;> rfl

/-- A context for examples: no variables set, target directory `/t`. -/
def exCtx : Ctx := ⟨fun _ => none, false, c%"ThreadId(1)", fun _ => some [c%"t"]⟩

/-- Non-vacuity of C06. -/
example : targetDirectory exCtx false false = .ok [c%"t"] ∧ IdOk exCtx ∧
    NoSlash c%"my-crate" ∧ NoSlash c%"m::t" ∧ ':' ∉ c%"my-crate" := by
  refine ⟨rfl, ?_, by unfold NoSlash; decide, by unfold NoSlash; decide, by decide⟩
  intro id h
  simp [maybeId, exCtx, Env.var] at h

/-! ## C09 -/

/-- **C09.** Each switch is on exactly if its variable is set to Unicode text other than `0`. -/
theorem C09_switches (e : Env) :
    (testFuzzEnabled e = true ↔ On e c%"TEST_FUZZ") ∧
    (coverageEnabled e = true ↔ On e c%"TEST_FUZZ_COVERAGE") ∧
    (displayEnabled e = true ↔ On e c%"TEST_FUZZ_DISPLAY") ∧
    (prettyPrintEnabled e = true ↔ On e c%"TEST_FUZZ_PRETTY_PRINT") ∧
    (replayEnabled e = true ↔ On e c%"TEST_FUZZ_REPLAY") ∧
    (writeEnabled e = true ↔ On e c%"TEST_FUZZ_WRITE") := by
  have key : ∀ opt var : Str,
      c%"TEST_FUZZ" ++ (if opt.isEmpty then [] else c%"_") ++ opt = var →
      (enabled e opt = true ↔ On e var) := by
    intro opt var hv
    unfold enabled On Env.var
    simp only [hv]
    split
    · next v hh =>
      split at hh
      · next s hs =>
        simp only [Option.some.injEq] at hh
        subst hh
        simp [hs, bne_iff_ne]
      · cases hh
    · next hh =>
      split at hh
      · cases hh
      · next hs =>
        simp only [Bool.false_eq_true, false_iff, not_exists, not_and]
        intro v hv'
        exact absurd hv' (hs v)
  exact ⟨key _ _ rfl, key _ _ rfl, key _ _ rfl, key _ _ rfl, key _ _ rfl, key _ _ rfl⟩

/-- **C09 (independence).** The six switches read six different variables, so setting one never changes
another. -/
theorem C09_variables_distinct :
    [c%"TEST_FUZZ", c%"TEST_FUZZ_COVERAGE", c%"TEST_FUZZ_DISPLAY", c%"TEST_FUZZ_PRETTY_PRINT",
      c%"TEST_FUZZ_REPLAY", c%"TEST_FUZZ_WRITE"].Nodup := by decide

/-- Non-vacuity of C09, with the two surprising cases: an empty value is on, a non-Unicode one is off. -/
example : testFuzzEnabled (fun k => if k = c%"TEST_FUZZ" then some (.utf8 []) else none) = true ∧
    testFuzzEnabled (fun k => if k = c%"TEST_FUZZ" then some (.other [255]) else none) = false ∧
    testFuzzEnabled (fun k => if k = c%"TEST_FUZZ" then some (.utf8 ['0']) else none) = false := by
  decide

end TF
