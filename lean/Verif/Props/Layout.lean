import Verif.Props.Naming
import Mathlib.Data.List.Forall2

/-!
# Where everything is (C06)

The names of directories, as they appear to users: `target/corpus/<crate>::<path>`, `target/afl/output/…`, with the id
of the session appended if there is one.
-/

namespace TF

namespace Spec

/-- The id of a session: the variable `TEST_FUZZ_ID`, if it is set and valid Unicode; otherwise, if test-fuzz tests
itself, the id of the thread, with its parentheses turned into underscores; otherwise nothing. -/
inductive SessionId (c : Ctx) : Option Str → Prop where
  | given (id : Str) : c.env c%"TEST_FUZZ_ID" = some (.utf8 id) → SessionId c (some id)
  | thread (id : Str) : (∀ s, c.env c%"TEST_FUZZ_ID" ≠ some (.utf8 s)) → c.inTest = true →
      List.Forall₂ (fun a b => ((a = '(' ∨ a = ')') ∧ b = '_') ∨ (a ≠ '(' ∧ a ≠ ')' ∧ b = a)) c.threadId id →
      SessionId c (some id)
  | none : (∀ s, c.env c%"TEST_FUZZ_ID" ≠ some (.utf8 s)) → c.inTest = false → SessionId c none

/-- The manifest cargo is asked about. -/
inductive Manifest (c : Ctx) : Option Str → Prop where
  | given (m : Str) : c.env c%"TEST_FUZZ_MANIFEST_PATH" = some (.utf8 m) → Manifest c (some m)
  | none : (∀ s, c.env c%"TEST_FUZZ_MANIFEST_PATH" ≠ some (.utf8 s)) → Manifest c none

/-- The name of a directory: with the session's id, if there is one. -/
def segment (base : Str) : Option Str → Str
  | some id => base ++ '_' :: id
  | none => base

/-- Where the artifacts of a target are, below the target directory of cargo. -/
def place (id : Option Str) (krate target : Str) : Kind → Path
  | .corpus => [segment c%"corpus" id, krate.map (fun x => if x = '-' then '_' else x) ++ c%"::" ++ target]
  | .genericArgs => [segment c%"generic_args" id, krate.map (fun x => if x = '-' then '_' else x) ++ c%"::" ++ target]
  | .implGenericArgs =>
    [segment c%"impl_generic_args" id, krate.map (fun x => if x = '-' then '_' else x) ++ c%"::" ++ target]
  | .output =>
    [c%"afl", segment c%"output" id, krate.map (fun x => if x = '-' then '_' else x) ++ c%"::" ++ target]

end Spec

open Spec

theorem var_some {e : Env} {k s : Str} : e.var k = some s ↔ e k = some (.utf8 s) := by
  unfold Env.var
  split
  · next h => rw [h]; simp
  · next h => exact ⟨fun x => (nomatch x), fun x => absurd x (h _)⟩

theorem var_none {e : Env} {k : Str} : e.var k = none ↔ ∀ s, e k ≠ some (.utf8 s) := by
  cases h : e.var k with
  | some s => exact ⟨fun x => (nomatch x), fun x => absurd (var_some.mp h) (x s)⟩
  | none => exact ⟨fun _ s hs => (by rw [var_some.mpr hs] at h; cases h), fun _ => rfl⟩

theorem forall2_map {α β : Type} {R : α → β → Prop} {f : α → β} (hR : ∀ a b, R a b ↔ b = f a) :
    ∀ {l : List α} {m : List β}, List.Forall₂ R l m ↔ m = l.map f
  | [], m => by simp [List.forall₂_nil_left_iff]
  | a :: l, m => by
    rw [List.forall₂_cons_left_iff, List.map_cons]
    constructor
    · rintro ⟨b, m', h1, h2, rfl⟩
      rw [(hR _ _).mp h1, (forall2_map hR).mp h2]
    · rintro rfl
      exact ⟨_, _, (hR _ _).mpr rfl, (forall2_map hR).mpr rfl, rfl⟩

theorem threadText_spec (a b : Char) :
    (((a = '(' ∨ a = ')') ∧ b = '_') ∨ (a ≠ '(' ∧ a ≠ ')' ∧ b = a)) ↔ b = (if a = '(' ∨ a = ')' then '_' else a) := by
  by_cases h : a = '(' ∨ a = ')'
  · rw [if_pos h]
    constructor
    · rintro (h' | h')
      · exact h'.2
      · exact absurd h (by rw [not_or]; exact ⟨h'.1, h'.2.1⟩)
    · exact fun hb => .inl ⟨h, hb⟩
  · rw [if_neg h]
    rw [not_or] at h
    constructor
    · rintro (⟨h' | h', -⟩ | h')
      · exact absurd h' h.1
      · exact absurd h' h.2
      · exact h'.2.2
    · exact fun hb => .inr ⟨h.1, h.2, hb⟩

/-- **C06.** The id that distinguishes the directories of different runs is determined as users are told: by
`TEST_FUZZ_ID`, and only without it (and only in tests of test-fuzz itself) by the thread. -/
theorem C06_id (c : Ctx) (id : Option Str) : SessionId c id ↔ maybeId c = id := by
  unfold maybeId
  constructor
  · rintro (⟨id, h⟩ | ⟨id, h, ht, hf⟩ | ⟨h, ht⟩)
    · rw [var_some.mpr h]
    · rw [var_none.mpr h]
      simp only [ht, if_true]
      rw [(forall2_map threadText_spec).mp hf]
      rfl
    · rw [var_none.mpr h]
      simp [ht]
  · intro h
    cases hv : c.env.var c%"TEST_FUZZ_ID" with
    | some s => rw [hv] at h; subst h; exact .given s (var_some.mp hv)
    | none =>
      rw [hv] at h
      cases ht : c.inTest with
      | true =>
        simp only [ht, if_true] at h
        subst h
        exact .thread _ (var_none.mp hv) ht ((forall2_map threadText_spec).mpr rfl)
      | false =>
        simp only [ht, Bool.false_eq_true, if_false] at h
        subst h
        exact .none (var_none.mp hv) ht

theorem manifest_iff {c : Ctx} {m : Option Str} : Manifest c m ↔ c.env.var c%"TEST_FUZZ_MANIFEST_PATH" = m := by
  constructor
  · rintro (⟨m, h⟩ | h)
    · exact var_some.mpr h
    · exact var_none.mpr h
  · rintro rfl
    cases hv : c.env.var c%"TEST_FUZZ_MANIFEST_PATH" with
    | some s => exact .given s (var_some.mp hv)
    | none => exact .none (var_none.mp hv)

theorem segment_eq {c : Ctx} {id : Option Str} (h : maybeId c = id) (s : Str) : pathSegment c s = segment s id := by
  unfold pathSegment segment
  rw [h]
  cases id <;> simp

/-- **C06.** Where the artifacts of a target are: exactly this path below the target directory that cargo reports for
the manifest in force; and the directories for instrumented and for fuzzing builds are `coverage` and `afl` in it. -/
theorem C06_place (c : Ctx) (m id : Option Str) (root : Path) (hm : Manifest c m) (hroot : c.metadata m = some root)
    (hid : SessionId c id) (hn : ∀ s, id = some s → NoSlash s) :
    (∀ krate target kind, NoSlash krate → NoSlash target →
      dirOf c krate target kind = .ok (root ++ place id krate target kind)) ∧
    targetDirectory c false false = .ok root ∧
    targetDirectory c true false = .ok (root ++ [c%"coverage"]) ∧
    targetDirectory c false true = .ok (root ++ [c%"afl"]) := by
  rw [C06_id] at hid
  rw [manifest_iff] at hm
  have h0 : targetDirectory c false false = .ok root := by simp [targetDirectory, assert, hm, hroot]
  refine ⟨fun krate target kind hk ht => ?_, h0, ?_, targetDirectory_fuzzing h0⟩
  · have hok : IdOk c := fun s hs => hn s (hid.symm.trans hs)
    rw [dirOf_eq c root krate target kind hok hk ht h0, segment_eq hid]
    cases kind <;> simp [place, Kind.base, pathFromTarget, replaceChar]
  · simp only [targetDirectory, assert, hm, hroot, Bool.and_false, Bool.not_false, if_true, Out.ok_bind]
    simp only [Bool.false_eq_true, if_false]
    rw [Path.join_simple _ _ (by decide) (by decide) (by decide)]

/-- **C06 (without cargo).** If cargo does not answer, every function that needs a directory panics. -/
theorem C06_no_metadata (c : Ctx) (m : Option Str) (hm : Manifest c m) (h : c.metadata m = none) (krate target : Str)
    (kind : Kind) : dirOf c krate target kind = .panic := by
  rw [manifest_iff] at hm
  have h0 : ∀ b, targetDirectory c false b = .panic := by
    intro b
    simp [targetDirectory, assert, hm, h]
  cases kind <;> simp [dirOf, corpusDirFromTarget, genericArgsDirFromTarget, implGenericArgsDirFromTarget,
    outputDirFromTarget, corpusDirectory, genericArgsDirectory, implGenericArgsDirectory, outputDirectory, h0]

/-- **C06 (limit).** An id is not checked. With `TEST_FUZZ_ID` being `a/k::t`, the corpora are in `corpus_a/k::t`, which
is the corpus of the target `t` of `k` in a session with the id `a`: `C06_directories_apart` needs ids without `/`. -/
theorem C06_slash_in_id :
    ∃ (c c' : Ctx) (p p' : Path), SessionId c (some c%"a/k::t") ∧ SessionId c' (some c%"a") ∧
      dirOf c c%"k" c%"u" .corpus = .ok p ∧ dirOf c' c%"k" c%"t" .corpus = .ok p' ∧ p' <+: p := by
  refine ⟨⟨fun k => if k = c%"TEST_FUZZ_ID" then some (.utf8 c%"a/k::t") else none, false, [], fun _ => some [c%"t"]⟩,
    ⟨fun k => if k = c%"TEST_FUZZ_ID" then some (.utf8 c%"a") else none, false, [], fun _ => some [c%"t"]⟩,
    [c%"t", c%"corpus_a", c%"k::t", c%"k::u"], [c%"t", c%"corpus_a", c%"k::t"], .given _ rfl, .given _ rfl,
    by decide +kernel, by decide +kernel, by decide⟩

/-! ### A case of each -/

/-- In a test of test-fuzz: the second thread. -/
def testCtx : Ctx := ⟨fun _ => none, true, c%"ThreadId(2)", fun _ => some [c%"t"]⟩

example : SessionId testCtx (some c%"ThreadId_2_") := by
  rw [C06_id]; decide +kernel

example : dirOf testCtx c%"my-crate" c%"m::f" .output =
    .ok [c%"t", c%"afl", c%"output_ThreadId_2_", c%"my_crate::m::f"] :=
  (C06_place testCtx none (some c%"ThreadId_2_") [c%"t"] (by rw [manifest_iff]; rfl) rfl (by rw [C06_id]; decide +kernel)
    (by rintro s ⟨⟩; unfold NoSlash; decide)).1 _ _ .output (by unfold NoSlash; decide) (by unfold NoSlash; decide)

example : dirOf { testCtx with metadata := fun _ => none } c%"k" c%"t" .corpus = .panic :=
  C06_no_metadata _ none (by rw [manifest_iff]; rfl) rfl _ _ _

end TF
