import Verif.Model.Targets
import Verif.Lemmas.Str
import Verif.Lemmas.Utf8
import Verif.Spec.Selection

/-!
# C22, C24, C25, C59: discovery, selection, versions
-/

namespace TF

open Spec

/-! ## C22 -/

theorem splitNl_line (x r : Bytes) (h : (10 : UInt8) ∉ x) : splitNl (x ++ 10 :: r) = x :: splitNl r := by
  induction x with
  | nil => simp [splitNl]
  | cons b bs ih =>
    simp only [List.mem_cons, not_or] at h
    simp only [List.cons_append, splitNl]
    rw [if_neg (fun e => h.1 e.symm), ih h.2]

theorem splitNl_printed (ls : List Str) (h : ∀ l ∈ ls, IsLine l) :
    splitNl (printed ls) = ls.map utf8Encode := by
  induction ls with
  | nil => rfl
  | cons l ls ih =>
    have h1 : (10 : UInt8) ∉ utf8Encode l := by
      intro hm
      obtain ⟨c, hc, he⟩ := mem_utf8Encode_ascii hm (by decide)
      have : c = '\n' := by
        apply Char.ext
        apply UInt32.toNat_inj.mp
        exact he
      exact (h l List.mem_cons_self).1 (this ▸ hc)
    have : printed (l :: ls) = utf8Encode l ++ 10 :: printed ls := by simp [printed]
    rw [this, splitNl_line _ _ h1, ih (fun x hx => h x (List.mem_cons_of_mem _ hx))]
    rfl

theorem dropCr_line (l : Str) (h : IsLine l) : dropCr (utf8Encode l) = utf8Encode l := by
  unfold dropCr
  rw [if_neg]
  intro hl
  rcases List.eq_nil_or_concat l with rfl | ⟨s, c, rfl⟩
  · simp [utf8Encode] at hl
  · rw [List.concat_eq_append] at hl h
    have he : utf8Encode (s ++ [c]) = utf8Encode s ++ encodeChar c := by simp [utf8Encode]
    rw [he, List.getLast?_append_of_ne_nil _ (encodeChar_ne_nil c)] at hl
    have hm : (13 : UInt8) ∈ encodeChar c := List.mem_of_getLast? hl
    have := (mem_encodeChar_ascii hm (by decide)).2
    have hc : c = '\r' := by
      apply Char.ext
      apply UInt32.toNat_inj.mp
      exact this
    exact h.2 (by simp [hc])

theorem targetOfLine_some (l t : Str) : targetOfLine l = some t ↔ l = t ++ c%"_fuzz__::entry: test" := by
  unfold targetOfLine
  constructor
  · intro h
    split at h
    · cases h
    · next m hm =>
      rw [stripSuffix_eq_some] at h hm
      rw [hm, h]
      simp [entrySuffix]
  · intro h
    have h1 : stripSuffix c%": test" l = some (t ++ entrySuffix) := by
      rw [stripSuffix_eq_some, h]; simp [entrySuffix]
    rw [h1]
    exact (stripSuffix_eq_some _ _ _).mpr rfl

theorem targetOfLine_none (l : Str) : targetOfLine l = none ↔ listsHarness l = false := by
  constructor
  · intro h
    cases hl : listsHarness l with
    | false => rfl
    | true =>
      unfold listsHarness at hl
      rw [List.isSuffixOf_iff_suffix] at hl
      obtain ⟨t, ht⟩ := hl
      rw [(targetOfLine_some l t).mpr ht.symm] at h
      cases h
  · intro h
    cases ht : targetOfLine l with
    | none => rfl
    | some t =>
      have := (targetOfLine_some l t).mp ht
      have hl : listsHarness l = true := by
        unfold listsHarness
        rw [List.isSuffixOf_iff_suffix]
        exact ⟨t, this.symm⟩
      rw [hl] at h; cases h

theorem targetsLoop_printed (ls : List Str) (h : ∀ l ∈ ls, IsLine l) :
    targetsLoop (ls.map utf8Encode) = .ok (ls.filterMap targetOfLine) := by
  induction ls with
  | nil => rfl
  | cons l ls ih =>
    simp only [List.map_cons, targetsLoop]
    rw [dropCr_line l (h l List.mem_cons_self), utf8Decode_encode]
    simp only
    rw [ih (fun x hx => h x (List.mem_cons_of_mem _ hx))]
    simp only [Out.ok_bind]
    cases ht : targetOfLine l with
    | none => simp [ht]
    | some t => simp [ht]

/-- **C22.** If an executable lists `lines`, the targets found are exactly those `t` for which
`t_fuzz__::entry: test` is one of the lines, one per line and in the order of the lines. -/
theorem C22_discovery_exact (lines : List Str) (h : ∀ l ∈ lines, IsLine l) :
    ∃ ts, targets (some (printed lines)) = .ok ts ∧
      ts.map (· ++ c%"_fuzz__::entry: test") = lines.filter listsHarness := by
  refine ⟨lines.filterMap targetOfLine, ?_, ?_⟩
  · unfold targets
    simp only
    rw [splitNl_printed lines h, targetsLoop_printed lines h]
  · clear h
    induction lines with
    | nil => rfl
    | cons l ls ih =>
      cases ht : targetOfLine l with
      | none =>
        have hl := (targetOfLine_none l).mp ht
        simp only [List.filterMap_cons, ht, List.filter_cons, hl, Bool.false_eq_true, if_false]
        exact ih
      | some t =>
        have hl : listsHarness l = true := by
          cases hh : listsHarness l with
          | true => rfl
          | false => rw [(targetOfLine_none l).mpr hh] at ht; cases ht
        simp only [List.filterMap_cons, ht, List.filter_cons, hl, if_true, List.map_cons]
        rw [ih, (targetOfLine_some l t).mp ht]

/-- **C22 (unreadable listing).** A process that cannot be started, or output with a line that is not
UTF-8, is an error, never a shorter list of targets. -/
theorem C22_unreadable_is_error (good : List Str) (bad : Bytes) (rest : Bytes)
    (hg : ∀ l ∈ good, IsLine l) (hnl : (10 : UInt8) ∉ bad) (hcr : bad.getLast? ≠ some 13)
    (hbad : utf8Decode bad = none) :
    (∃ e, targets none = .err e) ∧ ∃ e, targets (some (printed good ++ bad ++ 10 :: rest)) = .err e := by
  refine ⟨⟨_, rfl⟩, ?_⟩
  unfold targets
  simp only
  induction good with
  | nil =>
    refine ⟨c%"Could not get output of", ?_⟩
    have : printed [] ++ bad ++ 10 :: rest = bad ++ 10 :: rest := by simp [printed]
    rw [this, splitNl_line _ _ hnl]
    simp [targetsLoop, dropCr, hcr, hbad]
  | cons l ls ih =>
    obtain ⟨e, he⟩ := ih (fun x hx => hg x (List.mem_cons_of_mem _ hx))
    refine ⟨e, ?_⟩
    have h1 : (10 : UInt8) ∉ utf8Encode l := by
      intro hm
      obtain ⟨c, hc, he⟩ := mem_utf8Encode_ascii hm (by decide)
      have : c = '\n' := by
        apply Char.ext
        apply UInt32.toNat_inj.mp
        exact he
      exact (hg l List.mem_cons_self).1 (this ▸ hc)
    have : printed (l :: ls) ++ bad ++ 10 :: rest = utf8Encode l ++ 10 :: (printed ls ++ bad ++ 10 :: rest) := by
      simp [printed]
    rw [this, splitNl_line _ _ h1]
    simp only [targetsLoop]
    rw [dropCr_line l (hg l List.mem_cons_self), utf8Decode_encode]
    simp only
    rw [he]
    rfl

/-- **C22 (executables).** If every executable can be listed, the result has exactly the executables
with at least one target, in order, each with all its targets. -/
theorem C22_executables (run : Exe → Option Bytes) (ts : Exe → List Str) (es : List Exe)
    (h : ∀ e ∈ es, targets (run e) = .ok (ts e)) :
    executableTargets run es = .ok ((es.filter fun e => !(ts e).isEmpty).map fun e => (e, ts e)) := by
  have hall : allTargets run es = .ok (es.map fun e => (e, ts e)) := by
    induction es with
    | nil => rfl
    | cons e es ih =>
      simp only [allTargets]
      rw [h e List.mem_cons_self, ih (fun x hx => h x (List.mem_cons_of_mem _ hx))]
      simp
  unfold executableTargets
  rw [hall]
  simp only [Out.ok_bind, Out.ok.injEq]
  clear h hall
  induction es with
  | nil => rfl
  | cons e es ih =>
    simp only [List.map_cons, List.filter_cons]
    by_cases hh : (ts e).isEmpty = true
    · simp [hh, ih]
    · simp [hh, ih]

/-- **C22 (one failing executable fails the command).** -/
theorem C22_failing_executable (run : Exe → Option Bytes) (pre post : List Exe) (e : Exe) (msg : Str)
    (hpre : ∀ x ∈ pre, ∃ ts, targets (run x) = .ok ts) (he : targets (run e) = .err msg) :
    executableTargets run (pre ++ e :: post) = .err msg := by
  have : allTargets run (pre ++ e :: post) = .err msg := by
    induction pre with
    | nil => simp [allTargets, he]
    | cons x xs ih =>
      obtain ⟨ts, hts⟩ := hpre x List.mem_cons_self
      simp only [List.cons_append, allTargets, hts]
      rw [ih (fun y hy => hpre y (List.mem_cons_of_mem _ hy))]
      rfl
  unfold executableTargets
  rw [this]
  rfl

/-- Non-vacuity of C22: a listing with a harness, an ordinary test and the auto-generation test. -/
example : targets (some (printed [c%"m::t_fuzz__::auto_generate: test", c%"m::t_fuzz__::entry: test",
    c%"m::plain: test", [], c%"3 tests, 0 benchmarks"])) = .ok [c%"m::t"] := by decide +kernel

/-! ## C24 -/

theorem pairs_filterMap {α β : Type} (f : List β → List β) (l : List (α × List β)) :
    pairs (l.filterMap fun (e, ts) => if (f ts).isEmpty then none else some (e, f ts)) =
      l.flatMap fun (e, ts) => (f ts).map fun t => (e, t) := by
  induction l with
  | nil => rfl
  | cons x xs ih =>
    obtain ⟨e, ts⟩ := x
    simp only [List.filterMap_cons, List.flatMap_cons]
    cases hf : (f ts).isEmpty with
    | true =>
      simp only [if_true]
      rw [ih, List.isEmpty_iff.mp hf]
      rfl
    | false =>
      simp only [Bool.false_eq_true, if_false]
      unfold pairs at ih ⊢
      rw [List.flatMap_cons, ih]

/-- **C24.** The selected (executable, target) pairs are, in order, exactly those whose target contains the
pattern – equals it with `--exact` – and all of them if there is no pattern. -/
theorem C24_selection (o : Opts) (ets : List (Exe × List Str)) :
    pairs (selectTargets o ets) =
      match o.ztarget with
      | none => pairs ets
      | some pat => (pairs ets).filter fun (_, t) => if o.exact then t == pat else decide (pat <:+: t) := by
  unfold selectTargets
  cases hz : o.ztarget with
  | none => rfl
  | some pat =>
    simp only
    unfold filterExecutableTargets
    rw [pairs_filterMap (filterTargets o pat) ets]
    have hsel : ∀ ts, filterTargets o pat ts =
        ts.filter fun t => if o.exact then t == pat else decide (pat <:+: t) := by
      intro ts
      unfold filterTargets
      apply List.filter_congr
      intro t _
      cases o.exact with
      | true => simp
      | false =>
        simp only [Bool.not_false, Bool.true_and, Bool.false_eq_true, if_false]
        have h1 : contains t pat = decide (pat <:+: t) := by
          rw [Bool.eq_iff_iff, contains_iff]; simp
        rw [h1]
        by_cases hp : pat <:+: t
        · simp [hp]
        · have : t ≠ pat := fun e => hp (e ▸ List.infix_rfl)
          simp [hp, this]
    clear hz
    unfold pairs
    induction ets with
    | nil => rfl
    | cons x xs ih =>
      obtain ⟨e, ts⟩ := x
      simp only [List.flatMap_cons, List.filter_append]
      rw [← ih, hsel, List.filter_map]
      rfl

/-- **C24 (`--exact` selects no more).** -/
theorem C24_exact_selects_less (o : Opts) (pat : Str) (ets : List (Exe × List Str)) (x : Exe × Str)
    (h : x ∈ pairs (selectTargets { o with exact := true, ztarget := some pat } ets)) :
    x ∈ pairs (selectTargets { o with exact := false, ztarget := some pat } ets) := by
  rw [C24_selection] at h ⊢
  simp only [List.mem_filter, if_true, Bool.false_eq_true, if_false] at h ⊢
  refine ⟨h.1, ?_⟩
  have := h.2
  simp only [beq_iff_eq] at this
  simp [this]

/-- **C24 (executables).** Every executable left has a target left, and is one of the original ones. -/
theorem C24_no_empty_executable (o : Opts) (ets : List (Exe × List Str))
    (h : ∀ x ∈ ets, x.2 ≠ []) : ∀ x ∈ selectTargets o ets, x.2 ≠ [] := by
  unfold selectTargets
  split
  · intro x hx
    unfold filterExecutableTargets at hx
    rw [List.mem_filterMap] at hx
    obtain ⟨⟨e, ts⟩, -, hy⟩ := hx
    simp only at hy
    split at hy
    · cases hy
    · next hne =>
      simp only [Option.some.injEq] at hy
      subst hy
      simpa using hne
  · exact h

/-- **C24 (nothing selected).** The commands that need targets fail with `Found no fuzz targets` and the
pattern exactly if no pair is selected; otherwise they work on the selected pairs in order. -/
theorem C24_flatten (o : Opts) (ets : List (Exe × List Str)) :
    flattenExecutableTargets o ets =
      if pairs ets = [] then
        .err (c%"Found no fuzz targets" ++
          match o.ztarget with
          | none => []
          | some pat => (if o.exact then c%" equal to `" else c%" containing `") ++ pat ++ c%"`")
      else .ok (pairs ets) := by
  have hp : (ets.flatMap fun x => x.2.map fun t => (x.1, t)) = pairs ets := rfl
  unfold flattenExecutableTargets ensure
  simp only
  rw [hp]
  by_cases h : pairs ets = []
  · simp only [h, List.isEmpty_nil, Bool.not_true, Bool.false_eq_true, if_false, if_true, Out.err_bind]
    unfold matchMessage
    cases o.ztarget with
    | none => rfl
    | some pat => cases o.exact <;> simp
  · simp [h]

/-- Non-vacuity of C24. -/
example : pairs (selectTargets { ztarget := some c%"b" }
    [(⟨[], c%"x", ⟨none, none⟩⟩, [c%"ab", c%"c"]), (⟨[], c%"y", ⟨none, none⟩⟩, [c%"d"])]) =
    [(⟨[], c%"x", ⟨none, none⟩⟩, c%"ab")] := by decide

/-! ## C25 -/

/-- Requirement `^a` on a release, spelled out. -/
theorem reqMatches_release (a b : Version) (ha : Release a) (hb : Release b) :
    reqMatches a b = true ↔ Compatible a b ∧ ¬ Newer a b := by
  unfold Release at ha hb
  unfold reqMatches matchesCaret Compatible Newer preGe
  rw [ha, hb]
  obtain ⟨a1, a2, a3, ap⟩ := a
  obtain ⟨b1, b2, b3, bp⟩ := b
  simp only [List.isEmpty_nil, if_true]
  by_cases h1 : b1 = a1
  · subst h1
    by_cases h0 : b1 = 0
    · subst h0
      by_cases h2 : b2 = a2
      · subst h2
        by_cases h3 : b2 = 0
        · subst h3
          by_cases h4 : b3 = a3
          · subst h4; simp
          · have : ¬ a3 = b3 := fun e => h4 e.symm
            simp [h4, this]
        · by_cases h4 : b3 = a3
          · subst h4; simp [Nat.pos_of_ne_zero h3]
          · simp [h3, h4, Nat.pos_of_ne_zero h3]; omega
      · have : ¬ a2 = b2 := fun e => h2 e.symm
        by_cases h3 : a2 = 0
        · subst h3; simp [h2, this]
        · simp [h2, this, Nat.pos_of_ne_zero h3]
    · have hp : 0 < b1 := Nat.pos_of_ne_zero h0
      by_cases h2 : b2 = a2
      · subst h2
        by_cases h4 : b3 = a3
        · subst h4; simp [hp, h0]
        · simp [hp, h0, h4]; omega
      · simp [hp, h0, h2]; omega
  · have : ¬ a1 = b1 := fun e => h1 e.symm
    simp [h1, this]

theorem compatible_comm (a b : Version) : Compatible a b ↔ Compatible b a := by
  unfold Compatible; constructor <;> (rintro ⟨h1, h2⟩; refine ⟨h1.symm, fun h => ?_⟩) <;>
    (obtain ⟨h3, h4⟩ := h2 (by omega); exact ⟨h3.symm, fun h => (h4 (by omega)).symm⟩)

theorem newer_asymm (a b : Version) (h : Newer a b) : ¬ Newer b a := by
  unfold Newer at *; omega

/-- **C25.** For releases, the check accepts a dependency exactly if it is semver-compatible with the
tool, and then suggests an upgrade exactly if the dependency is newer. -/
theorem C25_release_check (dep bin : Version) (hd : Release dep) (hb : Release bin) :
    (Compatible dep bin → ¬ Newer dep bin → checkDependencyVersion (some dep) bin = .ok .none) ∧
    (Compatible dep bin → Newer dep bin → checkDependencyVersion (some dep) bin = .ok .upgrade) ∧
    (¬ Compatible dep bin → ∃ e, checkDependencyVersion (some dep) bin = .err e) := by
  have h1 := reqMatches_release dep bin hd hb
  have h2 := reqMatches_release bin dep hb hd
  have hpre : bin.pre.isEmpty = true := by unfold Release at hb; rw [hb]; rfl
  unfold checkDependencyVersion ensure
  simp only [hpre, if_true]
  refine ⟨?_, ?_, ?_⟩
  · intro hc hn
    simp [h1.mpr ⟨hc, hn⟩]
  · intro hc hn
    have e1 : reqMatches dep bin = false := by
      cases h : reqMatches dep bin with
      | false => rfl
      | true => exact absurd hn (h1.mp h).2
    have e2 : reqMatches bin dep = true := h2.mpr ⟨(compatible_comm _ _).mp hc, newer_asymm _ _ hn⟩
    simp [e1, e2]
  · intro hc
    have e1 : reqMatches dep bin = false := by
      cases h : reqMatches dep bin with
      | false => rfl
      | true => exact absurd (h1.mp h).1 hc
    have e2 : reqMatches bin dep = false := by
      cases h : reqMatches bin dep with
      | false => rfl
      | true => exact absurd ((compatible_comm _ _).mp (h2.mp h).1) hc
    exact ⟨c%"incompatible", by simp [e1, e2]⟩

/-- **C25 (missing dependency).** -/
theorem C25_missing_dependency (bin : Version) : ∃ e, checkDependencyVersion none bin = .err e :=
  ⟨_, rfl⟩

/-- **C25 (pre-release tool).** A tool that is a pre-release is never rejected. -/
theorem C25_prerelease_tool (dep bin : Version) (h : ¬ Release bin) :
    ∃ hint, checkDependencyVersion (some dep) bin = .ok hint := by
  have : bin.pre.isEmpty = false := by
    unfold Release at h
    cases hb : bin.pre with
    | nil => exact absurd hb h
    | cons a as => rfl
  unfold checkDependencyVersion
  simp only [this]
  cases reqMatches dep bin
  · exact ⟨.upgrade, by simp⟩
  · exact ⟨.none, by simp⟩

/-- **C25 (all executables are checked).** The command goes on exactly if the check accepts both
dependencies of every selected executable. -/
theorem C25_all_checked (ctf cafl : Version) (es : List ExeVersions) :
    checkVersions ctf cafl es = .ok () ↔
      ∀ e ∈ es, (∃ h, checkDependencyVersion e.testFuzzVersion ctf = .ok h) ∧
        (∃ h, checkDependencyVersion e.aflVersion cafl = .ok h) := by
  induction es with
  | nil => simp [checkVersions]
  | cons e es ih =>
    simp only [checkVersions, List.mem_cons, forall_eq_or_imp]
    rw [← ih]
    cases h1 : checkDependencyVersion e.testFuzzVersion ctf <;> simp
    cases h2 : checkDependencyVersion e.aflVersion cafl <;> simp

/-- Non-vacuity of C25. -/
example : Compatible ⟨7, 1, 0, []⟩ ⟨7, 0, 5, []⟩ ∧ Newer ⟨7, 1, 0, []⟩ ⟨7, 0, 5, []⟩ ∧
    checkDependencyVersion (some ⟨7, 1, 0, []⟩) ⟨7, 0, 5, []⟩ = .ok .upgrade ∧
    ¬ Compatible ⟨0, 15, 0, []⟩ ⟨0, 16, 0, []⟩ := by
  unfold Compatible Newer
  refine ⟨by simp, by simp, by decide, by simp⟩

/-! ## C59 -/

theorem idsAndNames_ok (m : Metadata) (ids : List Str) (pkg : Str → Pkg)
    (h : ∀ id ∈ ids, package m id = .ok (pkg id)) :
    idsAndNames m ids = .ok (ids.map fun id => (id, (pkg id).name)) := by
  induction ids with
  | nil => rfl
  | cons id ids ih =>
    simp only [idsAndNames, packageName, h id List.mem_cons_self]
    simp only [Out.ok_bind]
    rw [ih (fun x hx => h x (List.mem_cons_of_mem _ hx))]
    simp

/-- As `C59_dependency_versions`, with the lookups given. -/
theorem dependency_versions (m : Metadata) (nodes : List DepNode) (pkg : Str → Pkg) (deps : Str → List Str)
    (id : Str) (hres : m.resolve = some nodes)
    (hnode : ∀ i, (i = id ∨ i ∈ deps id) → ∃ n ∈ nodes, nodes.find? (fun n => n.id == i) = some n ∧
      n.dependencies = deps i)
    (hpkg : ∀ i, (i = id ∨ i ∈ deps id) → ∀ x ∈ deps i, package m x = .ok (pkg x)) :
    testFuzzAndAflVersions m id =
      match (deps id).find? (fun x => (pkg x).name == c%"test-fuzz") with
      | none => .ok (none, none)
      | some tf => .ok (some (pkg tf).version,
          ((deps tf).find? (fun x => (pkg x).name == c%"afl")).map fun x => (pkg x).version) := by
  have dep : ∀ i, (i = id ∨ i ∈ deps id) → ∀ name, packageDependency m i name =
      .ok ((deps i).find? fun x => (pkg x).name == name) := by
    intro i hi name
    obtain ⟨n, -, hf, hd⟩ := hnode i hi
    unfold packageDependency
    rw [hres]
    simp only
    rw [hf]
    simp only
    rw [hd, idsAndNames_ok m (deps i) pkg (hpkg i hi)]
    simp only [Out.ok_bind, Out.ok.injEq]
    generalize deps i = l
    induction l with
    | nil => rfl
    | cons x xs ih =>
      simp only [List.map_cons, List.find?_cons]
      cases (pkg x).name == name with
      | true => rfl
      | false => exact ih
  unfold testFuzzAndAflVersions
  rw [dep id (Or.inl rfl)]
  simp only [Out.ok_bind]
  cases htf : (deps id).find? (fun x => (pkg x).name == c%"test-fuzz") with
  | none => rfl
  | some tf =>
    have hmem : tf ∈ deps id := List.mem_of_find?_eq_some htf
    simp only
    rw [dep tf (Or.inr hmem)]
    have hv : packageVersion m tf = .ok (pkg tf).version := by
      simp [packageVersion, hpkg id (Or.inl rfl) tf hmem]
    simp only [Out.ok_bind, hv]
    cases ha : (deps tf).find? (fun x => (pkg x).name == c%"afl") with
    | none => rfl
    | some a =>
      have ham : a ∈ deps tf := List.mem_of_find?_eq_some ha
      have hv : packageVersion m a = .ok (pkg a).version := by
        simp [packageVersion, hpkg tf (Or.inr hmem) a ham]
      simp [hv]

theorem find_only {α : Type} {l : List α} {f : α → Bool} {a : α} (ha : a ∈ l) (hf : f a = true) (h : ∀ b ∈ l, f b = true → b = a) :
    l.find? f = some a := by
  cases hx : l.find? f with
  | none => exact absurd hf (List.find?_eq_none.mp hx a ha)
  | some b => rw [h b (List.mem_of_find?_eq_some hx) (List.find?_some hx)]

/-- **C59.** In a well-formed dependency graph – each id that occurs is that of one node, whose dependencies are `deps`, and of one
package `pkg` – the test-fuzz version of a package is the version of its first direct dependency named `test-fuzz`, and the afl
version is that of the first direct dependency of *that* package named `afl`. -/
theorem C59_dependency_versions (m : Metadata) (nodes : List DepNode) (pkg : Str → Pkg) (deps : Str → List Str)
    (id : Str) (hres : m.resolve = some nodes)
    (hnode : ∀ i, (i = id ∨ i ∈ deps id) → ⟨i, deps i⟩ ∈ nodes ∧ ∀ n ∈ nodes, n.id = i → n = ⟨i, deps i⟩)
    (hpkg : ∀ i, (i = id ∨ i ∈ deps id) → ∀ x ∈ deps i, pkg x ∈ m.packages ∧ (pkg x).id = x ∧ ∀ p ∈ m.packages, p.id = x → p = pkg x) :
    testFuzzAndAflVersions m id =
      match (deps id).find? (fun x => (pkg x).name == c%"test-fuzz") with
      | none => .ok (none, none)
      | some tf => .ok (some (pkg tf).version,
          ((deps tf).find? (fun x => (pkg x).name == c%"afl")).map fun x => (pkg x).version) := by
  refine dependency_versions m nodes pkg deps id hres (fun i hi => ?_) fun i hi x hx => ?_
  · obtain ⟨h1, h2⟩ := hnode i hi
    exact ⟨_, h1, find_only h1 (by simp) fun n hn h => h2 n hn (by simpa using h), rfl⟩
  · obtain ⟨h1, h2, h3⟩ := hpkg i hi x hx
    unfold package
    rw [find_only h1 (by simp [h2]) fun p hp h => h3 p hp (by simpa using h)]

/-- **C59 (errors).** A missing graph or an executable's package missing from the graph is an error. -/
theorem C59_missing_is_error (m : Metadata) (id : Str)
    (h : m.resolve = none ∨ ∃ nodes, m.resolve = some nodes ∧ ∀ n ∈ nodes, n.id ≠ id) :
    ∃ e, testFuzzAndAflVersions m id = .err e := by
  unfold testFuzzAndAflVersions packageDependency
  rcases h with h | ⟨nodes, h, hn⟩
  · rw [h]; exact ⟨_, rfl⟩
  · rw [h]
    have : nodes.find? (fun n => n.id == id) = none := by
      rw [List.find?_eq_none]
      intro n hm
      simpa using hn n hm
    simp only [this]
    exact ⟨_, rfl⟩

/-- Non-vacuity of C59: `app` depends on `serde` and `test-fuzz`, and test-fuzz depends on `afl`. -/
def exMeta : Metadata :=
  { packages := [⟨c%"1", c%"app", ⟨0, 1, 0, []⟩⟩, ⟨c%"2", c%"serde", ⟨1, 0, 0, []⟩⟩,
      ⟨c%"3", c%"test-fuzz", ⟨7, 2, 0, []⟩⟩, ⟨c%"4", c%"afl", ⟨0, 15, 0, []⟩⟩]
    resolve := some [⟨c%"1", [c%"2", c%"3"]⟩, ⟨c%"2", []⟩, ⟨c%"3", [c%"4"]⟩, ⟨c%"4", []⟩] }

example : testFuzzAndAflVersions exMeta c%"1" = .ok (some ⟨7, 2, 0, []⟩, some ⟨0, 15, 0, []⟩) := by
  decide

/-- C59_dependency_versions: its hypotheses hold there. -/
example : testFuzzAndAflVersions exMeta c%"1" = .ok (some ⟨7, 2, 0, []⟩, some ⟨0, 15, 0, []⟩) :=
  C59_dependency_versions exMeta [⟨c%"1", [c%"2", c%"3"]⟩, ⟨c%"2", []⟩, ⟨c%"3", [c%"4"]⟩, ⟨c%"4", []⟩]
    (fun x => if x = c%"2" then ⟨c%"2", c%"serde", ⟨1, 0, 0, []⟩⟩ else if x = c%"3" then ⟨c%"3", c%"test-fuzz", ⟨7, 2, 0, []⟩⟩
      else ⟨c%"4", c%"afl", ⟨0, 15, 0, []⟩⟩)
    (fun x => if x = c%"1" then [c%"2", c%"3"] else if x = c%"3" then [c%"4"] else []) c%"1" rfl
    (by rintro i (rfl | h); · decide
        · have : i = c%"2" ∨ i = c%"3" := by simpa using h
          rcases this with rfl | rfl <;> decide)
    (by rintro i (rfl | h) x hx
        · have : x = c%"2" ∨ x = c%"3" := by simpa using hx
          rcases this with rfl | rfl <;> decide
        · have : i = c%"2" ∨ i = c%"3" := by simpa using h
          rcases this with rfl | rfl
          · simp at hx
          · have : x = c%"4" := by simpa using hx
            subst this; decide)

theorem idsAndNames_err (m : Metadata) (ids : List Str) (x : Str) (hx : x ∈ ids) (hn : ∀ p ∈ m.packages, p.id ≠ x) :
    ∃ e, idsAndNames m ids = .err e := by
  have hp : ∀ y, (∃ p, package m y = .ok p) ∨ ∃ e, package m y = .err e := by
    intro y
    unfold package
    cases m.packages.find? (fun p => p.id == y) with
    | some p => exact .inl ⟨p, rfl⟩
    | none => exact .inr ⟨_, rfl⟩
  induction ids with
  | nil => cases hx
  | cons y l ih =>
    simp only [idsAndNames, packageName]
    rcases hp y with ⟨p, h⟩ | ⟨e, h⟩
    · rcases List.mem_cons.mp hx with rfl | hx
      · unfold package at h
        rw [List.find?_eq_none.mpr fun p hm => by simpa using hn p hm] at h
        cases h
      · obtain ⟨e, he⟩ := ih hx
        rw [h, he]
        exact ⟨e, rfl⟩
    · rw [h]; exact ⟨e, rfl⟩

/-- **C59 (unknown dependencies).** If any direct dependency of a package is not among the packages, then its versions are not found,
whether or not that dependency is test-fuzz. -/
theorem C59_unknown_is_error (m : Metadata) (nodes : List DepNode) (id : Str) (deps : List Str) (hres : m.resolve = some nodes)
    (hnode : ⟨id, deps⟩ ∈ nodes ∧ ∀ n ∈ nodes, n.id = id → n = ⟨id, deps⟩) (x : Str) (hx : x ∈ deps)
    (hn : ∀ p ∈ m.packages, p.id ≠ x) : ∃ e, testFuzzAndAflVersions m id = .err e := by
  obtain ⟨e, he⟩ := idsAndNames_err m deps x hx hn
  unfold testFuzzAndAflVersions packageDependency
  rw [hres]
  simp only [find_only (f := fun n : DepNode => n.id == id) hnode.1 (by simp) fun n hm h => hnode.2 n hm (by simpa using h), he]
  exact ⟨e, rfl⟩

/-- C59_unknown_is_error: `serde` is missing from the packages of the example above. -/
example : ∃ e, testFuzzAndAflVersions { exMeta with packages := exMeta.packages.filter (·.name != c%"serde") } c%"1" = .err e :=
  C59_unknown_is_error _ _ c%"1" [c%"2", c%"3"] rfl (by decide) c%"2" (by decide) (by decide)

end TF
