import Verif.Spec.Semver
import Verif.Props.Selection

/-!
# C25 for all versions, pre-releases included
-/

namespace TF

open Spec

/-! ## Orders -/

theorem strLt_iff (a b : Str) : strLt a b = true ↔ DictBefore (fun x y => x.toNat < y.toNat) a b := by
  unfold DictBefore
  induction a generalizing b with
  | nil =>
    cases b with
    | nil => simp [strLt]
    | cons y ys => simp [strLt]
  | cons x xs ih =>
    cases b with
    | nil => simp [strLt]
    | cons y ys =>
      simp only [strLt, Bool.or_eq_true, decide_eq_true_eq, Bool.and_eq_true, beq_iff_eq, ih]
      constructor
      · rintro (h | ⟨rfl, (⟨c, r, rfl⟩ | ⟨p, u, v, r, s, rfl, rfl, h⟩)⟩)
        · exact .inr ⟨[], x, y, xs, ys, rfl, rfl, h⟩
        · exact .inl ⟨c, r, rfl⟩
        · exact .inr ⟨x :: p, u, v, r, s, rfl, rfl, h⟩
      · rintro (⟨c, r, h⟩ | ⟨p, u, v, r, s, h1, h2, h⟩)
        · injection h with h1 h2
          exact .inr ⟨h1.symm, .inl ⟨c, r, h2⟩⟩
        · cases p with
          | nil =>
            injection h1 with h1 _
            injection h2 with h2 _
            subst h1; subst h2
            exact .inl h
          | cons z p =>
            injection h1 with h1 h1'
            injection h2 with h2 h2'
            exact .inr ⟨h1.trans h2.symm, .inr ⟨p, u, v, r, s, h1', h2', h⟩⟩

theorem preIdLt_iff (a b : PreId) : PreId.lt a b = true ↔ IdBefore a b := by
  cases a <;> cases b <;> simp only [PreId.lt, decide_eq_true_eq, strLt_iff]
  · exact ⟨.nums, fun h => by cases h; assumption⟩
  · exact ⟨fun _ => .mixed _ _, fun _ => trivial⟩
  · exact ⟨fun h => by simp at h, fun h => by cases h⟩
  · exact ⟨.texts, fun h => by cases h; assumption⟩

theorem preIdsLt_iff (a b : List PreId) : preIdsLt a b = true ↔ DictBefore IdBefore a b := by
  unfold DictBefore
  induction a generalizing b with
  | nil =>
    cases b with
    | nil => simp [preIdsLt]
    | cons y ys => simp [preIdsLt]
  | cons x xs ih =>
    cases b with
    | nil => simp [preIdsLt]
    | cons y ys =>
      simp only [preIdsLt, Bool.or_eq_true, Bool.and_eq_true, beq_iff_eq, ih, preIdLt_iff]
      constructor
      · rintro (h | ⟨rfl, (⟨c, r, rfl⟩ | ⟨p, u, v, r, s, rfl, rfl, h⟩)⟩)
        · exact .inr ⟨[], x, y, xs, ys, rfl, rfl, h⟩
        · exact .inl ⟨c, r, rfl⟩
        · exact .inr ⟨x :: p, u, v, r, s, rfl, rfl, h⟩
      · rintro (⟨c, r, h⟩ | ⟨p, u, v, r, s, h1, h2, h⟩)
        · injection h with h1 h2
          exact .inr ⟨h1.symm, .inl ⟨c, r, h2⟩⟩
        · cases p with
          | nil =>
            injection h1 with h1 _
            injection h2 with h2 _
            subst h1; subst h2
            exact .inl h
          | cons z p =>
            injection h1 with h1 h1'
            injection h2 with h2 h2'
            exact .inr ⟨h1.trans h2.symm, .inr ⟨p, u, v, r, s, h1', h2', h⟩⟩

theorem strLt_total (a b : Str) : strLt a b = false → a = b ∨ strLt b a = true := by
  induction a generalizing b with
  | nil => cases b <;> simp [strLt]
  | cons x xs ih =>
    cases b with
    | nil => simp [strLt]
    | cons y ys =>
      intro h
      simp only [strLt, Bool.or_eq_false_iff, decide_eq_false_iff_not, Nat.not_lt, Bool.and_eq_false_iff,
        beq_eq_false_iff_ne] at h
      by_cases hxy : x = y
      · subst hxy
        rcases ih ys (h.2.resolve_left (· rfl)) with rfl | h'
        · exact .inl rfl
        · exact .inr (by simp [strLt, h'])
      · have : x.toNat ≠ y.toNat := fun e => hxy (Char.toNat_inj.mp e)
        exact .inr (by simp [strLt]; omega)

theorem strLt_asymm (a b : Str) : strLt a b = true → strLt b a = false := by
  induction a generalizing b with
  | nil => cases b <;> simp [strLt]
  | cons x xs ih =>
    cases b with
    | nil => simp [strLt]
    | cons y ys =>
      intro h
      simp only [strLt, Bool.or_eq_true, decide_eq_true_eq, Bool.and_eq_true, beq_iff_eq] at h
      rcases h with h | ⟨rfl, h⟩
      · have : y ≠ x := fun e => by subst e; omega
        simp [strLt, this]; omega
      · simp [strLt, ih ys h]

theorem preIdLt_total (a b : PreId) : PreId.lt a b = false → a = b ∨ PreId.lt b a = true := by
  cases a with
  | num m => cases b with
    | num n => simp only [PreId.lt, decide_eq_false_iff_not, decide_eq_true_eq, PreId.num.injEq]; omega
    | alpha s => simp [PreId.lt]
  | alpha s => cases b with
    | num n => simp [PreId.lt]
    | alpha t => simpa [PreId.lt] using strLt_total s t

theorem preIdLt_asymm (a b : PreId) : PreId.lt a b = true → PreId.lt b a = false := by
  cases a with
  | num m => cases b with
    | num n => simp only [PreId.lt, decide_eq_false_iff_not, decide_eq_true_eq]; omega
    | alpha s => simp [PreId.lt]
  | alpha s => cases b with
    | num n => simp [PreId.lt]
    | alpha t => simpa [PreId.lt] using strLt_asymm s t

theorem preIdsLt_total (a b : List PreId) : preIdsLt a b = false → a = b ∨ preIdsLt b a = true := by
  induction a generalizing b with
  | nil => cases b <;> simp [preIdsLt]
  | cons x xs ih =>
    cases b with
    | nil => simp [preIdsLt]
    | cons y ys =>
      intro h
      simp only [preIdsLt, Bool.or_eq_false_iff, Bool.and_eq_false_iff, beq_eq_false_iff_ne] at h
      by_cases hxy : x = y
      · subst hxy
        rcases ih ys (h.2.resolve_left (· rfl)) with rfl | h'
        · exact .inl rfl
        · exact .inr (by simp [preIdsLt, h'])
      · exact .inr (by simp [preIdsLt, (preIdLt_total x y h.1).resolve_left hxy])

theorem preIdsLt_asymm (a b : List PreId) : preIdsLt a b = true → preIdsLt b a = false := by
  induction a generalizing b with
  | nil => cases b <;> simp [preIdsLt]
  | cons x xs ih =>
    cases b with
    | nil => simp [preIdsLt]
    | cons y ys =>
      intro h
      simp only [preIdsLt, Bool.or_eq_true, Bool.and_eq_true, beq_iff_eq] at h
      rcases h with h | ⟨rfl, h⟩
      · have : y ≠ x := by
          rintro rfl
          have := preIdLt_asymm _ _ h
          rw [h] at this; cases this
        simp [preIdsLt, preIdLt_asymm _ _ h, this]
      · have : PreId.lt x x = false := by
          cases hx : PreId.lt x x with
          | false => rfl
          | true => have := preIdLt_asymm _ _ hx; rw [hx] at this; cases this
        simp [preIdsLt, ih ys h, this]

/-- With equal numbers, "not before" is semver's `>=` on the tags. -/
theorem preGe_iff (v r : Version) (h : SameNumbers v r) : preGe v.pre r.pre = true ↔ ¬ Before v r := by
  obtain ⟨h1, h2, h3⟩ := h
  have hn : ¬ Newer r v := by unfold Newer; omega
  have hs : SameNumbers v r := ⟨h1, h2, h3⟩
  unfold Before Release preGe
  simp only [hn, hs, false_or, true_and]
  by_cases he : v.pre = r.pre
  · simp only [he, if_true, true_iff]
    rintro (⟨h, h'⟩ | ⟨h, _, h'⟩)
    · exact h h'
    · rw [← preIdsLt_iff] at h'
      have := preIdsLt_asymm _ _ h'
      rw [h'] at this; cases this
  · by_cases hv : v.pre = []
    · simp [he, hv]
    · by_cases hr : r.pre = []
      · simp [hr, hv]
      · simp only [he, hv, hr, if_false, not_false_iff, true_and, and_false, false_or]
        rw [← preIdsLt_iff]
        constructor
        · intro h h'
          have := preIdsLt_asymm _ _ h
          rw [h'] at this; cases this
        · intro h
          have h' : preIdsLt v.pre r.pre = false := by
            cases hx : preIdsLt v.pre r.pre with
            | false => rfl
            | true => exact absurd hx h
          exact (preIdsLt_total _ _ h').resolve_left he

theorem before_of_newer {a b : Version} (h : Newer b a) : Before a b := .inl h

theorem not_before_of_newer {a b : Version} (h : Newer a b) : ¬ Before a b := by
  rintro (h' | ⟨h', _⟩)
  · exact newer_asymm _ _ h h'
  · obtain ⟨h1, h2, h3⟩ := h'
    unfold Newer at h; omega

theorem matchesCaret_iff (r v : Version) : matchesCaret r v = true ↔ Compatible r v ∧ ¬ Before v r := by
  by_cases hs : SameNumbers v r
  · have hc : Compatible r v := by
      obtain ⟨h1, h2, h3⟩ := hs
      exact ⟨h1.symm, fun _ => ⟨h2.symm, fun _ => h3.symm⟩⟩
    rw [← preGe_iff v r hs]
    obtain ⟨h1, h2, h3⟩ := hs
    unfold matchesCaret
    simp [h1, h2, h3, hc]
  · have hb : ¬ Before v r ↔ Newer v r := by
      constructor
      · intro h
        have h' : ¬ Newer r v := fun x => h (.inl x)
        unfold SameNumbers at hs
        unfold Newer at *
        omega
      · exact not_before_of_newer
    rw [hb]
    unfold matchesCaret Compatible Newer
    unfold SameNumbers at hs
    by_cases h1 : v.major = r.major
    · by_cases h2 : v.minor = r.minor
      · have h3 : v.patch ≠ r.patch := fun e => hs ⟨h1, h2, e⟩
        by_cases hm : r.major = 0
        · by_cases hn : r.minor = 0
          · simp [h1, h2, h3, hm, hn]; omega
          · simp [h1, h2, h3, hm, hn, Nat.pos_of_ne_zero hn]
        · simp [h1, h2, h3, hm, Nat.pos_of_ne_zero hm]
      · by_cases hm : r.major = 0
        · by_cases hn : r.minor = 0
          · simp [h1, h2, hm, hn]; omega
          · simp [h1, h2, hm, hn, Nat.pos_of_ne_zero hn]; omega
        · simp [h1, h2, hm, Nat.pos_of_ne_zero hm]
    · have : ¬ r.major = v.major := fun e => h1 e.symm
      simp [h1, this]

/-- **C25 (requirements).** A version used as a requirement allows exactly the versions that the documentation of semver
says, pre-releases included. -/
theorem C25_requirement (r v : Version) : reqMatches r v = true ↔ Allows r v := by
  have hm := matchesCaret_iff r v
  unfold reqMatches Allows
  rw [← and_assoc, ← hm]
  unfold Release SameNumbers preIsCompatible
  cases hmc : matchesCaret r v with
  | false => simp
  | true =>
    cases hv : v.pre with
    | nil => simp
    | cons a as =>
      simp only [Bool.not_true, Bool.false_eq_true, if_false, List.isEmpty_cons, Bool.and_eq_true, beq_iff_eq, true_and,
        reduceCtorEq, false_or]
      cases r.pre <;> simp [and_assoc]

/-- **C25 (the precedence is a linear order).** Of two different versions exactly one comes before the other. -/
theorem C25_precedence_linear (a b : Version) (h : a ≠ b) : (Before a b ∧ ¬ Before b a) ∨ (Before b a ∧ ¬ Before a b) := by
  by_cases h1 : Newer a b
  · exact .inr ⟨.inl h1, not_before_of_newer h1⟩
  by_cases h2 : Newer b a
  · exact .inl ⟨.inl h2, not_before_of_newer h2⟩
  have hs : SameNumbers a b := by unfold Newer at h1 h2; unfold SameNumbers; omega
  have hs' : SameNumbers b a := ⟨hs.1.symm, hs.2.1.symm, hs.2.2.symm⟩
  have e1 := preGe_iff a b hs
  have e2 := preGe_iff b a hs'
  have hp : a.pre ≠ b.pre := by
    intro e
    apply h
    obtain ⟨h1, h2, h3⟩ := hs
    cases a; cases b; simp_all
  have : preGe a.pre b.pre ≠ preGe b.pre a.pre := by
    unfold preGe
    have hp' : b.pre ≠ a.pre := fun e => hp e.symm
    by_cases ha : a.pre = []
    · have hb : b.pre ≠ [] := fun e => hp (ha.trans e.symm)
      simp [ha, hb, Ne.symm hb]
    · by_cases hb : b.pre = []
      · simp [ha, hb, Ne.symm ha]
      · simp only [hp, hp', ha, hb, if_false]
        intro e
        cases hx : preIdsLt b.pre a.pre with
        | true =>
          have := preIdsLt_asymm _ _ hx
          rw [← e, hx] at this; cases this
        | false =>
          have := (preIdsLt_total _ _ hx).resolve_left hp'
          rw [← e, hx] at this; cases this
  cases hx : preGe a.pre b.pre <;> cases hy : preGe b.pre a.pre <;> rw [hx, hy] at this
  · exact absurd rfl this
  · rw [hx] at e1; rw [hy] at e2
    refine .inl ⟨Classical.not_not.mp fun hn => ?_, e2.mp rfl⟩
    exact absurd (e1.mpr hn) (by decide)
  · rw [hx] at e1; rw [hy] at e2
    refine .inr ⟨Classical.not_not.mp fun hn => ?_, e1.mp rfl⟩
    exact absurd (e2.mpr hn) (by decide)
  · exact absurd rfl this

/-- **C25 (the check, for all versions).** A released tool is accepted exactly if the version the crate depends on allows
the tool's or the tool's allows the crate's; a pre-release tool always; the upgrade is suggested exactly if the crate's
version does not allow the tool's. -/
theorem C25_check (dep bin : Version) (hint : Hint) :
    checkDependencyVersion (some dep) bin = .ok hint ↔
      (Release bin → Allows dep bin ∨ Allows bin dep) ∧ (hint = .upgrade ↔ ¬ Allows dep bin) := by
  rw [← C25_requirement, ← C25_requirement]
  unfold checkDependencyVersion Release ensure
  cases hb : bin.pre with
  | nil =>
    simp only [List.isEmpty_nil, if_true, true_implies]
    cases h1 : reqMatches dep bin <;> cases h2 : reqMatches bin dep <;> cases hint <;> simp
  | cons a as =>
    simp only [List.isEmpty_cons, Bool.false_eq_true, if_false]
    cases h1 : reqMatches dep bin <;> cases hint <;> simp

/-- Non-vacuity of C25 with pre-releases: `1.0.0-alpha < 1.0.0-alpha.1 < 1.0.0-beta.2 < 1.0.0-beta.11 < 1.0.0`. -/
example :
    Before ⟨1, 0, 0, [.alpha c%"alpha"]⟩ ⟨1, 0, 0, [.alpha c%"alpha", .num 1]⟩ ∧
    Before ⟨1, 0, 0, [.alpha c%"alpha", .num 1]⟩ ⟨1, 0, 0, [.alpha c%"beta", .num 2]⟩ ∧
    Before ⟨1, 0, 0, [.alpha c%"beta", .num 2]⟩ ⟨1, 0, 0, [.alpha c%"beta", .num 11]⟩ ∧
    Before ⟨1, 0, 0, [.alpha c%"beta", .num 11]⟩ ⟨1, 0, 0, []⟩ := by
  refine ⟨.inr ⟨⟨rfl, rfl, rfl⟩, .inr ⟨by simp [Release], by simp [Release], .inl ⟨.num 1, [], rfl⟩⟩⟩,
    .inr ⟨⟨rfl, rfl, rfl⟩, .inr ⟨by simp [Release], by simp [Release],
      .inr ⟨[], .alpha c%"alpha", .alpha c%"beta", _, _, rfl, rfl, .texts (.inr ⟨[], 'a', 'b', _, _, rfl, rfl, by decide⟩)⟩⟩⟩,
    .inr ⟨⟨rfl, rfl, rfl⟩, .inr ⟨by simp [Release], by simp [Release],
      .inr ⟨[.alpha c%"beta"], .num 2, .num 11, _, _, rfl, rfl, .nums (by decide)⟩⟩⟩,
    .inr ⟨⟨rfl, rfl, rfl⟩, .inl ⟨by simp [Release], rfl⟩⟩⟩

/-- A crate that depends on a pre-release is accepted by the release that follows it; a later pre-release of other numbers
is not. -/
example : checkDependencyVersion (some ⟨7, 0, 0, [.alpha c%"rc", .num 1]⟩) ⟨7, 0, 0, []⟩ = .ok .none ∧
    checkDependencyVersion (some ⟨7, 1, 0, [.alpha c%"rc", .num 1]⟩) ⟨7, 0, 0, []⟩ = .err c%"incompatible" := by
  decide +kernel

end TF
