import Verif.Model.TypeUtils
import Verif.Spec.Types
import Mathlib.Tactic.Common

/-! # `Self` in generated types: C51 -/

namespace TF

open Spec

/-! ## Meanings depend on the variables that occur only -/

/-- Two environments agree on all but some variables. -/
structure AgreeOff {D : Type} (isVar : Str → Bool) (ρ ρ' : TyEnv D) : Prop where
  var : ∀ i, isVar i = false → ρ.var i = ρ'.var i
  proj : ∀ i, isVar i = false → ρ.proj i = ρ'.proj i
  const : ∀ i, isVar i = false → ρ.const i = ρ'.const i

section
variable {D : Type} {I : Interp D} {isVar : Str → Bool} {ρ ρ' : TyEnv D}

theorem segsDen_cons (i : Str) (a : Args) (r : Segs) : segsDen I ρ (.cons i a r) = (i, argsDen I ρ a) :: segsDen I ρ r := by
  rw [segsDen]

theorem segsDen_nil : segsDen I ρ .nil = [] := by rw [segsDen]

theorem pathDen_congr (h : AgreeOff isVar ρ ρ') (lead : Bool) (segs : Segs) (hf : Free isVar lead segs)
    (e : segsDen I ρ segs = segsDen I ρ' segs) :
    pathDen I ρ lead (segsDen I ρ segs) = pathDen I ρ' lead (segsDen I ρ' segs) := by
  cases segs with
  | nil => rw [segsDen_nil, segsDen_nil]; rfl
  | cons i a r =>
    rw [e]
    rw [segsDen_cons]
    unfold pathDen
    cases lead with
    | true => rfl
    | false =>
      have hi : isVar i = false := by
        simp only [Free, headVar] at hf
        cases hv : isVar i with
        | false => rfl
        | true => simp [hv] at hf
      simp only [Bool.false_eq_true, if_false, h.var i hi, h.proj i hi]

theorem boundDen_congr (h : AgreeOff isVar ρ ρ') (lead : Bool) (segs : Segs) (hf : Free isVar lead segs)
    (e : segsDen I ρ segs = segsDen I ρ' segs) {d d' : D} (hd : d = d') :
    boundDen I ρ lead (segsDen I ρ segs) d = boundDen I ρ' lead (segsDen I ρ' segs) d' := by
  subst hd
  cases segs with
  | nil => rw [segsDen_nil, segsDen_nil]; rfl
  | cons i a r =>
    rw [e]
    rw [segsDen_cons]
    unfold boundDen
    cases lead with
    | true => rfl
    | false =>
      have hi : isVar i = false := by
        simp only [Free, headVar] at hf
        cases hv : isVar i with
        | false => rfl
        | true => simp [hv] at hf
      simp only [Bool.false_eq_true, if_false, h.var i hi, h.const i hi]

mutual

theorem tyDen_congr (h : AgreeOff isVar ρ ρ') : ∀ t : Ty, Ty.All (Free isVar) (Free isVar) t → tyDen I ρ t = tyDen I ρ' t
  | .path .none lead segs, ha => by
    rw [Ty.All] at ha
    rw [tyDen, tyDen]
    exact pathDen_congr h lead segs ha.1 (segsDen_congr h segs ha.2)
  | .path (.some t n) lead segs, ha => by
    rw [Ty.All] at ha
    rw [tyDen, tyDen, tyDen_congr h t ha.1, segsDen_congr h segs ha.2]
  | .ref lt m t, ha => by
    rw [Ty.All] at ha
    rw [tyDen, tyDen, tyDen_congr h t ha]
  | .slice t, ha => by
    rw [Ty.All] at ha
    rw [tyDen, tyDen, tyDen_congr h t ha]
  | .other ps, ha => by
    rw [Ty.All] at ha
    rw [tyDen, tyDen, piecesDen_congr h ps ha]

theorem segsDen_congr (h : AgreeOff isVar ρ ρ') :
    ∀ s : Segs, Segs.All (Free isVar) (Free isVar) s → segsDen I ρ s = segsDen I ρ' s
  | .nil, _ => by rw [segsDen, segsDen]
  | .cons i a r, ha => by
    rw [Segs.All] at ha
    rw [segsDen, segsDen, argsDen_congr h a ha.1, segsDen_congr h r ha.2]

theorem argsDen_congr (h : AgreeOff isVar ρ ρ') :
    ∀ a : Args, Args.All (Free isVar) (Free isVar) a → argsDen I ρ a = argsDen I ρ' a
  | .none, _ => by rw [argsDen, argsDen]
  | .angle c ps, ha => by
    rw [Args.All] at ha
    rw [argsDen, argsDen, piecesDen_congr h ps ha]
  | .paren ps, ha => by
    rw [Args.All] at ha
    rw [argsDen, argsDen, piecesDen_congr h ps ha]

theorem piecesDen_congr (h : AgreeOff isVar ρ ρ') :
    ∀ p : Pieces, Pieces.All (Free isVar) (Free isVar) p → piecesDen I ρ p = piecesDen I ρ' p
  | .nil, _ => by rw [piecesDen, piecesDen]
  | .tok s r, ha => by
    rw [Pieces.All] at ha
    rw [piecesDen, piecesDen, piecesDen_congr h r ha]
  | .group o c ps r, ha => by
    rw [Pieces.All] at ha
    rw [piecesDen, piecesDen, piecesDen_congr h ps ha.1, piecesDen_congr h r ha.2]
  | .ty t r, ha => by
    rw [Pieces.All] at ha
    rw [piecesDen, piecesDen, tyDen_congr h t ha.1, piecesDen_congr h r ha.2]
  | .path lead segs r, ha => by
    rw [Pieces.All] at ha
    rw [piecesDen, piecesDen]
    exact boundDen_congr h lead segs ha.1 (segsDen_congr h segs ha.2.1) (piecesDen_congr h r ha.2.2)

end

end

/-! ## Statement -/

namespace Spec

def isSelfVar (i : Str) : Bool := decide (i = c%"Self")

/-- `Self` in an `impl tr for self`: the meaning of the impl's type; `Self::A` is the trait's `A`. (If there is no trait,
`Self::A` has no meaning that matters.) -/
def selfEnv {D : Type} (I : Interp D) (ρ : TyEnv D) (self : Ty) (tr : Option PathTy) : TyEnv D where
  var i := if i = c%"Self" then some (tyDen I ρ self) else ρ.var i
  proj i a r := match tr with
    | some p => if i = c%"Self" then I.qual (tyDen I ρ self) p.lead (segsDen I ρ p.segs) r else ρ.proj i a r
    | none => ρ.proj i a r
  const := ρ.const

/-- Where `Self` may begin a path: not after `::`, without arguments of its own, and not again in the arguments of
what follows. -/
def SelfPath (lead : Bool) : Segs → Prop
  | .nil => True
  | .cons i a r => i = c%"Self" → lead = false ∧ a = .none ∧ SegsWithout isSelfVar r

/-- Occurrences of `Self` that the macro deals with. -/
def SelfOk (t : Ty) : Prop := Ty.All SelfPath (Free isSelfVar) t

end Spec

/-! ## Proofs -/

theorem isSelf_iff {q : QSelf} {segs : Segs} :
    isSelf q segs = true ↔ q = .none ∧ segs = .cons c%"Self" .none .nil := by
  unfold isSelf matchTypePath
  cases q with
  | some t n => simp
  | none =>
    cases segs with
    | nil => simp [Segs.single]
    | cons i a r =>
      cases r with
      | nil =>
        by_cases hi : i = selfIdent
        · subst hi; simp [Segs.single, selfIdent]
        · simp only [Segs.single, if_neg hi, decide_eq_true_eq]
          constructor
          · intro h; cases h
          · rintro ⟨-, h⟩; injection h with h; exact absurd h hi
      | cons j b r => simp [Segs.single]

theorem beginsWithSelf_iff {q : QSelf} {segs : Segs} :
    beginsWithSelf q segs = true ↔ q = .none ∧ ∃ a r, segs = .cons c%"Self" a r := by
  unfold beginsWithSelf
  cases segs with
  | nil => simp [Segs.firstIdent]
  | cons i a r =>
    simp only [Segs.firstIdent, selfIdent, Bool.and_eq_true, decide_eq_true_eq, Option.some.injEq]
    constructor
    · rintro ⟨h, rfl⟩; exact ⟨h, a, r, rfl⟩
    · rintro ⟨h, a', r', h'⟩; injection h' with h'; exact ⟨h, h'⟩

section
variable {D : Type} {I : Interp D} {ρ : TyEnv D} {self : Ty} {tr : Option PathTy}

theorem selfEnv_agree : AgreeOff isSelfVar ρ (selfEnv I ρ self tr) where
  var i hi := by
    have : i ≠ c%"Self" := by simpa [isSelfVar] using hi
    simp [selfEnv, this]
  proj i hi := by
    have : i ≠ c%"Self" := by simpa [isSelfVar] using hi
    funext a r
    cases tr <;> simp [selfEnv, this]
  const i hi := rfl

theorem free_of_not_self {segs : Segs} {lead : Bool} (h : ∀ a r, segs ≠ .cons c%"Self" a r) :
    Free isSelfVar lead segs := by
  cases segs with
  | nil => rfl
  | cons i a r =>
    have : i ≠ c%"Self" := fun e => h a r (by rw [e])
    simp [Free, headVar, isSelfVar, this]

theorem segsDen_append (s r : Segs) : segsDen I ρ (s.append r) = segsDen I ρ s ++ segsDen I ρ r := by
  induction s using Segs.rec (motive_1 := fun _ => True) (motive_2 := fun _ => True) (motive_4 := fun _ => True)
    (motive_5 := fun _ => True) with
  | nil => rw [Segs.append, segsDen]; rfl
  | cons i a s _ ih => rw [Segs.append, segsDen_cons, ih, segsDen_cons]; rfl
  | _ => trivial

theorem segsDen_length (s : Segs) : (segsDen I ρ s).length = s.length := by
  induction s using Segs.rec (motive_1 := fun _ => True) (motive_2 := fun _ => True) (motive_4 := fun _ => True)
    (motive_5 := fun _ => True) with
  | nil => rw [segsDen]; rfl
  | cons i a s _ ih => rw [segsDen_cons, List.length_cons, ih]; rfl
  | _ => trivial

/-- A path, the arguments of which have been dealt with. -/
theorem pathDen_expand {lead : Bool} {segs segs' : Segs} (hf : Free isSelfVar lead segs)
    (hd : segsDen I ρ segs' = segsDen I (selfEnv I ρ self tr) segs) :
    pathDen I ρ lead (segsDen I ρ segs') = pathDen I (selfEnv I ρ self tr) lead (segsDen I (selfEnv I ρ self tr) segs) := by
  rw [hd]
  cases segs with
  | nil => rw [segsDen_nil]; rfl
  | cons i a r =>
    rw [segsDen_cons]
    unfold pathDen
    cases lead with
    | true => rfl
    | false =>
      have hi : isSelfVar i = false := by
        simp only [Free, headVar] at hf
        cases hv : isSelfVar i with
        | false => rfl
        | true => simp [hv] at hf
      have e := selfEnv_agree (I := I) (ρ := ρ) (self := self) (tr := tr)
      simp only [Bool.false_eq_true, if_false, e.var i hi, e.proj i hi]

theorem boundDen_expand {lead : Bool} {segs segs' : Segs} (hf : Free isSelfVar lead segs)
    (hd : segsDen I ρ segs' = segsDen I (selfEnv I ρ self tr) segs) {d d' : D} (h : d = d') :
    boundDen I ρ lead (segsDen I ρ segs') d =
      boundDen I (selfEnv I ρ self tr) lead (segsDen I (selfEnv I ρ self tr) segs) d' := by
  rw [hd, h]
  cases segs with
  | nil => rw [segsDen_nil]; rfl
  | cons i a r =>
    rw [segsDen_cons]
    unfold boundDen
    cases lead with
    | true => rfl
    | false =>
      have hi : isSelfVar i = false := by
        simp only [Free, headVar] at hf
        cases hv : isSelfVar i with
        | false => rfl
        | true => simp [hv] at hf
      have e := selfEnv_agree (I := I) (ρ := ρ) (self := self) (tr := tr)
      simp only [Bool.false_eq_true, if_false, e.var i hi, e.const i hi]

mutual

theorem ty_expand : ∀ t t' : Ty, Ty.All SelfPath (Free isSelfVar) t → t.expandSelf ⟨tr, self⟩ = .ok t' →
    tyDen I ρ t' = tyDen I (selfEnv I ρ self tr) t
  | .path q lead segs, t', ha, h => by
    rw [Ty.expandSelf] at h
    by_cases h1 : isSelf q segs = true
    · rw [if_pos h1] at h
      cases h
      obtain ⟨rfl, rfl⟩ := isSelf_iff.mp h1
      rw [Ty.All] at ha
      obtain ⟨rfl, -, -⟩ := ha.1 rfl
      rw [tyDen.eq_1, segsDen_cons, segsDen_nil]
      simp [pathDen, selfEnv]
    · rw [if_neg h1] at h
      by_cases h2 : beginsWithSelf q segs = true
      · rw [if_pos h2] at h
        obtain ⟨rfl, a, r, rfl⟩ := beginsWithSelf_iff.mp h2
        rw [Ty.All] at ha
        obtain ⟨rfl, rfl, hr⟩ := ha.1 rfl
        have hc := segsDen_congr (I := I) (selfEnv_agree (I := I) (ρ := ρ) (self := self) (tr := tr)) r hr
        cases r with
        | nil => exact absurd (isSelf_iff.mpr ⟨rfl, rfl⟩) h1
        | cons j b r =>
          cases tr with
          | none => cases h
          | some p =>
          cases h
          rw [tyDen.eq_1, tyDen.eq_2, segsDen_append, segsDen_cons (ρ := selfEnv I ρ self (some p)), ← hc,
            List.take_left' (segsDen_length _), List.drop_left' (segsDen_length _), segsDen_cons]
          simp [pathDen, selfEnv]
      · rw [if_neg h2] at h
        cases q with
        | none =>
          rw [Ty.All] at ha
          rw [QSelf.expandSelf, Out.ok_bind] at h
          cases hs : segs.expandSelf ⟨tr, self⟩ with
          | ok segs' =>
            rw [hs, Out.ok_bind] at h
            cases h
            rw [tyDen.eq_1, tyDen.eq_1]
            refine pathDen_expand (free_of_not_self fun a r e => h2 (beginsWithSelf_iff.mpr ⟨rfl, a, r, e⟩)) ?_
            exact segs_expand segs segs' ha.2 hs
          | _ => rw [hs] at h; cases h
        | some t n =>
          rw [Ty.All] at ha
          rw [QSelf.expandSelf] at h
          cases ht : t.expandSelf ⟨tr, self⟩ with
          | ok t1 =>
            rw [ht, Out.ok_bind, Out.ok_bind] at h
            cases hs : segs.expandSelf ⟨tr, self⟩ with
            | ok segs' =>
              rw [hs, Out.ok_bind] at h
              cases h
              rw [tyDen.eq_2, tyDen.eq_2, ty_expand t t1 ha.1 ht, segs_expand segs segs' ha.2 hs]
            | _ => rw [hs] at h; cases h
          | _ => rw [ht] at h; cases h
  | .ref lt m t, t', ha, h => by
    rw [Ty.All] at ha
    rw [Ty.expandSelf] at h
    cases ht : t.expandSelf ⟨tr, self⟩ with
    | ok t1 => rw [ht, Out.ok_bind] at h; cases h; rw [tyDen, tyDen, ty_expand t t1 ha ht]
    | _ => rw [ht] at h; cases h
  | .slice t, t', ha, h => by
    rw [Ty.All] at ha
    rw [Ty.expandSelf] at h
    cases ht : t.expandSelf ⟨tr, self⟩ with
    | ok t1 => rw [ht, Out.ok_bind] at h; cases h; rw [tyDen, tyDen, ty_expand t t1 ha ht]
    | _ => rw [ht] at h; cases h
  | .other ps, t', ha, h => by
    rw [Ty.All] at ha
    rw [Ty.expandSelf] at h
    cases ht : ps.expandSelf ⟨tr, self⟩ with
    | ok t1 => rw [ht, Out.ok_bind] at h; cases h; rw [tyDen, tyDen, pieces_expand ps t1 ha ht]
    | _ => rw [ht] at h; cases h

theorem segs_expand : ∀ s s' : Segs, Segs.All SelfPath (Free isSelfVar) s → s.expandSelf ⟨tr, self⟩ = .ok s' →
    segsDen I ρ s' = segsDen I (selfEnv I ρ self tr) s
  | .nil, s', _, h => by
    rw [Segs.expandSelf] at h; cases h; rw [segsDen, segsDen]
  | .cons i a r, s', ha, h => by
    rw [Segs.All] at ha
    rw [Segs.expandSelf] at h
    cases h1 : a.expandSelf ⟨tr, self⟩ with
    | ok a1 =>
      rw [h1, Out.ok_bind] at h
      cases h2 : r.expandSelf ⟨tr, self⟩ with
      | ok r1 =>
        rw [h2, Out.ok_bind] at h; cases h
        rw [segsDen, segsDen, args_expand a a1 ha.1 h1, segs_expand r r1 ha.2 h2]
      | _ => rw [h2] at h; cases h
    | _ => rw [h1] at h; cases h

theorem args_expand : ∀ s s' : Args, Args.All SelfPath (Free isSelfVar) s → s.expandSelf ⟨tr, self⟩ = .ok s' →
    argsDen I ρ s' = argsDen I (selfEnv I ρ self tr) s
  | .none, s', _, h => by
    rw [Args.expandSelf] at h; cases h; rw [argsDen, argsDen]
  | .angle c ps, s', ha, h => by
    rw [Args.All] at ha
    rw [Args.expandSelf] at h
    cases h1 : ps.expandSelf ⟨tr, self⟩ with
    | ok a1 => rw [h1, Out.ok_bind] at h; cases h; rw [argsDen, argsDen, pieces_expand ps a1 ha h1]
    | _ => rw [h1] at h; cases h
  | .paren ps, s', ha, h => by
    rw [Args.All] at ha
    rw [Args.expandSelf] at h
    cases h1 : ps.expandSelf ⟨tr, self⟩ with
    | ok a1 => rw [h1, Out.ok_bind] at h; cases h; rw [argsDen, argsDen, pieces_expand ps a1 ha h1]
    | _ => rw [h1] at h; cases h

theorem pieces_expand : ∀ s s' : Pieces, Pieces.All SelfPath (Free isSelfVar) s → s.expandSelf ⟨tr, self⟩ = .ok s' →
    piecesDen I ρ s' = piecesDen I (selfEnv I ρ self tr) s
  | .nil, s', _, h => by
    rw [Pieces.expandSelf] at h; cases h; rw [piecesDen, piecesDen]
  | .tok s r, s', ha, h => by
    rw [Pieces.All] at ha
    rw [Pieces.expandSelf] at h
    cases h1 : r.expandSelf ⟨tr, self⟩ with
    | ok a1 => rw [h1, Out.ok_bind] at h; cases h; rw [piecesDen, piecesDen, pieces_expand r a1 ha h1]
    | _ => rw [h1] at h; cases h
  | .group o c ps r, s', ha, h => by
    rw [Pieces.All] at ha
    rw [Pieces.expandSelf] at h
    cases h1 : ps.expandSelf ⟨tr, self⟩ with
    | ok a1 =>
      rw [h1, Out.ok_bind] at h
      cases h2 : r.expandSelf ⟨tr, self⟩ with
      | ok r1 =>
        rw [h2, Out.ok_bind] at h; cases h
        rw [piecesDen, piecesDen, pieces_expand ps a1 ha.1 h1, pieces_expand r r1 ha.2 h2]
      | _ => rw [h2] at h; cases h
    | _ => rw [h1] at h; cases h
  | .ty t r, s', ha, h => by
    rw [Pieces.All] at ha
    rw [Pieces.expandSelf] at h
    cases h1 : t.expandSelf ⟨tr, self⟩ with
    | ok a1 =>
      rw [h1, Out.ok_bind] at h
      cases h2 : r.expandSelf ⟨tr, self⟩ with
      | ok r1 =>
        rw [h2, Out.ok_bind] at h; cases h
        rw [piecesDen, piecesDen, ty_expand t a1 ha.1 h1, pieces_expand r r1 ha.2 h2]
      | _ => rw [h2] at h; cases h
    | _ => rw [h1] at h; cases h
  | .path lead segs r, s', ha, h => by
    rw [Pieces.All] at ha
    rw [Pieces.expandSelf] at h
    cases h1 : segs.expandSelf ⟨tr, self⟩ with
    | ok a1 =>
      rw [h1, Out.ok_bind] at h
      cases h2 : r.expandSelf ⟨tr, self⟩ with
      | ok r1 =>
        rw [h2, Out.ok_bind] at h; cases h
        rw [piecesDen, piecesDen]
        exact boundDen_expand ha.1 (segs_expand segs a1 ha.2.1 h1) (pieces_expand r r1 ha.2.2 h2)
      | _ => rw [h2] at h; cases h
    | _ => rw [h1] at h; cases h

end

end

/-- **C51.** In an impl, the expanded type means outside of the impl – whatever `Self` may mean there – what the type
means in the impl. -/
theorem C51_meaning {D : Type} (I : Interp D) (ρ : TyEnv D) (self : Ty) (tr : Option PathTy) (t t' : Ty) (ht : SelfOk t)
    (h : t.expandSelf ⟨tr, self⟩ = .ok t') : tyDen I ρ t' = tyDen I (selfEnv I ρ self tr) t :=
  ty_expand t t' ht h

/-! ## Nothing is left -/

theorem segsAll_append {P B : Bool → Segs → Prop} (s r : Segs) (h1 : Segs.All P B s) (h2 : Segs.All P B r) :
    Segs.All P B (s.append r) := by
  induction s using Segs.rec (motive_1 := fun _ => True) (motive_2 := fun _ => True) (motive_4 := fun _ => True)
    (motive_5 := fun _ => True) with
  | nil => exact h2
  | cons i a s _ ih =>
    rw [Segs.All] at h1
    rw [Segs.append, Segs.All]
    exact ⟨h1.1, ih h1.2⟩
  | _ => trivial

/-- The first identifier is kept. -/
theorem expandSelf_head {x : SelfCtx} {lead : Bool} {s s' : Segs} (h : s.expandSelf x = .ok s') (isVar : Str → Bool) :
    headVar isVar lead s' = headVar isVar lead s := by
  cases s with
  | nil => rw [Segs.expandSelf] at h; cases h; rfl
  | cons i a r =>
    rw [Segs.expandSelf] at h
    cases h1 : a.expandSelf x with
    | ok a1 =>
      rw [h1, Out.ok_bind] at h
      cases h2 : r.expandSelf x with
      | ok r1 => rw [h2, Out.ok_bind] at h; cases h; rfl
      | _ => rw [h2] at h; cases h
    | _ => rw [h1] at h; cases h

section
variable {self : Ty} {tr : Option PathTy}

mutual

theorem ty_without (h1 : Without isSelfVar self) (h2 : ∀ p, tr = some p → SegsWithout isSelfVar p.segs) :
    ∀ t t' : Ty, Ty.All SelfPath (Free isSelfVar) t → t.expandSelf ⟨tr, self⟩ = .ok t' →
      Ty.All (Free isSelfVar) (Free isSelfVar) t'
  | .path q lead segs, t', ha, h => by
    rw [Ty.expandSelf] at h
    by_cases g1 : isSelf q segs = true
    · rw [if_pos g1] at h; cases h; exact h1
    · rw [if_neg g1] at h
      by_cases g2 : beginsWithSelf q segs = true
      · rw [if_pos g2] at h
        obtain ⟨rfl, a, r, rfl⟩ := beginsWithSelf_iff.mp g2
        rw [Ty.All] at ha
        obtain ⟨rfl, rfl, hr⟩ := ha.1 rfl
        cases r with
        | nil => exact absurd (isSelf_iff.mpr ⟨rfl, rfl⟩) g1
        | cons j b r =>
          cases tr with
          | none => cases h
          | some p =>
            cases h
            rw [Ty.All]
            exact ⟨h1, segsAll_append _ _ (h2 p rfl) hr⟩
      · rw [if_neg g2] at h
        cases q with
        | none =>
          rw [Ty.All] at ha
          rw [QSelf.expandSelf, Out.ok_bind] at h
          cases hs : segs.expandSelf ⟨tr, self⟩ with
          | ok segs' =>
            rw [hs, Out.ok_bind] at h
            cases h
            rw [Ty.All]
            refine ⟨?_, segs_without h1 h2 segs segs' ha.2 hs⟩
            rw [Free, expandSelf_head hs]
            exact free_of_not_self fun a r e => g2 (beginsWithSelf_iff.mpr ⟨rfl, a, r, e⟩)
          | _ => rw [hs] at h; cases h
        | some t n =>
          rw [Ty.All] at ha
          rw [QSelf.expandSelf] at h
          cases ht : t.expandSelf ⟨tr, self⟩ with
          | ok t1 =>
            rw [ht, Out.ok_bind, Out.ok_bind] at h
            cases hs : segs.expandSelf ⟨tr, self⟩ with
            | ok segs' =>
              rw [hs, Out.ok_bind] at h
              cases h
              rw [Ty.All]
              exact ⟨ty_without h1 h2 t t1 ha.1 ht, segs_without h1 h2 segs segs' ha.2 hs⟩
            | _ => rw [hs] at h; cases h
          | _ => rw [ht] at h; cases h
  | .ref lt m t, t', ha, h => by
    rw [Ty.All] at ha
    rw [Ty.expandSelf] at h
    cases ht : t.expandSelf ⟨tr, self⟩ with
    | ok t1 => rw [ht, Out.ok_bind] at h; cases h; rw [Ty.All]; exact ty_without h1 h2 t t1 ha ht
    | _ => rw [ht] at h; cases h
  | .slice t, t', ha, h => by
    rw [Ty.All] at ha
    rw [Ty.expandSelf] at h
    cases ht : t.expandSelf ⟨tr, self⟩ with
    | ok t1 => rw [ht, Out.ok_bind] at h; cases h; rw [Ty.All]; exact ty_without h1 h2 t t1 ha ht
    | _ => rw [ht] at h; cases h
  | .other ps, t', ha, h => by
    rw [Ty.All] at ha
    rw [Ty.expandSelf] at h
    cases ht : ps.expandSelf ⟨tr, self⟩ with
    | ok t1 => rw [ht, Out.ok_bind] at h; cases h; rw [Ty.All]; exact pieces_without h1 h2 ps t1 ha ht
    | _ => rw [ht] at h; cases h

theorem segs_without (h1 : Without isSelfVar self) (h2 : ∀ p, tr = some p → SegsWithout isSelfVar p.segs) :
    ∀ s s' : Segs, Segs.All SelfPath (Free isSelfVar) s → s.expandSelf ⟨tr, self⟩ = .ok s' →
      Segs.All (Free isSelfVar) (Free isSelfVar) s'
  | .nil, s', _, h => by rw [Segs.expandSelf] at h; cases h; rw [Segs.All]; trivial
  | .cons i a r, s', ha, h => by
    rw [Segs.All] at ha
    rw [Segs.expandSelf] at h
    cases g1 : a.expandSelf ⟨tr, self⟩ with
    | ok a1 =>
      rw [g1, Out.ok_bind] at h
      cases g2 : r.expandSelf ⟨tr, self⟩ with
      | ok r1 =>
        rw [g2, Out.ok_bind] at h; cases h
        rw [Segs.All]
        exact ⟨args_without h1 h2 a a1 ha.1 g1, segs_without h1 h2 r r1 ha.2 g2⟩
      | _ => rw [g2] at h; cases h
    | _ => rw [g1] at h; cases h

theorem args_without (h1 : Without isSelfVar self) (h2 : ∀ p, tr = some p → SegsWithout isSelfVar p.segs) :
    ∀ s s' : Args, Args.All SelfPath (Free isSelfVar) s → s.expandSelf ⟨tr, self⟩ = .ok s' →
      Args.All (Free isSelfVar) (Free isSelfVar) s'
  | .none, s', _, h => by rw [Args.expandSelf] at h; cases h; rw [Args.All]; trivial
  | .angle c ps, s', ha, h => by
    rw [Args.All] at ha
    rw [Args.expandSelf] at h
    cases g1 : ps.expandSelf ⟨tr, self⟩ with
    | ok a1 => rw [g1, Out.ok_bind] at h; cases h; rw [Args.All]; exact pieces_without h1 h2 ps a1 ha g1
    | _ => rw [g1] at h; cases h
  | .paren ps, s', ha, h => by
    rw [Args.All] at ha
    rw [Args.expandSelf] at h
    cases g1 : ps.expandSelf ⟨tr, self⟩ with
    | ok a1 => rw [g1, Out.ok_bind] at h; cases h; rw [Args.All]; exact pieces_without h1 h2 ps a1 ha g1
    | _ => rw [g1] at h; cases h

theorem pieces_without (h1 : Without isSelfVar self) (h2 : ∀ p, tr = some p → SegsWithout isSelfVar p.segs) :
    ∀ s s' : Pieces, Pieces.All SelfPath (Free isSelfVar) s → s.expandSelf ⟨tr, self⟩ = .ok s' →
      Pieces.All (Free isSelfVar) (Free isSelfVar) s'
  | .nil, s', _, h => by rw [Pieces.expandSelf] at h; cases h; rw [Pieces.All]; trivial
  | .tok s r, s', ha, h => by
    rw [Pieces.All] at ha
    rw [Pieces.expandSelf] at h
    cases g1 : r.expandSelf ⟨tr, self⟩ with
    | ok a1 => rw [g1, Out.ok_bind] at h; cases h; rw [Pieces.All]; exact pieces_without h1 h2 r a1 ha g1
    | _ => rw [g1] at h; cases h
  | .group o c ps r, s', ha, h => by
    rw [Pieces.All] at ha
    rw [Pieces.expandSelf] at h
    cases g1 : ps.expandSelf ⟨tr, self⟩ with
    | ok a1 =>
      rw [g1, Out.ok_bind] at h
      cases g2 : r.expandSelf ⟨tr, self⟩ with
      | ok r1 =>
        rw [g2, Out.ok_bind] at h; cases h
        rw [Pieces.All]
        exact ⟨pieces_without h1 h2 ps a1 ha.1 g1, pieces_without h1 h2 r r1 ha.2 g2⟩
      | _ => rw [g2] at h; cases h
    | _ => rw [g1] at h; cases h
  | .ty t r, s', ha, h => by
    rw [Pieces.All] at ha
    rw [Pieces.expandSelf] at h
    cases g1 : t.expandSelf ⟨tr, self⟩ with
    | ok a1 =>
      rw [g1, Out.ok_bind] at h
      cases g2 : r.expandSelf ⟨tr, self⟩ with
      | ok r1 =>
        rw [g2, Out.ok_bind] at h; cases h
        rw [Pieces.All]
        exact ⟨ty_without h1 h2 t a1 ha.1 g1, pieces_without h1 h2 r r1 ha.2 g2⟩
      | _ => rw [g2] at h; cases h
    | _ => rw [g1] at h; cases h
  | .path lead segs r, s', ha, h => by
    rw [Pieces.All] at ha
    rw [Pieces.expandSelf] at h
    cases g1 : segs.expandSelf ⟨tr, self⟩ with
    | ok a1 =>
      rw [g1, Out.ok_bind] at h
      cases g2 : r.expandSelf ⟨tr, self⟩ with
      | ok r1 =>
        rw [g2, Out.ok_bind] at h; cases h
        rw [Pieces.All]
        refine ⟨?_, segs_without h1 h2 segs a1 ha.2.1 g1, pieces_without h1 h2 r r1 ha.2.2 g2⟩
        rw [Free, expandSelf_head g1]; exact ha.1
      | _ => rw [g2] at h; cases h
    | _ => rw [g1] at h; cases h

end

end

/-- **C51.** No `Self` is left. -/
theorem C51_none_left (self : Ty) (tr : Option PathTy) (h1 : Without isSelfVar self)
    (h2 : ∀ p, tr = some p → SegsWithout isSelfVar p.segs) (t t' : Ty) (ht : SelfOk t)
    (h : t.expandSelf ⟨tr, self⟩ = .ok t') : Without isSelfVar t' :=
  ty_without h1 h2 t t' ht h

/-! ## Expansion succeeds -/

section
variable {self : Ty} {p : PathTy}

mutual

theorem ty_succeeds : ∀ t : Ty, Ty.All SelfPath (Free isSelfVar) t → ∃ t', t.expandSelf ⟨some p, self⟩ = .ok t'
  | .path q lead segs, ha => by
    rw [Ty.expandSelf]
    by_cases g1 : isSelf q segs = true
    · rw [if_pos g1]; exact ⟨_, rfl⟩
    · rw [if_neg g1]
      by_cases g2 : beginsWithSelf q segs = true
      · rw [if_pos g2]
        obtain ⟨rfl, a, r, rfl⟩ := beginsWithSelf_iff.mp g2
        rw [Ty.All] at ha
        obtain ⟨rfl, rfl, hr⟩ := ha.1 rfl
        cases r with
        | nil => exact absurd (isSelf_iff.mpr ⟨rfl, rfl⟩) g1
        | cons j b r => exact ⟨_, rfl⟩
      · rw [if_neg g2]
        cases q with
        | none =>
          rw [Ty.All] at ha
          obtain ⟨s', hs⟩ := segs_succeeds segs ha.2
          rw [QSelf.expandSelf, Out.ok_bind, hs]; exact ⟨_, rfl⟩
        | some t n =>
          rw [Ty.All] at ha
          obtain ⟨s', hs⟩ := segs_succeeds segs ha.2
          obtain ⟨t', ht⟩ := ty_succeeds t ha.1
          rw [QSelf.expandSelf, ht, Out.ok_bind, Out.ok_bind, hs]; exact ⟨_, rfl⟩
  | .ref lt m t, ha => by
    rw [Ty.All] at ha
    obtain ⟨t', ht⟩ := ty_succeeds t ha
    rw [Ty.expandSelf, ht]; exact ⟨_, rfl⟩
  | .slice t, ha => by
    rw [Ty.All] at ha
    obtain ⟨t', ht⟩ := ty_succeeds t ha
    rw [Ty.expandSelf, ht]; exact ⟨_, rfl⟩
  | .other ps, ha => by
    rw [Ty.All] at ha
    obtain ⟨t', ht⟩ := pieces_succeeds ps ha
    rw [Ty.expandSelf, ht]; exact ⟨_, rfl⟩

theorem segs_succeeds : ∀ s : Segs, Segs.All SelfPath (Free isSelfVar) s → ∃ s', s.expandSelf ⟨some p, self⟩ = .ok s'
  | .nil, _ => by rw [Segs.expandSelf]; exact ⟨_, rfl⟩
  | .cons i a r, ha => by
    rw [Segs.All] at ha
    obtain ⟨a', h1⟩ := args_succeeds a ha.1
    obtain ⟨r', h2⟩ := segs_succeeds r ha.2
    rw [Segs.expandSelf, h1, Out.ok_bind, h2]; exact ⟨_, rfl⟩

theorem args_succeeds : ∀ s : Args, Args.All SelfPath (Free isSelfVar) s → ∃ s', s.expandSelf ⟨some p, self⟩ = .ok s'
  | .none, _ => by rw [Args.expandSelf]; exact ⟨_, rfl⟩
  | .angle c ps, ha => by
    rw [Args.All] at ha
    obtain ⟨a', h1⟩ := pieces_succeeds ps ha
    rw [Args.expandSelf, h1]; exact ⟨_, rfl⟩
  | .paren ps, ha => by
    rw [Args.All] at ha
    obtain ⟨a', h1⟩ := pieces_succeeds ps ha
    rw [Args.expandSelf, h1]; exact ⟨_, rfl⟩

theorem pieces_succeeds :
    ∀ s : Pieces, Pieces.All SelfPath (Free isSelfVar) s → ∃ s', s.expandSelf ⟨some p, self⟩ = .ok s'
  | .nil, _ => by rw [Pieces.expandSelf]; exact ⟨_, rfl⟩
  | .tok s r, ha => by
    rw [Pieces.All] at ha
    obtain ⟨a', h1⟩ := pieces_succeeds r ha
    rw [Pieces.expandSelf, h1]; exact ⟨_, rfl⟩
  | .group o c ps r, ha => by
    rw [Pieces.All] at ha
    obtain ⟨a', h1⟩ := pieces_succeeds ps ha.1
    obtain ⟨b', h2⟩ := pieces_succeeds r ha.2
    rw [Pieces.expandSelf, h1, Out.ok_bind, h2]; exact ⟨_, rfl⟩
  | .ty t r, ha => by
    rw [Pieces.All] at ha
    obtain ⟨a', h1⟩ := ty_succeeds t ha.1
    obtain ⟨b', h2⟩ := pieces_succeeds r ha.2
    rw [Pieces.expandSelf, h1, Out.ok_bind, h2]; exact ⟨_, rfl⟩
  | .path lead segs r, ha => by
    rw [Pieces.All] at ha
    obtain ⟨a', h1⟩ := segs_succeeds segs ha.2.1
    obtain ⟨b', h2⟩ := pieces_succeeds r ha.2.2
    rw [Pieces.expandSelf, h1, Out.ok_bind, h2]; exact ⟨_, rfl⟩

end

end

/-- **C51.** In a trait impl the expansion of such a type succeeds. -/
theorem C51_total (self : Ty) (p : PathTy) (t : Ty) (ht : SelfOk t) : ∃ t', t.expandSelf ⟨some p, self⟩ = .ok t' :=
  ty_succeeds t ht

/-! ## Exceptions -/

/-- `Self::A<Self>`: the inner `Self` stays, in every trait impl. -/
theorem C51_arguments_left (self : Ty) (p : PathTy) (a : Str) :
    ∃ t', (Ty.path .none false (.cons c%"Self" .none (.cons a (.angle false (.ty (.name c%"Self") .nil)) .nil))).expandSelf
      ⟨some p, self⟩ = .ok t' ∧ ¬ Without isSelfVar t' := by
  refine ⟨_, by rw [Ty.expandSelf]; rfl, ?_⟩
  unfold Without
  rw [Ty.All]
  rintro ⟨-, h⟩
  have : ∀ s : Segs, ¬ Segs.All (Free isSelfVar) (Free isSelfVar)
      (s.append (.cons a (.angle false (.ty (.name c%"Self") .nil)) .nil)) := by
    intro s
    induction s using Segs.rec (motive_1 := fun _ => True) (motive_2 := fun _ => True) (motive_4 := fun _ => True)
      (motive_5 := fun _ => True) with
    | nil =>
      rw [Segs.append, Segs.All, Args.All, Pieces.All, Ty.name, Ty.All]
      rintro ⟨⟨⟨h, -⟩, -⟩, -⟩
      simp [Free, headVar, isSelfVar] at h
    | cons i a s _ ih =>
      rw [Segs.append, Segs.All]
      exact fun h => ih h.2
    | _ => trivial
  exact this _ h

/-- `[u8; Self::N]`: a `Self` that is not in a type stays. -/
theorem C51_constants_left (x : SelfCtx) (n : Str) :
    let t := Ty.other (.group c%"[" c%"]" (.ty (.name c%"u8") (.tok c%";" (.path false
      (.cons c%"Self" .none (.cons n .none .nil)) .nil))) .nil)
    t.expandSelf x = .ok t := by
  intro t
  simp only [t, Ty.name]
  simp [Ty.expandSelf, Pieces.expandSelf, Segs.expandSelf, Args.expandSelf, QSelf.expandSelf, Out.ok_bind,
    isSelf, beginsWithSelf, matchTypePath, Segs.single, Segs.firstIdent, selfIdent]

/-- `Self::A` in an impl without a trait makes the macro panic. -/
theorem C51_inherent_panics (self : Ty) (a : Str) (l : Bool) (r : Segs) :
    (Ty.path .none l (.cons c%"Self" .none (.cons a .none r))).expandSelf ⟨none, self⟩ = .panic := by
  rw [Ty.expandSelf]; rfl

/-! ## A case: `&mut [(Vec<Self>, Self::Item)]` in `impl a::Tr for Foo<u8>` -/

namespace SelfDemo

def vecSelf : Ty := .path .none false (.cons c%"Vec" (.angle false (.ty (.name c%"Self") .nil)) .nil)
def item : Ty := .path .none false (.cons c%"Self" .none (.cons c%"Item" .none .nil))
def t : Ty := .ref none true (.slice (.other (.group c%"(" c%")" (.ty vecSelf (.tok c%"," (.ty item .nil))) .nil)))
def foo : Ty := .path .none false (.cons c%"Foo" (.angle false (.ty (.name c%"u8") .nil)) .nil)
def tr : PathTy := ⟨false, .cons c%"a" .none (.cons c%"Tr" .none .nil)⟩

def vecFoo : Ty := .path .none false (.cons c%"Vec" (.angle false (.ty foo .nil)) .nil)
def fooItem : Ty :=
  .path (.some foo 2) false (.cons c%"a" .none (.cons c%"Tr" .none (.cons c%"Item" .none .nil)))

example : t.expandSelf ⟨some tr, foo⟩ = .ok
    (.ref none true (.slice (.other (.group c%"(" c%")" (.ty vecFoo (.tok c%"," (.ty fooItem .nil))) .nil)))) := by
  decide +kernel

example : vecFoo.toks = [c%"Vec", c%"<", c%"Foo", c%"<", c%"u8", c%">", c%">"] ∧
    fooItem.toks = [c%"<", c%"Foo", c%"<", c%"u8", c%">", c%"as", c%"a", c%":", c%":", c%"Tr", c%">", c%":", c%":",
      c%"Item"] := by decide +kernel

example : SelfOk t ∧ Without isSelfVar foo ∧ SegsWithout isSelfVar tr.segs := by
  simp [SelfOk, Without, SegsWithout, t, vecSelf, item, foo, tr, Ty.name, Ty.All, Segs.All, Args.All, Pieces.All, SelfPath,
    Free, headVar, isSelfVar]

end SelfDemo

end TF
