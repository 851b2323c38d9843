import Verif.Props.ExpandSelf
import Mathlib.Data.List.Infix
import Mathlib.Data.List.Dedup

/-!
# C52: `impl_generic_args` are substituted simultaneously
-/

namespace TF

open Spec

namespace Spec

/-- The meaning of the parameters: of those with a type as argument, the meaning of that type **outside**, where the
parameters are not in scope. -/
def paramEnv {D : Type} (I : Interp D) (ρ : TyEnv D) (m : Str → Option GArg) : TyEnv D where
  var i := match m i with
    | some (.ty t) => some (tyDen I ρ t)
    | _ => ρ.var i
  proj := ρ.proj
  const := ρ.const

/-- A path that is a type either does not begin with a parameter or is just a parameter. -/
def ParamPath (isVar : Str → Bool) (lead : Bool) (segs : Segs) : Prop :=
  ∀ i, headVar isVar lead segs = some i → segs = .cons i .none .nil

/-- Parameters occur as types by themselves only: not as `T::Item`, not in constants or bounds. -/
def ParamOk (isVar : Str → Bool) (t : Ty) : Prop := Ty.All (ParamPath isVar) (Free isVar) t

/-- A path that is a type is not a parameter with an argument that is not a type. -/
def Typed (m : Str → Option GArg) (lead : Bool) (segs : Segs) : Prop :=
  ∀ i a, lead = false → segs = .cons i .none .nil → m i = some a → ∃ t, a = .ty t

end Spec

/-! ## Lemmas -/

theorem getIdent_iff {lead : Bool} {segs : Segs} {i : Str} :
    getIdent lead segs = some i ↔ lead = false ∧ segs = .cons i .none .nil := by
  unfold getIdent
  cases lead with
  | true => simp
  | false =>
    cases segs with
    | nil => simp [Segs.single]
    | cons j a r =>
      cases r with
      | nil => cases a <;> simp [Segs.single]
      | cons => cases a <;> simp [Segs.single]

def isParam (m : GMap) (i : Str) : Bool := (m i).isSome

section
variable {D : Type} {I : Interp D} {ρ : TyEnv D} {m : GMap}

theorem pathDen_params {lead : Bool} {segs segs' : Segs} (hf : Free (isParam m) lead segs)
    (hs : segsDen I ρ segs' = segsDen I (paramEnv I ρ m) segs) :
    pathDen I ρ lead (segsDen I ρ segs') = pathDen I (paramEnv I ρ m) lead (segsDen I (paramEnv I ρ m) segs) := by
  rw [hs]
  cases segs with
  | nil => rw [segsDen_nil]; rfl
  | cons i a r =>
    rw [segsDen_cons]
    cases lead with
    | true => rfl
    | false =>
      have hm : m i = none := by
        simpa [Free, headVar, isParam] using hf
      have hv : (paramEnv I ρ m).var i = ρ.var i := by simp [paramEnv, hm]
      simp only [pathDen, hv]
      rfl

theorem boundDen_params {lead : Bool} {segs segs' : Segs} {d : D} (hf : Free (isParam m) lead segs)
    (hs : segsDen I ρ segs' = segsDen I (paramEnv I ρ m) segs) :
    boundDen I ρ lead (segsDen I ρ segs') d =
      boundDen I (paramEnv I ρ m) lead (segsDen I (paramEnv I ρ m) segs) d := by
  rw [hs]
  cases segs with
  | nil => rw [segsDen_nil]; rfl
  | cons i a r =>
    rw [segsDen_cons]
    cases lead with
    | true => rfl
    | false =>
      have hm : m i = none := by
        simpa [Free, headVar, isParam] using hf
      have hv : (paramEnv I ρ m).var i = ρ.var i := by simp [paramEnv, hm]
      simp only [boundDen, hv]
      rfl

mutual

theorem ty_params : ∀ t t' : Ty, Ty.All (ParamPath (isParam m)) (Free (isParam m)) t → t.mapParams m = .ok t' →
    tyDen I ρ t' = tyDen I (paramEnv I ρ m) t
  | .path .none lead segs, t', ha, h => by
    rw [Ty.All] at ha
    rw [Ty.mapParams] at h
    cases hm : mapped m .none lead segs with
    | some a =>
      simp only [mapped] at hm
      cases hi : getIdent lead segs with
      | none => rw [hi] at hm; cases hm
      | some i =>
        rw [hi] at hm
        obtain ⟨rfl, rfl⟩ := getIdent_iff.mp hi
        have hm' : m i = some a := hm
        simp only [mapped, hi, hm', Option.bind_some] at h
        cases a with
        | ty t =>
          cases h
          rw [tyDen.eq_1, segsDen_cons, segsDen_nil]
          simp [pathDen, paramEnv, hm']
        | _ => cases h
    | none =>
      rw [hm] at h
      rw [QSelf.mapParams] at h
      simp only [Out.ok_bind] at h
      cases hs : segs.mapParams m with
      | ok segs' =>
        rw [hs, Out.ok_bind] at h
        cases h
        rw [tyDen.eq_1, tyDen.eq_1]
        refine pathDen_params ?_ (segs_params segs segs' ha.2 hs)
        rw [Free]
        cases hv : headVar (isParam m) lead segs with
        | none => rfl
        | some i =>
          have e := ha.1 i hv
          subst e
          cases lead with
          | true => simp [headVar] at hv
          | false =>
            have : (m i).isSome := by
              by_contra hc
              simp [headVar, isParam, hc] at hv
            simp only [mapped, getIdent_iff.mpr ⟨rfl, rfl⟩, Option.bind_some] at hm
            rw [hm] at this
            cases this
      | _ => rw [hs] at h; cases h
  | .path (.some t n) lead segs, t', ha, h => by
    rw [Ty.All] at ha
    rw [Ty.mapParams] at h
    simp only [mapped, QSelf.mapParams] at h
    cases ht : t.mapParams m with
    | ok t1 =>
      rw [ht, Out.ok_bind, Out.ok_bind] at h
      cases hs : segs.mapParams m with
      | ok segs' =>
        rw [hs, Out.ok_bind] at h
        cases h
        rw [tyDen.eq_2, tyDen.eq_2, ty_params t t1 ha.1 ht, segs_params segs segs' ha.2 hs]
      | _ => rw [hs] at h; cases h
    | _ => rw [ht] at h; cases h
  | .ref lt mu t, t', ha, h => by
    rw [Ty.All] at ha
    rw [Ty.mapParams] at h
    cases ht : t.mapParams m with
    | ok t1 => rw [ht, Out.ok_bind] at h; cases h; rw [tyDen, tyDen, ty_params t t1 ha ht]
    | _ => rw [ht] at h; cases h
  | .slice t, t', ha, h => by
    rw [Ty.All] at ha
    rw [Ty.mapParams] at h
    cases ht : t.mapParams m with
    | ok t1 => rw [ht, Out.ok_bind] at h; cases h; rw [tyDen, tyDen, ty_params t t1 ha ht]
    | _ => rw [ht] at h; cases h
  | .other ps, t', ha, h => by
    rw [Ty.All] at ha
    rw [Ty.mapParams] at h
    cases ht : ps.mapParams m with
    | ok t1 => rw [ht, Out.ok_bind] at h; cases h; rw [tyDen, tyDen, pieces_params ps t1 ha ht]
    | _ => rw [ht] at h; cases h

theorem segs_params : ∀ s s' : Segs, Segs.All (ParamPath (isParam m)) (Free (isParam m)) s → s.mapParams m = .ok s' →
    segsDen I ρ s' = segsDen I (paramEnv I ρ m) s
  | .nil, s', _, h => by rw [Segs.mapParams] at h; cases h; rw [segsDen, segsDen]
  | .cons i a r, s', ha, h => by
    rw [Segs.All] at ha
    rw [Segs.mapParams] at h
    cases g1 : a.mapParams m with
    | ok a1 =>
      rw [g1, Out.ok_bind] at h
      cases g2 : r.mapParams m with
      | ok r1 =>
        rw [g2, Out.ok_bind] at h; cases h
        rw [segsDen, segsDen, args_params a a1 ha.1 g1, segs_params r r1 ha.2 g2]
      | _ => rw [g2] at h; cases h
    | _ => rw [g1] at h; cases h

theorem args_params : ∀ s s' : Args, Args.All (ParamPath (isParam m)) (Free (isParam m)) s → s.mapParams m = .ok s' →
    argsDen I ρ s' = argsDen I (paramEnv I ρ m) s
  | .none, s', _, h => by rw [Args.mapParams] at h; cases h; rw [argsDen, argsDen]
  | .angle c ps, s', ha, h => by
    rw [Args.All] at ha
    rw [Args.mapParams] at h
    cases g1 : ps.mapParams m with
    | ok a1 => rw [g1, Out.ok_bind] at h; cases h; rw [argsDen, argsDen, pieces_params ps a1 ha g1]
    | _ => rw [g1] at h; cases h
  | .paren ps, s', ha, h => by
    rw [Args.All] at ha
    rw [Args.mapParams] at h
    cases g1 : ps.mapParams m with
    | ok a1 => rw [g1, Out.ok_bind] at h; cases h; rw [argsDen, argsDen, pieces_params ps a1 ha g1]
    | _ => rw [g1] at h; cases h

theorem pieces_params :
    ∀ s s' : Pieces, Pieces.All (ParamPath (isParam m)) (Free (isParam m)) s → s.mapParams m = .ok s' →
    piecesDen I ρ s' = piecesDen I (paramEnv I ρ m) s
  | .nil, s', _, h => by rw [Pieces.mapParams] at h; cases h; rw [piecesDen, piecesDen]
  | .tok s r, s', ha, h => by
    rw [Pieces.All] at ha
    rw [Pieces.mapParams] at h
    cases g1 : r.mapParams m with
    | ok a1 => rw [g1, Out.ok_bind] at h; cases h; rw [piecesDen, piecesDen, pieces_params r a1 ha g1]
    | _ => rw [g1] at h; cases h
  | .group o c ps r, s', ha, h => by
    rw [Pieces.All] at ha
    rw [Pieces.mapParams] at h
    cases g1 : ps.mapParams m with
    | ok a1 =>
      rw [g1, Out.ok_bind] at h
      cases g2 : r.mapParams m with
      | ok r1 =>
        rw [g2, Out.ok_bind] at h; cases h
        rw [piecesDen, piecesDen, pieces_params ps a1 ha.1 g1, pieces_params r r1 ha.2 g2]
      | _ => rw [g2] at h; cases h
    | _ => rw [g1] at h; cases h
  | .ty t r, s', ha, h => by
    rw [Pieces.All] at ha
    rw [Pieces.mapParams] at h
    cases g1 : t.mapParams m with
    | ok a1 =>
      rw [g1, Out.ok_bind] at h
      cases g2 : r.mapParams m with
      | ok r1 =>
        rw [g2, Out.ok_bind] at h; cases h
        rw [piecesDen, piecesDen, ty_params t a1 ha.1 g1, pieces_params r r1 ha.2 g2]
      | _ => rw [g2] at h; cases h
    | _ => rw [g1] at h; cases h
  | .path lead segs r, s', ha, h => by
    rw [Pieces.All] at ha
    rw [Pieces.mapParams] at h
    cases g1 : segs.mapParams m with
    | ok a1 =>
      rw [g1, Out.ok_bind] at h
      cases g2 : r.mapParams m with
      | ok r1 =>
        rw [g2, Out.ok_bind] at h; cases h
        rw [piecesDen, piecesDen, pieces_params r r1 ha.2.2 g2]
        exact boundDen_params ha.1 (segs_params segs a1 ha.2.1 g1)
      | _ => rw [g2] at h; cases h
    | _ => rw [g1] at h; cases h

end

end

/-- **C52.** The result means, where the parameters are not in scope, what the type means with the parameters being
the arguments. In particular the arguments are not substituted into: their meaning is the outer one. -/
theorem C52_meaning {D : Type} (I : Interp D) (ρ : TyEnv D) (m : GMap) (t t' : Ty)
    (ht : ParamOk (fun i => (m i).isSome) t) (h : t.mapParams m = .ok t') :
    tyDen I ρ t' = tyDen I (paramEnv I ρ m) t :=
  ty_params t t' ht h

/-- The same for the trait's path. -/
theorem C52_meaning_path {D : Type} (I : Interp D) (ρ : TyEnv D) (m : GMap) (p p' : PathTy)
    (ht : Segs.All (ParamPath fun i => (m i).isSome) (Free fun i => (m i).isSome) p.segs) (h : p.mapParams m = .ok p') :
    p'.lead = p.lead ∧ segsDen I ρ p'.segs = segsDen I (paramEnv I ρ m) p.segs := by
  unfold PathTy.mapParams at h
  cases h1 : p.segs.mapParams m with
  | ok s => rw [h1, Out.ok_bind] at h; cases h; exact ⟨rfl, segs_params _ _ ht h1⟩
  | _ => rw [h1] at h; cases h

/-! ## Success -/

section
variable {m : GMap}

mutual

theorem ty_params_ok : ∀ t : Ty, (∃ t', t.mapParams m = .ok t') ↔ Ty.All (Typed m) (fun _ _ => True) t
  | .path .none lead segs => by
    rw [Ty.mapParams, Ty.All]
    cases hm : mapped m .none lead segs with
    | some a =>
      simp only [mapped] at hm
      cases hi : getIdent lead segs with
      | none => rw [hi] at hm; cases hm
      | some i =>
        rw [hi] at hm
        obtain ⟨rfl, rfl⟩ := getIdent_iff.mp hi
        have hm' : m i = some a := hm
        simp only [Segs.All, Args.All, and_self, and_true]
        cases a with
        | ty t =>
          refine ⟨fun _ => ?_, fun _ => ⟨t, rfl⟩⟩
          intro j a _ e hj
          cases e
          rw [hm'] at hj
          exact ⟨t, (Option.some.inj hj).symm⟩
        | lifetime s =>
          refine ⟨fun h => (by obtain ⟨_, h⟩ := h; cases h), fun h => ?_⟩
          obtain ⟨t, ht⟩ := h i _ rfl rfl hm'
          cases ht
        | other ts =>
          refine ⟨fun h => (by obtain ⟨_, h⟩ := h; cases h), fun h => ?_⟩
          obtain ⟨t, ht⟩ := h i _ rfl rfl hm'
          cases ht
    | none =>
      rw [QSelf.mapParams]
      simp only [Out.ok_bind]
      have hT : Typed m lead segs := by
        rintro i a rfl rfl hj
        simp only [mapped, getIdent_iff.mpr ⟨rfl, rfl⟩, Option.bind_some] at hm
        rw [hm] at hj
        cases hj
      rw [← segs_params_ok segs]
      refine ⟨fun ⟨t', h⟩ => ⟨hT, ?_⟩, fun ⟨_, s', h⟩ => ⟨_, by rw [h]; rfl⟩⟩
      cases hs : segs.mapParams m with
      | ok segs' => exact ⟨_, rfl⟩
      | _ => rw [hs] at h; cases h
  | .path (.some t n) lead segs => by
    rw [Ty.mapParams, Ty.All, ← ty_params_ok t, ← segs_params_ok segs]
    simp only [mapped, QSelf.mapParams]
    refine ⟨fun ⟨t', h⟩ => ?_, fun ⟨⟨t', h⟩, s', hs⟩ => ⟨_, by rw [h, Out.ok_bind, Out.ok_bind, hs]; rfl⟩⟩
    cases ht : t.mapParams m with
    | ok t1 =>
      rw [ht, Out.ok_bind, Out.ok_bind] at h
      cases hs : segs.mapParams m with
      | ok segs' => exact ⟨⟨_, rfl⟩, _, rfl⟩
      | _ => rw [hs] at h; cases h
    | _ => rw [ht] at h; cases h
  | .ref lt mu t => by
    rw [Ty.mapParams, Ty.All, ← ty_params_ok t]
    refine ⟨fun ⟨t', h⟩ => ?_, fun ⟨t', h⟩ => ⟨_, by rw [h]; rfl⟩⟩
    cases ht : t.mapParams m with
    | ok t1 => exact ⟨_, rfl⟩
    | _ => rw [ht] at h; cases h
  | .slice t => by
    rw [Ty.mapParams, Ty.All, ← ty_params_ok t]
    refine ⟨fun ⟨t', h⟩ => ?_, fun ⟨t', h⟩ => ⟨_, by rw [h]; rfl⟩⟩
    cases ht : t.mapParams m with
    | ok t1 => exact ⟨_, rfl⟩
    | _ => rw [ht] at h; cases h
  | .other ps => by
    rw [Ty.mapParams, Ty.All, ← pieces_params_ok ps]
    refine ⟨fun ⟨t', h⟩ => ?_, fun ⟨t', h⟩ => ⟨_, by rw [h]; rfl⟩⟩
    cases ht : ps.mapParams m with
    | ok t1 => exact ⟨_, rfl⟩
    | _ => rw [ht] at h; cases h

theorem segs_params_ok : ∀ s : Segs, (∃ s', s.mapParams m = .ok s') ↔ Segs.All (Typed m) (fun _ _ => True) s
  | .nil => by rw [Segs.mapParams, Segs.All]; exact ⟨fun _ => trivial, fun _ => ⟨_, rfl⟩⟩
  | .cons i a r => by
    rw [Segs.mapParams, Segs.All, ← args_params_ok a, ← segs_params_ok r]
    refine ⟨fun ⟨t', h⟩ => ?_, fun ⟨⟨t', h⟩, s', hs⟩ => ⟨_, by rw [h, Out.ok_bind, hs]; rfl⟩⟩
    cases ht : a.mapParams m with
    | ok t1 =>
      rw [ht, Out.ok_bind] at h
      cases hs : r.mapParams m with
      | ok segs' => exact ⟨⟨_, rfl⟩, _, rfl⟩
      | _ => rw [hs] at h; cases h
    | _ => rw [ht] at h; cases h

theorem args_params_ok : ∀ s : Args, (∃ s', s.mapParams m = .ok s') ↔ Args.All (Typed m) (fun _ _ => True) s
  | .none => by rw [Args.mapParams, Args.All]; exact ⟨fun _ => trivial, fun _ => ⟨_, rfl⟩⟩
  | .angle c ps => by
    rw [Args.mapParams, Args.All, ← pieces_params_ok ps]
    refine ⟨fun ⟨t', h⟩ => ?_, fun ⟨t', h⟩ => ⟨_, by rw [h]; rfl⟩⟩
    cases ht : ps.mapParams m with
    | ok t1 => exact ⟨_, rfl⟩
    | _ => rw [ht] at h; cases h
  | .paren ps => by
    rw [Args.mapParams, Args.All, ← pieces_params_ok ps]
    refine ⟨fun ⟨t', h⟩ => ?_, fun ⟨t', h⟩ => ⟨_, by rw [h]; rfl⟩⟩
    cases ht : ps.mapParams m with
    | ok t1 => exact ⟨_, rfl⟩
    | _ => rw [ht] at h; cases h

theorem pieces_params_ok : ∀ s : Pieces, (∃ s', s.mapParams m = .ok s') ↔ Pieces.All (Typed m) (fun _ _ => True) s
  | .nil => by rw [Pieces.mapParams, Pieces.All]; exact ⟨fun _ => trivial, fun _ => ⟨_, rfl⟩⟩
  | .tok s r => by
    rw [Pieces.mapParams, Pieces.All, ← pieces_params_ok r]
    refine ⟨fun ⟨t', h⟩ => ?_, fun ⟨t', h⟩ => ⟨_, by rw [h]; rfl⟩⟩
    cases ht : r.mapParams m with
    | ok t1 => exact ⟨_, rfl⟩
    | _ => rw [ht] at h; cases h
  | .group o c ps r => by
    rw [Pieces.mapParams, Pieces.All, ← pieces_params_ok ps, ← pieces_params_ok r]
    refine ⟨fun ⟨t', h⟩ => ?_, fun ⟨⟨t', h⟩, s', hs⟩ => ⟨_, by rw [h, Out.ok_bind, hs]; rfl⟩⟩
    cases ht : ps.mapParams m with
    | ok t1 =>
      rw [ht, Out.ok_bind] at h
      cases hs : r.mapParams m with
      | ok segs' => exact ⟨⟨_, rfl⟩, _, rfl⟩
      | _ => rw [hs] at h; cases h
    | _ => rw [ht] at h; cases h
  | .ty t r => by
    rw [Pieces.mapParams, Pieces.All, ← ty_params_ok t, ← pieces_params_ok r]
    refine ⟨fun ⟨t', h⟩ => ?_, fun ⟨⟨t', h⟩, s', hs⟩ => ⟨_, by rw [h, Out.ok_bind, hs]; rfl⟩⟩
    cases ht : t.mapParams m with
    | ok t1 =>
      rw [ht, Out.ok_bind] at h
      cases hs : r.mapParams m with
      | ok segs' => exact ⟨⟨_, rfl⟩, _, rfl⟩
      | _ => rw [hs] at h; cases h
    | _ => rw [ht] at h; cases h
  | .path lead segs r => by
    rw [Pieces.mapParams, Pieces.All, ← segs_params_ok segs, ← pieces_params_ok r]
    refine ⟨fun ⟨t', h⟩ => ?_, fun ⟨_, ⟨t', h⟩, s', hs⟩ => ⟨_, by rw [h, Out.ok_bind, hs]; rfl⟩⟩
    cases ht : segs.mapParams m with
    | ok t1 =>
      rw [ht, Out.ok_bind] at h
      cases hs : r.mapParams m with
      | ok segs' => exact ⟨trivial, ⟨_, rfl⟩, _, rfl⟩
      | _ => rw [hs] at h; cases h
    | _ => rw [ht] at h; cases h

end

end

/-- **C52.** The substitution succeeds just if each parameter that occurs as a type has a type as its argument (a
constant or a lifetime in its place is rejected). -/
theorem C52_success (m : GMap) (t : Ty) : (∃ t', t.mapParams m = .ok t') ↔ Ty.All (Typed m) (fun _ _ => True) t :=
  ty_params_ok t

/-! ## Parameters and arguments -/

theorem typePairs_mem {l : List (GParam × GArg)} {i : Str} {a : GArg} : (i, a) ∈ typePairs l ↔ (GParam.ty i, a) ∈ l := by
  induction l with
  | nil => simp [typePairs]
  | cons x l ih =>
    obtain ⟨p, b⟩ := x
    cases p <;> simp [typePairs, ih]

theorem lookup_unique {l : List (Str × GArg)} {i : Str} {a : GArg} (h : (i, a) ∈ l)
    (hu : ∀ b, (i, b) ∈ l → b = a) : l.lookup i = some a := by
  induction l with
  | nil => cases h
  | cons x l ih =>
    obtain ⟨j, b⟩ := x
    rw [List.lookup_cons]
    by_cases hj : i = j
    · subst hj
      simp [hu b (by simp)]
    · have : (i == j) = false := by simp [hj]
      rw [this]
      refine ih ?_ fun b' h' => hu b' (List.mem_cons_of_mem _ h')
      rcases List.mem_cons.mp h with h | h
      · cases h; exact absurd rfl hj
      · exact h

theorem lookup_absent {l : List (Str × GArg)} {i : Str} (h : ∀ a, (i, a) ∉ l) : l.lookup i = none := by
  rw [List.lookup_eq_none_iff]
  rintro ⟨j, b⟩ hm
  by_contra hc
  have : i = j := by simpa using hc
  exact h b (this ▸ hm)

/-- **C52.** More arguments than parameters are rejected. -/
theorem C52_too_many (params : List GParam) (args : List GArg) :
    genericParamsMap params args = .panic ↔ params.length < args.length := by
  unfold genericParamsMap
  by_cases h : params.length < args.length
  · simp [h]
  · simp [h]

/-- **C52.** The arguments belong to the last parameters, one by one; the parameters before them (the lifetimes, when
those are omitted) and all other identifiers are not mapped. -/
theorem C52_positions (omitted params : List GParam) (args : List GArg) (hl : params.length = args.length)
    (hd : params.Nodup) :
    ∃ m, genericParamsMap (omitted ++ params) args = .ok m ∧
      (∀ (k : Nat) i a, params[k]? = some (.ty i) → args[k]? = some a → m i = some a) ∧
      ∀ i, GParam.ty i ∉ params → m i = none := by
  have h1 : ¬ (omitted ++ params).length < args.length := by simp; omega
  have h2 : (omitted ++ params).drop ((omitted ++ params).length - args.length) = params := by
    rw [← hl, List.length_append, Nat.add_sub_cancel, List.drop_left]
  refine ⟨_, by unfold genericParamsMap; rw [if_neg h1, h2], ?_, ?_⟩
  · intro k i a hk ha
    refine lookup_unique ?_ ?_
    · rw [List.mem_reverse, typePairs_mem, List.mem_iff_getElem?]
      exact ⟨k, by rw [List.getElem?_zip_eq_some]; exact ⟨hk, ha⟩⟩
    · intro b hb
      rw [List.mem_reverse, typePairs_mem, List.mem_iff_getElem?] at hb
      obtain ⟨k', hk'⟩ := hb
      rw [List.getElem?_zip_eq_some] at hk'
      have hlt : k < params.length := by
        by_contra hc
        rw [List.getElem?_eq_none (by omega)] at hk
        cases hk
      have hkk : k = k' := by
        refine (List.getElem?_inj hlt hd).mp ?_
        rw [hk, hk'.1]
      subst hkk
      have := hk'.2
      simp only at this ha
      rw [ha] at this
      exact (Option.some.inj this).symm
  · intro i hi
    refine lookup_absent fun a ha => hi ?_
    rw [List.mem_reverse, typePairs_mem] at ha
    exact (List.of_mem_zip ha).1

/-- Exception: `T::Item` stays as it is, although `T` is mapped. -/
theorem C52_projection_left (m : GMap) (i a : Str) :
    (Ty.path .none false (.cons i .none (.cons a .none .nil))).mapParams m =
      .ok (.path .none false (.cons i .none (.cons a .none .nil))) := by
  rw [Ty.mapParams]
  simp [mapped, getIdent, Segs.single, QSelf.mapParams, Segs.mapParams, Args.mapParams, Out.ok_bind]

/-- Exception: a `const` parameter is not mapped. -/
theorem C52_const_left (n : Str) (a : GArg) : ∃ m, genericParamsMap [.const n] [a] = .ok m ∧ m n = none :=
  ⟨_, rfl, rfl⟩

/-! ## A case: `impl<'a, T, U> Tr<U> for &'a Foo<T, Vec<U>>` with the arguments `U, u8` (where `U` is another type) -/

namespace ParamsDemo

def params : List GParam := [.lifetime c%"'a", .ty c%"T", .ty c%"U"]
def args : List GArg := [.ty (.name c%"U"), .ty (.name c%"u8")]
def vec (t : Ty) : Ty := .path .none false (.cons c%"Vec" (.angle false (.ty t .nil)) .nil)
def foo (t u : Ty) : Ty :=
  .ref (some c%"'a") false (.path .none false (.cons c%"Foo" (.angle false (.ty t (.tok c%"," (.ty u .nil)))) .nil))

def m : GMap := fun i => (typePairs ((params.drop 1).zip args)).reverse.lookup i

example : genericParamsMap params args = .ok m := rfl

example : (foo (.name c%"T") (vec (.name c%"U"))).mapParams m = .ok (foo (.name c%"U") (vec (.name c%"u8"))) := by
  decide +kernel

example : ParamOk (fun i => (m i).isSome) (foo (.name c%"T") (vec (.name c%"U"))) := by
  have h1 : ∀ i : Str, (m i).isSome = true ↔ i = c%"T" ∨ i = c%"U" := by
    intro i
    simp only [m, params, args, typePairs, List.drop, List.zip, List.zipWith, List.reverse, List.reverseAux,
      List.lookup]
    by_cases h1 : i = c%"U"
    · simp [h1]
    · by_cases h2 : i = c%"T"
      · simp [h2]
      · rw [beq_eq_false_iff_ne.mpr h1, beq_eq_false_iff_ne.mpr h2]
        simp [h1, h2]
  simp [ParamOk, foo, vec, Ty.name, Ty.All, Segs.All, Args.All, Pieces.All, ParamPath, headVar, h1]

end ParamsDemo

end TF
