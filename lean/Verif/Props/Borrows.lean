import Verif.Props.Lifetimes
import Verif.Props.Generics

/-!
# Results that borrow from arguments: C94

Where the harness calls the target, the arguments are made from the fields of a local variable. References made there do not
outlive it; the result is stored outside.
-/

namespace TF

open Spec

namespace Spec

/-- Lifetimes, one of which is that of the local variable with the fields. -/
structure Regions where
  R : Type
  outlives : R → R → Prop
  refl : ∀ r, outlives r r
  trans : ∀ {a b c}, outlives a b → outlives b c → outlives a c
  static : R
  static_outlives : ∀ r, outlives static r
  body : R
  body_short : ¬ outlives body static

/-- The lifetimes – in the type of the parameter – of the references that the expression for an argument makes. A field that is
moved, and the result of a conversion, are not references to the local variable. -/
def madeRefs : DeE → Ty → List Str
  | .borrow _ e, .ref lt _ t => lt.toList ++ madeRefs e t
  | .asStr .., .ref lt _ _ => lt.toList
  | .asSlice .., .ref lt _ _ => lt.toList
  | _, _ => []

/-- The expressions of the call, with the types of the parameters. -/
def callExprs (fs : List FieldM) (tys : List Ty) : List (DeE × Ty) := (fs.filterMap (·.de)).zip tys

/-- The borrow checker accepts the call: there are lifetimes for those in the signature, such that references made for the call
do not outlive the local variable, what the signature (declared or implied: `bounds`) says about them holds, and the result is one that lives on:
its type is declared, outside, with `'static` for lifetimes (`C68_lifetimes_filled`). Lifetimes that occur in the result only in
parameters of functions are treated as if they occurred elsewhere. -/
def CallChecks (rg : Regions) (es : List (DeE × Ty)) (bounds : List (Str × Str)) (ret : Ty) : Prop :=
  ∃ ρ : Str → rg.R, ρ c%"static" = rg.static ∧ (∀ p ∈ es, ∀ a ∈ madeRefs p.1 p.2, rg.outlives rg.body (ρ a)) ∧
    (∀ b ∈ bounds, rg.outlives (ρ b.1) (ρ b.2)) ∧ ∀ a, Ty.Mentions a ret → rg.outlives (ρ a) rg.static

/-- `'a: 'b` follows. -/
inductive LivesAsLong (bounds : List (Str × Str)) : Str → Str → Prop
  | refl (a : Str) : LivesAsLong bounds a a
  | step {a b c : Str} : (a, b) ∈ bounds → LivesAsLong bounds b c → LivesAsLong bounds a c

/-- The lifetime of a reference around the type of a parameter, no part of which down to there is converted. -/
inductive Around (convert : List (Ty × Ty)) : Ty → Str → Prop
  | here {t : Ty} (a : Str) (m : Bool) : ¬ Converted convert (.ref (some a) m t) → Around convert (.ref (some a) m t) a
  | behind {t : Ty} {a : Str} (lt : Option Str) (m : Bool) : ¬ Converted convert (.ref lt m t) → Around convert t a →
      Around convert (.ref lt m t) a

/-- A parameter that the harness passes a reference with this lifetime for. -/
def PassedByRef (convert : List (Ty × Ty)) (im : ImplM) (inputs : List FnArg) (l : Str) : Prop :=
  ∃ a ∈ inputs, a.attrs = [] ∧ ∃ t, ArgTy im a t ∧ Around convert t l

/-- A parameter written as a reference with the lifetime: `&'l self` or `pat: &'l T`. -/
inductive WrittenRef (l : Str) : FnArg → Prop
  | receiver (at' : List Str) (m : Bool) : WrittenRef l (.receiver at' false (.reference (some l) m))
  | typed (at' : List Str) (pat : PatInfo) (m : Bool) (t : Ty) : WrittenRef l (.typed at' pat (.ref (some l) m t))

end Spec

/-! ## Proofs -/

section
variable {convert : List (Ty × Ty)} {c : Convs}

theorem madeRefs_unconverted (hc : ∀ u, c.get u = lastConv convert u) {t : Ty} (hg : c.get t = none) : ¬ Converted convert t := by
  intro h
  rw [hc] at hg
  exact (lastConv_isSome convert t).mpr h hg

theorem madeRefs_converted (hc : ∀ u, c.get u = lastConv convert u) (i l : Str) {t y : Ty} (e : SerE) (hg : c.get t = some y) :
    l ∈ madeRefs (mapTypedArg i c e t).de t ↔ Around convert t l := by
  have con : Converted convert t := by
    rw [hc] at hg
    exact (lastConv_isSome convert t).mp (by rw [hg]; exact Option.some_ne_none _)
  rw [mapTypedArg_get hg]
  have h1 : madeRefs (.into i) t = [] := by cases t <;> rfl
  rw [h1]
  refine ⟨fun h => (by cases h), fun h => ?_⟩
  cases h with
  | here _ _ hn => exact absurd con hn
  | behind _ _ hn _ => exact absurd con hn

theorem madeRefs_plain (i l : Str) {t : Ty} (e : SerE) (hr : ∀ lt m s, t ≠ .ref lt m s) :
    l ∈ madeRefs (mapPathArg c i e t).de t ↔ Around convert t l := by
  have h1 : madeRefs (mapPathArg c i e t).de t = [] := by cases t <;> rfl
  rw [h1]
  refine ⟨fun h => (by cases h), fun h => ?_⟩
  cases h with
  | here => exact absurd rfl (hr _ _ _)
  | behind => exact absurd rfl (hr _ _ _)

theorem madeRefs_node {l : Str} {lt : Option Str} {m : Bool} {t : Ty} {made : List Str} (hn : ¬ Converted convert (.ref lt m t))
    (ih : l ∈ made ↔ Around convert t l) : l ∈ lt.toList ++ made ↔ Around convert (.ref lt m t) l := by
  rw [List.mem_append]
  constructor
  · rintro (h | h)
    · cases lt with
      | none => cases h
      | some a =>
        rw [Option.toList_some, List.mem_singleton] at h
        subst h
        exact .here _ _ hn
    · exact .behind _ _ hn (ih.mp h)
  · intro h
    cases h with
    | here => simp
    | behind _ _ _ h => exact .inr (ih.mpr h)

theorem madeRefs_leaf {l : Str} {lt : Option Str} {m : Bool} {t : Ty} (hn : ¬ Converted convert (.ref lt m t))
    (hr : ∀ lt m s, t ≠ .ref lt m s) : l ∈ lt.toList ↔ Around convert (.ref lt m t) l := by
  rw [← madeRefs_node (made := []) hn, List.append_nil]
  refine ⟨fun h => (by cases h), fun h => ?_⟩
  cases h with
  | here => exact absurd rfl (hr _ _ _)
  | behind => exact absurd rfl (hr _ _ _)

theorem mapTypedArg_madeRefs (hc : ∀ u, c.get u = lastConv convert u) (i l : Str) :
    ∀ (t : Ty) (e : SerE), l ∈ madeRefs (mapTypedArg i c e t).de t ↔ Around convert t l
  | .path q lead segs, e => by
    cases hg : c.get (.path q lead segs) with
    | some y => exact madeRefs_converted hc i l e hg
    | none => simp only [mapTypedArg, hg]; exact madeRefs_plain i l e (by intros; exact nofun)
  | .slice t, e => by
    cases hg : c.get (.slice t) with
    | some y => exact madeRefs_converted hc i l e hg
    | none => simp only [mapTypedArg, hg]; exact madeRefs_plain i l e (by intros; exact nofun)
  | .other ps, e => by
    cases hg : c.get (.other ps) with
    | some y => exact madeRefs_converted hc i l e hg
    | none => simp only [mapTypedArg, hg]; exact madeRefs_plain i l e (by intros; exact nofun)
  | .ref lt m (.path q lead segs), e => by
    cases hg : c.get (.ref lt m (.path q lead segs)) with
    | some y => exact madeRefs_converted hc i l e hg
    | none =>
      by_cases hs : matchTypePath q segs c%"str" = some .none
      · simp only [mapTypedArg, hg, if_pos hs, madeRefs]
        exact madeRefs_leaf (madeRefs_unconverted hc hg) (by intros; exact nofun)
      · simp only [mapTypedArg, hg, if_neg hs, mapPathArg, madeRefs, List.append_nil]
        exact madeRefs_leaf (madeRefs_unconverted hc hg) (by intros; exact nofun)
  | .ref lt m (.slice t), e => by
    cases hg : c.get (.ref lt m (.slice t)) with
    | some y => exact madeRefs_converted hc i l e hg
    | none =>
      simp only [mapTypedArg, hg, madeRefs]
      exact madeRefs_leaf (madeRefs_unconverted hc hg) (by intros; exact nofun)
  | .ref lt m (.other ps), e => by
    cases hg : c.get (.ref lt m (.other ps)) with
    | some y => exact madeRefs_converted hc i l e hg
    | none =>
      have ih := mapTypedArg_madeRefs hc i l (.other ps) (.deref e)
      simp only [mapTypedArg, hg, madeRefs] at ih ⊢
      exact madeRefs_node (madeRefs_unconverted hc hg) ih
  | .ref lt m (.ref lt2 m2 t), e => by
    cases hg : c.get (.ref lt m (.ref lt2 m2 t)) with
    | some y => exact madeRefs_converted hc i l e hg
    | none =>
      rw [mapTypedArg_ref hg]
      simp only [madeRefs]
      exact madeRefs_node (madeRefs_unconverted hc hg) (mapTypedArg_madeRefs hc i l (.ref lt2 m2 t) (.deref e))

end

section
variable {self : Ty} {tr : Option PathTy} {l : Str}

mutual

theorem ty_keeps : ∀ t t' : Ty, Ty.All SelfPath (Free isSelfVar) t → t.expandSelf ⟨tr, self⟩ = .ok t' → Ty.Mentions l t → Ty.Mentions l t'
  | .path q lead segs, t', ha, h, hm => by
    rw [Ty.expandSelf] at h
    by_cases h1 : isSelf q segs = true
    · rw [if_pos h1] at h
      cases h
      obtain ⟨rfl, rfl⟩ := isSelf_iff.mp h1
      rw [Ty.Mentions, QSelf.Mentions, Segs.Mentions, Args.Mentions, Segs.Mentions] at hm
      simp at hm
    · rw [if_neg h1] at h
      by_cases h2 : beginsWithSelf q segs = true
      · rw [if_pos h2] at h
        obtain ⟨rfl, a, r, rfl⟩ := beginsWithSelf_iff.mp h2
        cases tr with
        | none => cases r <;> cases h
        | some p =>
          cases r with
          | nil => cases h
          | cons j b r =>
          cases h
          rw [Ty.All] at ha
          obtain ⟨rfl, rfl, -⟩ := ha.1 rfl
          rw [Ty.Mentions, QSelf.Mentions, Segs.Mentions, Args.Mentions] at hm
          rw [Ty.Mentions, QSelf.Mentions, mentions_append]
          exact .inr (.inr ((hm.resolve_left id).resolve_left id))
      · rw [if_neg h2] at h
        cases q with
        | none =>
          rw [Ty.All] at ha
          rw [QSelf.expandSelf, Out.ok_bind] at h
          cases hs : segs.expandSelf ⟨tr, self⟩ with
          | ok segs' =>
            rw [hs, Out.ok_bind] at h
            cases h
            rw [Ty.Mentions] at hm ⊢
            rcases hm with hm | hm
            · exact hm.elim
            · exact .inr (segs_keeps segs segs' ha.2 hs hm)
          | _ => rw [hs] at h; cases h
        | some t n =>
          rw [Ty.All] at ha
          rw [QSelf.expandSelf] at h
          cases ht : t.expandSelf ⟨tr, self⟩ with
          | ok t1 =>
            rw [ht, Out.ok_bind, Out.ok_bind] at h
            cases hs : segs.expandSelf ⟨tr, self⟩ with
            | ok segs' =>
              rw [hs, Out.ok_bind] at h
              cases h
              rw [Ty.Mentions, QSelf.Mentions] at hm ⊢
              rcases hm with hm | hm
              · exact .inl (ty_keeps t t1 ha.1 ht hm)
              · exact .inr (segs_keeps segs segs' ha.2 hs hm)
            | _ => rw [hs] at h; cases h
          | _ => rw [ht] at h; cases h
  | .ref lt m t, t', ha, h, hm => by
    rw [Ty.All] at ha
    rw [Ty.expandSelf] at h
    cases ht : t.expandSelf ⟨tr, self⟩ with
    | ok t1 =>
      rw [ht, Out.ok_bind] at h
      cases h
      rw [Ty.Mentions] at hm ⊢
      rcases hm with hm | hm
      · exact .inl hm
      · exact .inr (ty_keeps t t1 ha ht hm)
    | _ => rw [ht] at h; cases h
  | .slice t, t', ha, h, hm => by
    rw [Ty.All] at ha
    rw [Ty.expandSelf] at h
    cases ht : t.expandSelf ⟨tr, self⟩ with
    | ok t1 => rw [ht, Out.ok_bind] at h; cases h; rw [Ty.Mentions] at hm ⊢; exact ty_keeps t t1 ha ht hm
    | _ => rw [ht] at h; cases h
  | .other ps, t', ha, h, hm => by
    rw [Ty.All] at ha
    rw [Ty.expandSelf] at h
    cases ht : ps.expandSelf ⟨tr, self⟩ with
    | ok t1 => rw [ht, Out.ok_bind] at h; cases h; rw [Ty.Mentions] at hm ⊢; exact pieces_keeps ps t1 ha ht hm
    | _ => rw [ht] at h; cases h

theorem segs_keeps : ∀ s s' : Segs, Segs.All SelfPath (Free isSelfVar) s → s.expandSelf ⟨tr, self⟩ = .ok s' → Segs.Mentions l s →
    Segs.Mentions l s'
  | .nil, s', ha, h, hm => by rw [Segs.expandSelf] at h; cases h; exact hm
  | .cons i a r, s', ha, h, hm => by
    rw [Segs.All] at ha
    rw [Segs.expandSelf] at h
    cases g1 : a.expandSelf ⟨tr, self⟩ with
    | ok a1 =>
      rw [g1, Out.ok_bind] at h
      cases g2 : r.expandSelf ⟨tr, self⟩ with
      | ok r1 =>
        rw [g2, Out.ok_bind] at h
        cases h
        rw [Segs.Mentions] at hm ⊢
        rcases hm with hm | hm
        · exact .inl (args_keeps a a1 ha.1 g1 hm)
        · exact .inr (segs_keeps r r1 ha.2 g2 hm)
      | _ => rw [g2] at h; cases h
    | _ => rw [g1] at h; cases h

theorem args_keeps : ∀ s s' : Args, Args.All SelfPath (Free isSelfVar) s → s.expandSelf ⟨tr, self⟩ = .ok s' → Args.Mentions l s →
    Args.Mentions l s'
  | .none, s', ha, h, hm => by rw [Args.expandSelf] at h; cases h; exact hm
  | .angle c ps, s', ha, h, hm => by
    rw [Args.All] at ha
    rw [Args.expandSelf] at h
    cases g1 : ps.expandSelf ⟨tr, self⟩ with
    | ok a1 => rw [g1, Out.ok_bind] at h; cases h; rw [Args.Mentions] at hm ⊢; exact pieces_keeps ps a1 ha g1 hm
    | _ => rw [g1] at h; cases h
  | .paren ps, s', ha, h, hm => by
    rw [Args.All] at ha
    rw [Args.expandSelf] at h
    cases g1 : ps.expandSelf ⟨tr, self⟩ with
    | ok a1 => rw [g1, Out.ok_bind] at h; cases h; rw [Args.Mentions] at hm ⊢; exact pieces_keeps ps a1 ha g1 hm
    | _ => rw [g1] at h; cases h

theorem pieces_keeps : ∀ s s' : Pieces, Pieces.All SelfPath (Free isSelfVar) s → s.expandSelf ⟨tr, self⟩ = .ok s' → Pieces.Mentions l s →
    Pieces.Mentions l s'
  | .nil, s', ha, h, hm => by rw [Pieces.expandSelf] at h; cases h; exact hm
  | .tok s r, s', ha, h, hm => by
    rw [Pieces.All] at ha
    rw [Pieces.expandSelf] at h
    cases g1 : r.expandSelf ⟨tr, self⟩ with
    | ok a1 =>
      rw [g1, Out.ok_bind] at h
      cases h
      rw [Pieces.Mentions] at hm
      rw [Pieces.Mentions, expand_beginsWith _ _ _ g1]
      rcases hm with hm | hm
      · exact .inl hm
      · exact .inr (pieces_keeps r a1 ha g1 hm)
    | _ => rw [g1] at h; cases h
  | .group o c ps r, s', ha, h, hm => by
    rw [Pieces.All] at ha
    rw [Pieces.expandSelf] at h
    cases g1 : ps.expandSelf ⟨tr, self⟩ with
    | ok a1 =>
      rw [g1, Out.ok_bind] at h
      cases g2 : r.expandSelf ⟨tr, self⟩ with
      | ok r1 =>
        rw [g2, Out.ok_bind] at h
        cases h
        rw [Pieces.Mentions] at hm ⊢
        rcases hm with hm | hm
        · exact .inl (pieces_keeps ps a1 ha.1 g1 hm)
        · exact .inr (pieces_keeps r r1 ha.2 g2 hm)
      | _ => rw [g2] at h; cases h
    | _ => rw [g1] at h; cases h
  | .ty t r, s', ha, h, hm => by
    rw [Pieces.All] at ha
    rw [Pieces.expandSelf] at h
    cases g1 : t.expandSelf ⟨tr, self⟩ with
    | ok a1 =>
      rw [g1, Out.ok_bind] at h
      cases g2 : r.expandSelf ⟨tr, self⟩ with
      | ok r1 =>
        rw [g2, Out.ok_bind] at h
        cases h
        rw [Pieces.Mentions] at hm ⊢
        rcases hm with hm | hm
        · exact .inl (ty_keeps t a1 ha.1 g1 hm)
        · exact .inr (pieces_keeps r r1 ha.2 g2 hm)
      | _ => rw [g2] at h; cases h
    | _ => rw [g1] at h; cases h
  | .path lead segs r, s', ha, h, hm => by
    rw [Pieces.All] at ha
    rw [Pieces.expandSelf] at h
    cases g1 : segs.expandSelf ⟨tr, self⟩ with
    | ok a1 =>
      rw [g1, Out.ok_bind] at h
      cases g2 : r.expandSelf ⟨tr, self⟩ with
      | ok r1 =>
        rw [g2, Out.ok_bind] at h
        cases h
        rw [Pieces.Mentions] at hm ⊢
        rcases hm with hm | hm
        · exact .inl (segs_keeps segs a1 ha.2.1 g1 hm)
        · exact .inr (pieces_keeps r r1 ha.2.2 g2 hm)
      | _ => rw [g2] at h; cases h
    | _ => rw [g1] at h; cases h

end

end

theorem filterMap_de_append (fs ph : List FieldM) (h : ∀ f ∈ ph, f.de = none) :
    (fs ++ ph).filterMap (·.de) = fs.filterMap (·.de) := by
  rw [List.filterMap_append]
  have : ph.filterMap (·.de) = [] := by
    rw [List.filterMap_eq_nil_iff]
    exact h
  rw [this, List.append_nil]

theorem callExprs_mem {im : ImplM} {convert : List (Ty × Ty)} (l : Str) : ∀ {inputs : List FnArg} {fs : List FieldM} {tys : List Ty},
    List.Forall₂ (FieldFor im (Convs.ofOpts convert)) inputs fs → List.Forall₂ (ArgTy im) inputs tys →
    ((∃ p ∈ callExprs fs tys, l ∈ madeRefs p.1 p.2) ↔ PassedByRef convert im inputs l)
  | _, _, _, .nil, .nil => by simp [callExprs, PassedByRef]
  | _, _, _, .cons (a := a) (b := f) (l₁ := inputs) (l₂ := fs) hf hF, .cons (b := t) (l₂ := tys) ht hT => by
    have ih := callExprs_mem l hF hT
    obtain ⟨t', b, ck, ht', hck, -, h1, h2⟩ := hf
    obtain rfl := argTy_unique ht' ht
    have hc : ∀ u, ck.get u = lastConv convert u := fun u => by rw [hck, ofOpts_get]
    have key : ∃ e, f.de = some e ∧ (l ∈ madeRefs e t' ↔ a.attrs = [] ∧ Around convert t' l) := by
      by_cases ha : a.attrs = []
      · refine ⟨(mapTypedArg f.ident ck (.var b) t').de, by rw [h1 ha], ?_⟩
        rw [mapTypedArg_madeRefs hc]
        exact ⟨fun h => ⟨ha, h⟩, fun h => h.2⟩
      · refine ⟨.field f.ident, by rw [h2 ha], ?_⟩
        have h3 : madeRefs (.field f.ident) t' = [] := by cases t' <;> rfl
        rw [h3]
        exact ⟨fun h => (by cases h), fun h => absurd h.1 ha⟩
    obtain ⟨e, he, hl⟩ := key
    have hce : callExprs (f :: fs) (t' :: tys) = (e, t') :: callExprs fs tys := by
      unfold callExprs
      rw [List.filterMap_cons_some he, List.zip_cons_cons]
    rw [hce]
    simp only [List.mem_cons, exists_eq_or_imp, PassedByRef]
    rw [ih, hl]
    constructor
    · rintro (⟨h3, h4⟩ | h)
      · exact .inl ⟨h3, t', ht, h4⟩
      · exact .inr h
    · rintro (⟨h3, u, hu, h4⟩ | h)
      · obtain rfl := argTy_unique hu ht
        exact .inl ⟨h3, h4⟩
      · exact .inr h

theorem outlives_of_path {rg : Regions} {bounds : List (Str × Str)} {ρ : Str → rg.R}
    (h : ∀ b ∈ bounds, rg.outlives (ρ b.1) (ρ b.2)) {a b : Str} (hp : LivesAsLong bounds a b) : rg.outlives (ρ a) (ρ b) := by
  induction hp with
  | refl a => exact rg.refl _
  | step h1 _ ih => exact rg.trans (h _ h1) ih

/-- **C94.** The lifetimes of the call in the harness can be chosen just if no reference that is passed to the target has to live
as long as the result, or forever. `bounds`: what the signature says about lifetimes. -/
theorem C94_checks (rg : Regions) (fz : Bool) (im : Option ImplIn) (o : AttrOpts) (f : FnIn) (n n' : Nat) (m : MethodM) (mo : ModuleM)
    (h : mapMethodOrFn fz im o f n = .ok (m, mo, n')) (fs : List FieldM) (hf : mo.fields = some fs) (tys : List Ty)
    (htys : List.Forall₂ (ArgTy (im.map (·.ctx))) f.inputs tys) (bounds : List (Str × Str)) :
    CallChecks rg (callExprs fs tys) bounds mo.retTy ↔
      ∀ a b, PassedByRef o.convert (im.map (·.ctx)) f.inputs a → LivesAsLong bounds a b → b ≠ c%"static" ∧ ¬ Ty.Mentions b mo.retTy := by
  obtain ⟨fs1, rfl, hF⟩ := fields_split h hf
  have hde : callExprs (fs1 ++ (phantomFields n (implParams im ++ f.generics)).1) tys = callExprs fs1 tys := by
    unfold callExprs
    rw [filterMap_de_append _ _ fun g hg => ((phantomFields_idents _ _).2.2.2 g hg).1]
  have hmem := fun l => callExprs_mem l hF htys
  constructor
  · rintro ⟨ρ, h1, h2, h3, h4⟩ a b ha hab
    obtain ⟨p, hp, hl⟩ := (hmem a).mpr ha
    have hb : rg.outlives rg.body (ρ b) := rg.trans (h2 p (by rw [hde]; exact hp) a hl) (outlives_of_path h3 hab)
    refine ⟨?_, fun hm => ?_⟩
    · rintro rfl
      rw [h1] at hb
      exact rg.body_short hb
    · exact rg.body_short (rg.trans hb (h4 b hm))
  · intro hno
    classical
    let Long (b : Str) : Prop := ∃ c, LivesAsLong bounds b c ∧ (c = c%"static" ∨ Ty.Mentions c mo.retTy)
    refine ⟨fun b => if Long b then rg.static else rg.body, ?_, ?_, ?_, ?_⟩
    · exact if_pos ⟨_, .refl _, .inl rfl⟩
    · intro p hp a ha
      rw [hde] at hp
      have hpr := (hmem a).mp ⟨p, hp, ha⟩
      have : ¬ Long a := by
        rintro ⟨c, hc, hc'⟩
        obtain ⟨g1, g2⟩ := hno a c hpr hc
        exact hc'.elim g1 g2
      show rg.outlives _ (if Long a then _ else _)
      rw [if_neg this]
      exact rg.refl _
    · intro b hb
      by_cases h2 : Long b.2
      · have h1 : Long b.1 := by
          obtain ⟨c, hc, hc'⟩ := h2
          exact ⟨c, .step hb hc, hc'⟩
        show rg.outlives (if Long b.1 then _ else _) _
        rw [if_pos h1]
        exact rg.static_outlives _
      · show rg.outlives _ (if Long b.2 then _ else _)
        rw [if_neg h2]
        show rg.outlives (if Long b.1 then _ else _) _
        split
        · exact rg.static_outlives _
        · exact rg.refl _
    · intro a ha
      show rg.outlives (if Long a then _ else _) _
      rw [if_pos ⟨a, .refl _, .inr ha⟩]
      exact rg.refl _

theorem writtenRef_ty {im : ImplM} {l : Str} {a : FnArg} {t : Ty} (hw : WrittenRef l a) (ht : ArgTy im a t) :
    ∃ m u, t = .ref (some l) m u := by
  cases hw with
  | receiver at' m =>
    cases ht with
    | recvRef => exact ⟨_, _, rfl⟩
    | recvVal _ _ _ hk => exact absurd rfl (hk _ _)
  | typed at' pat m t =>
    cases ht with
    | free => exact ⟨_, _, rfl⟩
    | method x _ _ _ _ _ h =>
      rw [Ty.expandSelf] at h
      cases h1 : t.expandSelf x with
      | ok t1 => rw [h1, Out.ok_bind] at h; cases h; exact ⟨_, _, rfl⟩
      | _ => rw [h1] at h; cases h

/-- **C94 (results).** A parameter that is a reference is, without a conversion, passed as a reference into the local variable.
If the result can borrow from it – its type has the same lifetime, or one that it has to outlive – then the harness is rejected,
for functions and for methods, with and without a lifetime on `self`. -/
theorem C94_borrowed_result (rg : Regions) (fz : Bool) (im : Option ImplIn) (o : AttrOpts) (f : FnIn) (n n' : Nat) (m : MethodM)
    (mo : ModuleM) (h : mapMethodOrFn fz im o f n = .ok (m, mo, n')) (fs : List FieldM) (hf : mo.fields = some fs) (tys : List Ty)
    (htys : List.Forall₂ (ArgTy (im.map (·.ctx))) f.inputs tys) (bounds : List (Str × Str)) (a : FnArg) (ha : a ∈ f.inputs)
    (hat : a.attrs = []) (l l' : Str) (hw : WrittenRef l a) (hc : ∀ t, ArgTy (im.map (·.ctx)) a t → ¬ Converted o.convert t)
    (hl : LivesAsLong bounds l l') (out : Ty) (ho : f.output = some out) (hok : SelfOk out) (hm : Ty.Mentions l' out) :
    ¬ CallChecks rg (callExprs fs tys) bounds mo.retTy := by
  rw [C94_checks rg fz im o f n n' m mo h fs hf tys htys bounds]
  intro hno
  obtain ⟨t, -, ht⟩ := forall₂_mem_left htys ha
  obtain ⟨mu, u, rfl⟩ := writtenRef_ty hw ht
  refine (hno l l' ⟨a, ha, hat, _, ht, .here l mu (hc _ ht)⟩ hl).2 ?_
  obtain ⟨_, _, ret, _, -, -, h1, -, -, rfl, -⟩ := mapMethodOrFn_ok h
  unfold retTy at h1
  rw [ho] at h1
  cases im with
  | none => cases h1; exact hm
  | some x => exact ty_keeps _ _ hok h1 hm

/-- **C94 (`'static`).** Parameters that are references with the lifetime `'static` have to be converted. -/
theorem C94_static (rg : Regions) (fz : Bool) (im : Option ImplIn) (o : AttrOpts) (f : FnIn) (n n' : Nat) (m : MethodM)
    (mo : ModuleM) (h : mapMethodOrFn fz im o f n = .ok (m, mo, n')) (fs : List FieldM) (hf : mo.fields = some fs) (tys : List Ty)
    (htys : List.Forall₂ (ArgTy (im.map (·.ctx))) f.inputs tys) (bounds : List (Str × Str)) (a : FnArg) (ha : a ∈ f.inputs)
    (hat : a.attrs = []) (hw : WrittenRef c%"static" a) (hch : CallChecks rg (callExprs fs tys) bounds mo.retTy) :
    ∃ t, ArgTy (im.map (·.ctx)) a t ∧ Converted o.convert t := by
  rw [C94_checks rg fz im o f n n' m mo h fs hf tys htys bounds] at hch
  obtain ⟨t, -, ht⟩ := forall₂_mem_left htys ha
  obtain ⟨mu, u, rfl⟩ := writtenRef_ty hw ht
  refine Classical.byContradiction fun hc => ?_
  exact (hch c%"static" c%"static" ⟨a, ha, hat, _, ht, .here _ mu fun hcon => hc ⟨_, ht, hcon⟩⟩ (.refl _)).1 rfl

/-- **C94 (what remains).** If each lifetime on a reference to be passed differs from `'static` and from those of the result, and
the signature does not make it outlive others, then the harness is accepted; in particular if references have no names for
their lifetimes, whatever lifetimes the result has. -/
theorem C94_independent (rg : Regions) (fz : Bool) (im : Option ImplIn) (o : AttrOpts) (f : FnIn) (n n' : Nat) (m : MethodM)
    (mo : ModuleM) (h : mapMethodOrFn fz im o f n = .ok (m, mo, n')) (fs : List FieldM) (hf : mo.fields = some fs) (tys : List Ty)
    (htys : List.Forall₂ (ArgTy (im.map (·.ctx))) f.inputs tys) (bounds : List (Str × Str))
    (hp : ∀ l, PassedByRef o.convert (im.map (·.ctx)) f.inputs l →
      l ≠ c%"static" ∧ ¬ Ty.Mentions l mo.retTy ∧ ∀ l', (l, l') ∉ bounds) :
    CallChecks rg (callExprs fs tys) bounds mo.retTy := by
  rw [C94_checks rg fz im o f n n' m mo h fs hf tys htys bounds]
  intro a b ha hab
  obtain ⟨h1, h2, h3⟩ := hp a ha
  cases hab with
  | refl => exact ⟨h1, h2⟩
  | step h4 _ => exact absurd h4 (h3 _)

namespace BorrowDemo

/-- Two lifetimes. -/
def two : Regions where
  R := Bool
  outlives a b := a = true ∨ b = false
  refl a := by cases a <;> simp
  trans := by rintro (_ | _) (_ | _) (_ | _) <;> simp
  static := true
  static_outlives _ := .inl rfl
  body := false
  body_short := by simp

def str (l : Option Str) : Ty := .ref l false (.name c%"str")
def arg (i : Str) (t : Ty) : FnArg := .typed [] ⟨[i], true⟩ t
def ctx (l : Str) : Ty := .path .none false (.cons c%"Ctx" (.angle false (.tok c%"'" (.tok l .nil))) .nil)

/-- `fn f<'a, 'b>(x: &'a str, y: &str) -> &'b str`; `'b` may be `'a`. -/
def f (b : Str) : FnIn :=
  ⟨[], [], c%"f", [.lifetime c%"a", .lifetime b], [arg c%"x" (str (some c%"a")), arg c%"y" (str none)], some (str (some b)), []⟩

/-- Rejected if the result has the lifetime of `x`, or one that it has to outlive. -/
example (b : Str) (bounds : List (Str × Str)) (hb : LivesAsLong bounds c%"a" b) : ∀ m mo n fs,
    mapMethodOrFn true none { noAutoGenerate := true } (f b) 0 = .ok (m, mo, n) → mo.fields = some fs →
    ¬ CallChecks two (callExprs fs [str (some c%"a"), str none]) bounds mo.retTy := by
  intro m mo n fs h hf
  exact C94_borrowed_result two true none _ (f b) 0 _ _ _ h _ hf _ (.cons (.free _ _ _ (by simp)) (.cons (.free _ _ _ (by simp)) .nil))
    bounds _ (.head _) rfl c%"a" b (.typed ..) (by simp [Converted]) hb _ rfl ⟨fun h => (by cases h), trivial, trivial⟩ (.inl rfl)

example : LivesAsLong [] c%"a" c%"a" ∧ LivesAsLong [(c%"a", c%"c"), (c%"c", c%"b")] c%"a" c%"b" :=
  ⟨.refl _, .step (.head _) (.step (.tail _ (.head _)) (.refl _))⟩

example : ∃ m mo n fs, mapMethodOrFn true none { noAutoGenerate := true } (f c%"a") 0 = .ok (m, mo, n) ∧ mo.fields = some fs ∧
    callExprs fs [str (some c%"a"), str none] =
      [(.asStr false c%"x", str (some c%"a")), (.asStr false c%"y", str none)] := by
  refine ⟨_, _, _, _, rfl, rfl, ?_⟩
  rfl

/-- Accepted if the lifetimes have nothing to do with each other. -/
example : ∀ m mo n fs, mapMethodOrFn true none { noAutoGenerate := true } (f c%"b") 0 = .ok (m, mo, n) → mo.fields = some fs →
    CallChecks two (callExprs fs [str (some c%"a"), str none]) [] mo.retTy := by
  intro m mo n fs h hf
  refine C94_independent two true none _ (f c%"b") 0 _ _ _ h _ hf _
    (.cons (.free _ _ _ (by simp)) (.cons (.free _ _ _ (by simp)) .nil)) [] ?_
  rintro l ⟨a, ha, -, t, ht, hl⟩
  have hr : mo.retTy = str (some c%"b") := by cases h; rfl
  have : l = c%"a" := by
    simp only [f, List.mem_cons, List.not_mem_nil, or_false] at ha
    rcases ha with rfl | rfl
    · cases ht
      cases hl with
      | here => rfl
      | behind _ _ _ h => cases h
    · cases ht
      cases hl with
      | behind _ _ _ h => cases h
  subst this
  rw [hr]
  refine ⟨by decide, ?_, by simp⟩
  rintro (h | h)
  · cases h
  · rcases h with h | h
    · exact h
    · rcases h with h | h <;> exact h

/-- `fn f(x: &'static str)`, as it is and with a conversion. -/
def s : FnIn := ⟨[], [], c%"f", [], [arg c%"x" (str (some c%"static"))], none, []⟩

example : (∃ r, mapMethodOrFn true none {} s 0 = .ok r) ∧ ∀ m mo n fs, mapMethodOrFn true none {} s 0 = .ok (m, mo, n) →
    mo.fields = some fs → ¬ CallChecks two (callExprs fs [str (some c%"static")]) [] mo.retTy := by
  refine ⟨⟨_, rfl⟩, fun m mo n fs h hf hch => ?_⟩
  obtain ⟨t, -, p, hp, -⟩ := C94_static two true none {} s 0 n m mo h fs hf _ (.cons (.free _ _ _ (by simp)) .nil) [] _ (.head _) rfl
    (.typed ..) hch
  cases hp

def conv : AttrOpts := { convert := [(str (some c%"static"), .name c%"Leaked")] }

example : (∃ r, mapMethodOrFn true none conv s 0 = .ok r) ∧ ∀ m mo n fs, mapMethodOrFn true none conv s 0 = .ok (m, mo, n) →
    mo.fields = some fs → CallChecks two (callExprs fs [str (some c%"static")]) [] mo.retTy := by
  refine ⟨⟨_, rfl⟩, fun m mo n fs h hf => ?_⟩
  refine C94_independent two true none conv s 0 n m mo h fs hf _ (.cons (.free _ _ _ (by simp)) .nil) [] ?_
  rintro l ⟨a, ha, -, t, ht, hl⟩
  simp only [s, List.mem_cons, List.not_mem_nil, or_false] at ha
  subst ha
  cases ht
  have hcon : Converted conv.convert (str (some c%"static")) := ⟨_, .head _, rfl⟩
  cases hl with
  | here _ _ hn => exact absurd hcon hn
  | behind _ _ hn _ => exact absurd hcon hn

/-- `impl<'a> Ctx<'a> { fn get<'b>(&'l self) -> &'b str }` -/
def get (l : Option Str) (b : Str) : FnIn :=
  ⟨[], [], c%"get", [.lifetime c%"b"], [.receiver [] false (.reference l false)], some (str (some b)), []⟩

def im : ImplIn := ⟨[.lifetime c%"a"], ⟨none, ctx c%"a"⟩⟩

/-- A result that borrows from `self`: rejected. -/
example : (∃ r, mapMethodOrFn true (some im) {} (get (some c%"b") c%"b") 0 = .ok r) ∧
    ∀ m mo n fs, mapMethodOrFn true (some im) {} (get (some c%"b") c%"b") 0 = .ok (m, mo, n) → mo.fields = some fs →
    ¬ CallChecks two (callExprs fs [.ref (some c%"b") false (ctx c%"a")]) [(c%"a", c%"b")] mo.retTy := by
  refine ⟨⟨_, rfl⟩, fun m mo n fs h hf => ?_⟩
  exact C94_borrowed_result two true (some im) {} _ 0 n m mo h fs hf _ (.cons (.recvRef ..) .nil)
    _ _ (.head _) rfl c%"b" c%"b" (.receiver ..) (by simp [Converted]) (.refl _) _ rfl ⟨fun h => (by cases h), trivial, trivial⟩ (.inl rfl)

/-- A result with a lifetime of the type: accepted. -/
example : (∃ r, mapMethodOrFn true (some im) {} (get none c%"a") 0 = .ok r) ∧
    ∀ m mo n fs, mapMethodOrFn true (some im) {} (get none c%"a") 0 = .ok (m, mo, n) → mo.fields = some fs →
    CallChecks two (callExprs fs [.ref none false (ctx c%"a")]) [] mo.retTy := by
  refine ⟨⟨_, rfl⟩, fun m mo n fs h hf => ?_⟩
  refine C94_independent two true (some im) {} _ 0 n m mo h fs hf _ (.cons (.recvRef ..) .nil) [] ?_
  rintro l ⟨a, ha, -, t, ht, hl⟩
  simp only [get, List.mem_cons, List.not_mem_nil, or_false] at ha
  subst ha
  cases ht with
  | recvRef => cases hl with | behind _ _ _ h => cases h
  | recvVal _ _ _ hk => exact absurd rfl (hk _ _)

end BorrowDemo

end TF
