import Verif.Props.Truncated
import Verif.Props.InputsReach

/-!
# Recordings and later versions of the target: C97

Corpora stay when the program is changed. What becomes of a recording when parameters of the target are renamed, removed
from the end, or added there.
-/

namespace TF

open Spec

namespace Spec

/-- Two parameters that differ in their patterns only. -/
def Renamed : FnArg → FnArg → Prop
  | .receiver as m k, .receiver as' m' k' => as = as' ∧ m = m' ∧ k = k'
  | .typed as _ t, .typed as' _ t' => as = as' ∧ t = t'
  | _, _ => False

/-- `PhantomData` is serialised as nothing. -/
def PhantomUnit {A : Type} (S : Sem A) (sd : Serde A) : Prop := ∀ as ps, sd.ser (as, tyPhantom ps) (.base S.phantom) = .unit

end Spec

theorem renamed_attrs {a b : FnArg} (h : Renamed a b) : a.attrs = b.attrs := by
  cases a <;> cases b <;> first | exact h.elim | exact h.1

theorem renamed_argTy {im : ImplM} {a b : FnArg} {t u : Ty} (h : Renamed a b) (ht : ArgTy im a t) (hu : ArgTy im b u) : t = u := by
  cases a with
  | receiver as m k =>
    cases b with
    | receiver as' m' k' =>
      obtain ⟨rfl, rfl, rfl⟩ := h
      exact argTy_unique ht hu
    | typed => exact h.elim
  | typed as p t =>
    cases b with
    | receiver => exact h.elim
    | typed as' p' t' =>
      obtain ⟨rfl, rfl⟩ := h
      cases ht with
      | free _ _ _ _ => cases hu; rfl
      | method x _ _ _ _ _ h1 =>
        cases hu with
        | method _ _ _ _ _ _ h2 =>
          rw [h1] at h2
          exact Out.ok.inj h2

section
variable {A : Type} (S : Sem A)

theorem mapTypedArg_form {i i' : Str} {c c' : Convs} (hc : ∀ t, c.get t = c'.get t) {env env' : Str → Option (Val A)} :
    ∀ (t : Ty) (e e' : SerE), e.eval S env = e'.eval S env' →
      (mapTypedArg i c e t).ty = (mapTypedArg i' c' e' t).ty ∧
      (mapTypedArg i c e t).ser.eval S env = (mapTypedArg i' c' e' t).ser.eval S env'
  | t, e, e', he => by
    cases hg : c.get t with
    | some a =>
      rw [mapTypedArg_get hg, mapTypedArg_get ((hc t).symm.trans hg)]
      exact ⟨rfl, by simp only [SerE.eval, he]⟩
    | none =>
      have hg' := (hc t).symm.trans hg
      cases t with
      | path q lead segs => rw [mapTypedArg, mapTypedArg, hg, hg']; exact ⟨rfl, by simp only [mapPathArg, SerE.eval, he]⟩
      | slice t => rw [mapTypedArg, mapTypedArg, hg, hg']; exact ⟨rfl, by simp only [mapPathArg, SerE.eval, he]⟩
      | other ps => rw [mapTypedArg, mapTypedArg, hg, hg']; exact ⟨rfl, by simp only [mapPathArg, SerE.eval, he]⟩
      | ref lt m t =>
        have hd : (SerE.deref e).eval S env = (SerE.deref e').eval S env' := by simp only [SerE.eval, he]
        cases t with
        | path q lead segs =>
          rw [mapTypedArg, mapTypedArg, hg, hg']
          simp only
          split
          · exact ⟨rfl, by simp only [SerE.eval, he]⟩
          · exact ⟨rfl, by simp only [mapPathArg, SerE.eval, he]⟩
        | slice t => rw [mapTypedArg, mapTypedArg, hg, hg']; exact ⟨rfl, by simp only [SerE.eval, he]⟩
        | other ps =>
          rw [mapTypedArg_refOther hg, mapTypedArg_refOther hg']
          exact mapTypedArg_form hc (.other ps) _ _ hd
        | ref lt2 m2 t2 =>
          rw [mapTypedArg_ref hg, mapTypedArg_ref hg']
          exact mapTypedArg_form hc (.ref lt2 m2 t2) _ _ hd

theorem fieldFor_form {im : ImplM} {c : Convs} {a a' : FnArg} {f f' : FieldM} (h : FieldFor im c a f) (h' : FieldFor im c a' f')
    (hs : Renamed a a') {env env' : Str → Option (Val A)} {b b' : Str} (hb : a.binder = some b) (hb' : a'.binder = some b')
    (he : env b = env' b') : (f.attrs, f.ty) = (f'.attrs, f'.ty) ∧ f.ser.eval S env = f'.ser.eval S env' := by
  obtain ⟨t, b1, ck, ht, hck, hbb, h1, h2⟩ := h
  obtain ⟨t', b1', ck', ht', hck', hbb', h1', h2'⟩ := h'
  obtain rfl := hbb b hb
  obtain rfl := hbb' b' hb'
  obtain rfl := renamed_argTy hs ht ht'
  have hvar : (SerE.var b).eval S env = (SerE.var b').eval S env' := he
  by_cases ha : a.attrs = []
  · obtain ⟨g1, g2⟩ := mapTypedArg_form S (i := f.ident) (i' := f'.ident) (fun u => (hck u).trans (hck' u).symm) t _ _ hvar
    rw [h1 ha, h1' (renamed_attrs hs ▸ ha)]
    exact ⟨by simp only [g1], g2⟩
  · rw [h2 ha, h2' (renamed_attrs hs ▸ ha)]
    exact ⟨by simp only [renamed_attrs hs], by simp only [SerE.eval, he]⟩

/-- The values of fields, without their names. -/
def fieldVals (env : Str → Option (Val A)) (fs : List FieldM) : Option (List (Val A)) := (buildArgsVal S env fs).map (·.map (·.2.2))

theorem fieldVals_cons (env : Str → Option (Val A)) (f : FieldM) (fs : List FieldM) :
    fieldVals S env (f :: fs) = (f.ser.eval S env).bind fun v => (fieldVals S env fs).map (v :: ·) := by
  unfold fieldVals
  rw [buildArgsVal]
  cases f.ser.eval S env <;> cases buildArgsVal S env fs <;> rfl

theorem fieldVals_append (env : Str → Option (Val A)) (fs gs : List FieldM) :
    fieldVals S env (fs ++ gs) = (fieldVals S env fs).bind fun v => (fieldVals S env gs).map (v ++ ·) := by
  induction fs with
  | nil =>
    have : fieldVals S env [] = some [] := rfl
    rw [this, List.nil_append, Option.bind_some]
    simp
  | cons f fs ih =>
    rw [List.cons_append, fieldVals_cons, fieldVals_cons, ih]
    cases f.ser.eval S env <;> simp
    cases fieldVals S env fs <;> simp
    cases fieldVals S env gs <;> simp

theorem serArgs_eq (cd : Codec A) (inputs : List FnArg) (fs : List FieldM) (vs : List (Val A)) :
    serArgs S cd inputs fs vs = match fieldVals S (recordingEnv (argEnv inputs vs)) fs with
      | some ws => cd.enc (schemaOf fs) ws
      | none => .panic := by
  unfold serArgs fieldVals
  cases buildArgsVal S (recordingEnv (argEnv inputs vs)) fs <;> rfl

theorem fields_form {im : ImplM} {c : Convs} {env env' : Str → Option (Val A)} : ∀ {l l' : List FnArg} {fs fs' : List FieldM},
    List.Forall₂ Renamed l l' → List.Forall₂ (FieldFor im c) l fs → List.Forall₂ (FieldFor im c) l' fs' →
    (∀ (k : Nat) a a', l[k]? = some a → l'[k]? = some a' → ∃ b b', a.binder = some b ∧ a'.binder = some b' ∧ env b = env' b') →
    schemaOf fs = schemaOf fs' ∧ fieldVals S env fs = fieldVals S env' fs'
  | _, _, _, _, .nil, .nil, .nil, _ => ⟨rfl, rfl⟩
  | a :: l, a' :: l', f :: fs, f' :: fs', .cons hs hl, .cons hf hF, .cons hf' hF', he => by
    obtain ⟨h1, h2⟩ := fields_form hl hF hF' fun k a a' h h' => he (k + 1) a a' h h'
    obtain ⟨b, b', hb, hb', hbb⟩ := he 0 a a' rfl rfl
    obtain ⟨g1, g2⟩ := fieldFor_form S hf hf' hs hb hb' hbb
    refine ⟨?_, ?_⟩
    · unfold schemaOf at h1 ⊢
      rw [List.map_cons, List.map_cons, g1, h1]
    · rw [fieldVals_cons, fieldVals_cons, g2, h2]

end

section
variable {A : Type} {S : Sem A} {has : Ty → A → Prop}

theorem typedCall_length {im : ImplM} {convert : List (Ty × Ty)} {l : List FnArg} {tys : List Ty} {vs : List (Val A)}
    (h : TypedCall S has im convert l tys vs) : l.length = tys.length ∧ l.length = vs.length := by
  induction h with
  | nil => exact ⟨rfl, rfl⟩
  | cons _ _ _ _ _ _ _ ih => simp only [List.length_cons, ← ih.1, ← ih.2, and_self]

theorem typedCall_binder {im : ImplM} {convert : List (Ty × Ty)} {l : List FnArg} {tys : List Ty} {vs : List (Val A)}
    (h : TypedCall S has im convert l tys vs) : ∀ a ∈ l, ∃ b, a.binder = some b := by
  induction h with
  | nil => exact nofun
  | cons _ _ _ _ _ hb _ ih =>
    intro a ha
    rcases List.mem_cons.mp ha with rfl | ha
    · exact Option.ne_none_iff_exists'.mp hb
    · exact ih a ha

theorem serAll_append (sd : Serde A) : ∀ (l m : List (List Str × Ty)) (ws us : List (Val A)), l.length = ws.length →
    (sd.serAll (l ++ m) (ws ++ us)).enc = (sd.serAll l ws).enc ++ (sd.serAll m us).enc ∧
    (sd.serAll (l ++ m) (ws ++ us)).benc = (sd.serAll l ws).benc ++ (sd.serAll m us).benc
  | [], m, [], us, _ => by simp [Serde.serAll, SVals.enc, SVals.benc]
  | t :: l, m, w :: ws, us, h => by
    obtain ⟨h1, h2⟩ := serAll_append sd l m ws us (by simpa using h)
    simp only [List.cons_append, Serde.serAll, SVals.enc, SVals.benc, h1, h2, List.append_assoc, true_and]

theorem phantoms_form {sd : Serde A} (hu : PhantomUnit S sd) {env : Str → Option (Val A)} : ∀ (ph : List FieldM),
    (∀ f ∈ ph, f.de = none ∧ f.ser = .phantom ∧ ∃ ps, f.ty = tyPhantom ps) →
    ∃ ws, fieldVals S env ph = some ws ∧ (sd.serAll (schemaOf ph) ws).enc = [] ∧ (sd.serAll (schemaOf ph) ws).benc = []
  | [], _ => ⟨[], rfl, rfl, rfl⟩
  | f :: ph, h => by
    obtain ⟨ws, h1, h2, h3⟩ := phantoms_form hu ph fun f hf => h f (List.mem_cons_of_mem _ hf)
    obtain ⟨-, g2, ps, g3⟩ := h f (by simp)
    refine ⟨.base S.phantom :: ws, ?_, ?_, ?_⟩
    · rw [fieldVals_cons, g2, h1]; rfl
    · unfold schemaOf at h2 ⊢
      rw [List.map_cons, Serde.serAll, SVals.enc, g3, hu, h2]; rfl
    · unfold schemaOf at h3 ⊢
      rw [List.map_cons, Serde.serAll, SVals.benc, g3, hu, h3]; rfl

end

theorem forall₂_split {α β : Type} {P : α → β → Prop} : ∀ {l1 l2 : List α} {r : List β}, List.Forall₂ P (l1 ++ l2) r →
    ∃ r1 r2, r = r1 ++ r2 ∧ List.Forall₂ P l1 r1 ∧ List.Forall₂ P l2 r2
  | [], _, r, h => ⟨[], r, rfl, .nil, h⟩
  | a :: l1, l2, _, .cons (b := b) hab h => by
    obtain ⟨r1, r2, rfl, h1, h2⟩ := forall₂_split h
    exact ⟨b :: r1, r2, rfl, .cons hab h1, h2⟩

/-- **C97 (fewer parameters).** `x`: the parameters of a target. `y`: those that are left, from the beginning, perhaps under other
names. What is recorded for a call begins with what is recorded for the same arguments with `y`, in both formats. If all
parameters are left, it is the same. -/
theorem C97_begins {A : Type} (S : Sem A) (has : Ty → A → Prop) (hS : Lawful S has) (sd : Serde A) (hu : PhantomUnit S sd)
    (p : Policy) (ft : Features) (cd : Codec A) (hcd : featureCodec sd p ft = some cd)
    (x y : ArgsIn) (n n' m m' : Nat) (fs gs : List FieldM) (hx : argsFields x n = .ok (fs, n')) (hy : argsFields y m = .ok (gs, m'))
    (hi : x.impl = y.impl) (hc : x.convert = y.convert) (l1 l2 : List FnArg) (hl : x.inputs = l1 ++ l2)
    (hs : List.Forall₂ Renamed l1 y.inputs) (tys tys1 : List Ty) (vs1 vs2 : List (Val A))
    (hcall : TypedCall S has x.impl x.convert x.inputs tys (vs1 ++ vs2))
    (hcall1 : TypedCall S has y.impl y.convert y.inputs tys1 vs1)
    (hbind : (hidingNames ++ x.inputs.filterMap (·.binder)).Nodup) (hbind1 : (hidingNames ++ y.inputs.filterMap (·.binder)).Nodup) :
    ∃ b r, serArgs S cd y.inputs gs vs1 = .ok b ∧ serArgs S cd x.inputs fs (vs1 ++ vs2) = .ok (b ++ r) ∧ (l2 = [] → r = []) := by
  obtain ⟨fs1, c', h1, rfl, -⟩ := argsFields_ok hx
  obtain ⟨gs1, d', h2, rfl, -⟩ := argsFields_ok hy
  obtain ⟨hF, -⟩ := mapArgs_ok (ofOpts_get_ne_none x.convert) h1
  obtain ⟨hG, -⟩ := mapArgs_ok (ofOpts_get_ne_none y.convert) h2
  obtain ⟨ws, e1, e2, -⟩ := fields_build hS (phantomFields_idents x.generics n).2.2.2 hcall hF
    (env := recordingEnv (argEnv x.inputs (vs1 ++ vs2))) (recordingEnv_get hbind)
  obtain ⟨us, e3, e4, -⟩ := fields_build hS (phantomFields_idents y.generics m).2.2.2 hcall1 hG
    (env := recordingEnv (argEnv y.inputs vs1)) (recordingEnv_get hbind1)
  have hlen := typedCall_length hcall1
  have hlen' := hs.length_eq
  -- the fields of `x` for the parameters of `y`, and the others
  rw [hl] at hF
  obtain ⟨f1, f2, rfl, hF1, hF2⟩ := forall₂_split hF
  rw [← hi, ← hc] at hG
  have henv : ∀ (k : Nat) a a', l1[k]? = some a → y.inputs[k]? = some a' → ∃ b b', a.binder = some b ∧ a'.binder = some b' ∧
      recordingEnv (argEnv x.inputs (vs1 ++ vs2)) b = recordingEnv (argEnv y.inputs vs1) b' := by
    intro k a a' ha ha'
    have hk : k < vs1.length := by
      have := (List.getElem?_eq_some_iff.mp ha').1
      omega
    have hax : x.inputs[k]? = some a := by
      rw [hl, List.getElem?_append_left (List.getElem?_eq_some_iff.mp ha).1, ha]
    obtain ⟨b, hb⟩ := typedCall_binder hcall a (List.mem_of_getElem? hax)
    obtain ⟨b', hb'⟩ := typedCall_binder hcall1 a' (List.mem_of_getElem? ha')
    refine ⟨b, b', hb, hb', ?_⟩
    rw [recordingEnv_get hbind k a b vs1[k] hax hb (by rw [List.getElem?_append_left hk, List.getElem?_eq_getElem hk]),
      recordingEnv_get hbind1 k a' b' vs1[k] ha' hb' (List.getElem?_eq_getElem hk)]
  obtain ⟨k1, k2⟩ := fields_form S hs hF1 hG henv
  -- values
  have hws : fieldVals S (recordingEnv (argEnv x.inputs (vs1 ++ vs2))) (f1 ++ f2 ++ (phantomFields n x.generics).1) ≠ none := by
    unfold fieldVals; rw [e1]; simp
  obtain ⟨q1, p1, p2, p3⟩ := phantoms_form hu (env := recordingEnv (argEnv x.inputs (vs1 ++ vs2))) _ (phantomFields_idents x.generics n).2.2.2
  obtain ⟨q2, r1, r2, r3⟩ := phantoms_form hu (env := recordingEnv (argEnv y.inputs vs1)) _ (phantomFields_idents y.generics m).2.2.2
  rw [fieldVals_append, fieldVals_append, p1] at hws
  cases w1 : fieldVals S (recordingEnv (argEnv x.inputs (vs1 ++ vs2))) f1 with
  | none => rw [w1] at hws; exact absurd rfl hws
  | some w1v =>
    cases w2 : fieldVals S (recordingEnv (argEnv x.inputs (vs1 ++ vs2))) f2 with
    | none => rw [w1, w2] at hws; exact absurd rfl hws
    | some w2v =>
      have lenOf : ∀ {env : Str → Option (Val A)} {fs : List FieldM} {ws : List (Val A)}, fieldVals S env fs = some ws →
          (schemaOf fs).length = ws.length := by
        intro env fs
        induction fs with
        | nil => rintro ws h; cases h; rfl
        | cons f fs ih =>
          intro ws h
          rw [fieldVals_cons] at h
          cases hv : f.ser.eval S env with
          | none => rw [hv] at h; cases h
          | some v =>
            cases hr : fieldVals S env fs with
            | none => rw [hv, hr] at h; cases h
            | some r =>
              rw [hv, hr] at h
              cases h
              have := ih hr
              simp [schemaOf] at this ⊢
              exact this
      have l1' := lenOf w1
      have l2' := lenOf w2
      have w1' := w1
      rw [k2] at w1'
      have hse : ∀ a b : List FieldM, schemaOf (a ++ b) = schemaOf a ++ schemaOf b := fun a b => List.map_append
      have hnil : l2 = [] → w2v = [] := by
        rintro rfl
        cases hF2
        cases w2
        rfl
      have hnil2 : l2 = [] → schemaOf f2 = [] := by
        rintro rfl
        cases hF2
        rfl
      obtain ⟨a1, a2⟩ := serAll_append sd (schemaOf f1 ++ schemaOf f2) (schemaOf (phantomFields n x.generics).1) (w1v ++ w2v) q1 (by simp [l1', l2'])
      obtain ⟨a3, a4⟩ := serAll_append sd (schemaOf f1) (schemaOf f2) w1v w2v l1'
      obtain ⟨a5, a6⟩ := serAll_append sd (schemaOf gs1) (schemaOf (phantomFields m y.generics).1) w1v q2 (k1 ▸ l1')
      rw [serArgs_eq, serArgs_eq, fieldVals_append, fieldVals_append, fieldVals_append, w1, w2, p1, r1, w1']
      simp only [Option.bind_some, Option.map_some, hse]
      rw [C76_feature] at hcd
      cases hcd
      cases ft.bincode with
      | true =>
        simp only [if_true, binCodec]
        refine ⟨_, (sd.serAll (schemaOf f2) w2v).benc, rfl, ?_, fun h => ?_⟩
        · simp only [binSerialize, SVal.benc, a2, a4, a6, p3, r3, List.append_nil]
          rw [k1]
        · rw [hnil h, hnil2 h]; rfl
      | false =>
        simp only [Bool.false_eq_true, if_false, postCodec]
        refine ⟨_, (sd.serAll (schemaOf f2) w2v).enc, rfl, ?_, fun h => ?_⟩
        · simp only [postSerialize, SVal.enc, a1, a3, a5, p2, r2, List.append_nil]
          rw [k1]
        · rw [hnil h, hnil2 h]; rfl

theorem postDeserialize_more (p : Policy) {s : Sch} {b : Bytes} {v : SVal} (h : postDeserialize p s b = some v) (r : Bytes) :
    postDeserialize p s (b ++ r) = some v := by
  obtain ⟨l, pre, r', rfl, h1, h2⟩ := (C16_reads p s b v).mp h
  exact (C16_reads p s _ v).mpr ⟨l, pre, r' ++ r, List.append_assoc .., h1, h2⟩

theorem binDeserialize_more {s : Sch} {b : Bytes} {v : SVal} (h : binDeserialize s b = some v) (r : Bytes) :
    binDeserialize s (b ++ r) = some v := by
  obtain ⟨k, pre, r', rfl, h1, h2⟩ := (C76_reads s b v).mp h
  exact (C76_reads s _ v).mpr ⟨k, pre, r' ++ r, List.append_assoc .., h1, h2⟩

theorem deArgs_more {A : Type} {S : Sem A} {sd : Serde A} {p : Policy} {ft : Features} {cd : Codec A}
    (hcd : featureCodec sd p ft = some cd) {tys : List Ty} {fs : List FieldM} {b : Bytes} {vs : List (Val A)}
    (h : deArgs S cd tys fs b = some vs) (r : Bytes) : deArgs S cd tys fs (b ++ r) = some vs := by
  have hd : ∀ ws, cd.dec (schemaOf fs) b = some ws → cd.dec (schemaOf fs) (b ++ r) = some ws := by
    intro ws hw
    rw [C76_feature] at hcd
    cases hcd
    cases hf : ft.bincode with
    | true =>
      simp only [hf, if_true, binCodec] at hw ⊢
      split at hw
      · next vs hv => rw [binDeserialize_more hv]; exact hw
      · cases hw
    | false =>
      simp only [hf, Bool.false_eq_true, if_false, postCodec] at hw ⊢
      split at hw
      · next vs hv => rw [postDeserialize_more p hv]; exact hw
      · cases hw
  unfold deArgs at h ⊢
  cases hw : cd.dec (schemaOf fs) b with
  | none => rw [hw] at h; cases h
  | some ws => rw [hw] at h; rw [hd ws hw]; exact h

section
variable {A : Type} (S : Sem A) (has : Ty → A → Prop) (hS : Lawful S has) (sd : Serde A) (hu : PhantomUnit S sd)
  (p : Policy) (ft : Features) (cd : Codec A) (hcd : featureCodec sd p ft = some cd)
  (x y : ArgsIn) (n n' m m' : Nat) (fs gs : List FieldM) (hx : argsFields x n = .ok (fs, n')) (hy : argsFields y m = .ok (gs, m'))
  (hi : x.impl = y.impl) (hc : x.convert = y.convert) (l1 l2 : List FnArg) (hl : x.inputs = l1 ++ l2)
  (hs : List.Forall₂ Renamed l1 y.inputs) (tys tys1 : List Ty) (vs1 vs2 : List (Val A))
  (hcall : TypedCall S has x.impl x.convert x.inputs tys (vs1 ++ vs2))
  (hcall1 : TypedCall S has y.impl y.convert y.inputs tys1 vs1)
  (hbind : (hidingNames ++ x.inputs.filterMap (·.binder)).Nodup) (hbind1 : (hidingNames ++ y.inputs.filterMap (·.binder)).Nodup)

include hS hu hcd hx hy hi hc hl hs hcall hcall1 hbind hbind1

/-- **C97 (removed and renamed parameters).** The recordings of a target are run after parameters at its end have been removed,
and others have been renamed: as calls with the arguments that are left. (Provided that a recording of such a call by the new
version is run as this call: C13.) -/
theorem C97_removed (hown : ∀ b, serArgs S cd y.inputs gs vs1 = .ok b → deArgs S cd tys1 gs b = some vs1) :
    ∃ b, serArgs S cd x.inputs fs (vs1 ++ vs2) = .ok b ∧ deArgs S cd tys1 gs b = some vs1 := by
  obtain ⟨b, r, h1, h2, -⟩ := C97_begins S has hS sd hu p ft cd hcd x y n n' m m' fs gs hx hy hi hc l1 l2 hl hs tys tys1 vs1 vs2
    hcall hcall1 hbind hbind1
  exact ⟨b ++ r, h2, deArgs_more hcd (hown b h1) r⟩

/-- **C97 (added parameters).** The recordings of a target are not run after parameters have been added at its end – unless the
new arguments take no space: then, they are recordings of the new version as well. `vs2` is any choice of values for the new
parameters. -/
theorem C97_added (hsd : SerdeOk sd has fs)
    (hsmall : ∀ args, buildArgsVal S (recordingEnv (argEnv x.inputs (vs1 ++ vs2))) fs = some args →
      Small (.tuple (sd.serAll (schemaOf fs) (args.map (·.2.2))))) :
    ∃ b, serArgs S cd y.inputs gs vs1 = .ok b ∧
      (deArgs S cd tys fs b = none ∨ serArgs S cd x.inputs fs (vs1 ++ vs2) = .ok b) := by
  obtain ⟨b, r, h1, h2, -⟩ := C97_begins S has hS sd hu p ft cd hcd x y n n' m m' fs gs hx hy hi hc l1 l2 hl hs tys tys1 vs1 vs2
    hcall hcall1 hbind hbind1
  refine ⟨b, h1, ?_⟩
  by_cases hr : r = []
  · subst hr
    rw [List.append_nil] at h2
    exact .inr h2
  · obtain ⟨args, data, g1, g2, g3⟩ := C95_arguments S has hS sd p ft cd hcd x n n' fs hx tys (vs1 ++ vs2) hcall hbind hsd
    rw [h2] at g2
    cases g2
    exact .inl (g3 (hsmall args g1) b r rfl hr)

end

/-! ## Cases -/

theorem typedCall_append {A : Type} {S : Sem A} {has : Ty → A → Prop} {im : ImplM} {convert : List (Ty × Ty)} {l l' : List FnArg}
    {tys tys' : List Ty} {vs vs' : List (Val A)} (h : TypedCall S has im convert l tys vs) (h' : TypedCall S has im convert l' tys' vs') :
    TypedCall S has im convert (l ++ l') (tys ++ tys') (vs ++ vs') := by
  induction h with
  | nil => exact h'
  | cons h1 h2 h3 h4 h5 h6 _ ih => exact .cons h1 h2 h3 h4 h5 h6 ih

theorem typedCall_renamed {A : Type} {S : Sem A} {has : Ty → A → Prop} {im : ImplM} {convert : List (Ty × Ty)} {l : List FnArg}
    {tys : List Ty} {vs : List (Val A)} (h : TypedCall S has im convert l tys vs) {l' : List FnArg} (hs : List.Forall₂ Renamed l l')
    (hb : ∀ a ∈ l', a.binder ≠ none) : TypedCall S has im convert l' tys vs := by
  induction h generalizing l' with
  | nil => cases hs; exact .nil
  | @cons a t v l ts vs h1 h2 h3 h4 h5 h6 _ ih =>
    cases hs with
    | @cons _ a' _ l' h hs =>
      have ha : ArgTy im a' t := by
        have hba := hb a' (by simp)
        cases a with
        | receiver as m k =>
          cases a' with
          | receiver as' m' k' => obtain ⟨rfl, rfl, rfl⟩ := h; exact h1
          | typed => exact h.elim
        | typed as pt u =>
          cases a' with
          | receiver => exact h.elim
          | typed as' pt' u' =>
            obtain ⟨rfl, rfl⟩ := h
            have hp : pt'.idents.length ≤ 1 := by
              match pt', hba with
              | ⟨[_], true⟩, _ => exact Nat.le_refl _
            cases h1 with
            | free => exact .free _ _ _ hp
            | method x _ _ _ _ _ h => exact .method x _ _ _ _ hp h
      have e := renamed_attrs h
      exact .cons ha h2 h3 (fun h => h4 (e.trans h)) (fun h' => h5 fun h0 => h' (e.symm.trans h0)) (hb a' (by simp)) (ih hs fun a h => hb a (by simp [h]))

namespace RoundDemo

/-- The target of `RoundDemo` with another name for `a`. -/
def renamed : ArgsIn := { x with inputs := [.receiver [] false (.reference none false),
  .typed [] ⟨[c%"text"], true⟩ (.ref none true (.ref none false str)), .typed [] ⟨[c%"b"], true⟩ wide] }

def renamedFields : List FieldM :=
  [⟨[], c%"_1", u8, .clone (.deref (.var c%"self")), some (.borrow false (.field c%"_1"))⟩,
   ⟨[], c%"text", .name c%"String", .toOwned (.deref (.var c%"text")), some (.borrow true (.asStr false c%"text"))⟩,
   ⟨[], c%"b", u8, .fromRef u8 wide (.var c%"b"), some (.into c%"b")⟩,
   ⟨[], c%"_0", tyPhantom (.ty (.name c%"T") .nil), .phantom, none⟩]

/-- The target of `RoundDemo` with another parameter, `c: u8`. -/
def more : ArgsIn := { x with inputs := x.inputs ++ [.typed [] ⟨[c%"c"], true⟩ u8] }

def moreFields : List FieldM := fields.take 3 ++ [⟨[], c%"c", u8, .clone (.var c%"c"), some (.field c%"c")⟩] ++ fields.drop 3

def moreVs : List (Val DV) := vs ++ [.base (.num 9)]

theorem more_typed : TypedCall sem has more.impl more.convert more.inputs (tys ++ [u8]) moreVs := by
  refine typedCall_append typed (.cons (.method _ _ _ _ _ (by decide) rfl)
    (.base (by rintro ⟨l, hl⟩; cases hl) ⟨fun _ => ⟨9, by decide, rfl⟩, fun h => (by cases h), fun h => (by cases h)⟩)
    ?_ ?_ (by simp [FnArg.attrs]) (by simp [FnArg.binder]) .nil)
  · rintro ⟨l, hl⟩; cases hl
  · rintro - u s a hb ⟨q, hq, h1, rfl⟩
    cases List.mem_singleton.mp hq
    cases hb with
    | here => exact absurd h1 (by decide)

theorem renamed_typed : TypedCall sem has renamed.impl renamed.convert renamed.inputs tys vs :=
  typedCall_renamed typed (.cons ⟨rfl, rfl, rfl⟩ (.cons ⟨rfl, rfl⟩ (.cons ⟨rfl, rfl⟩ .nil))) (by decide)

/-- What was recorded with the additional parameter is run without it and with the other name for `a`. -/
example (p : Policy) (ft : Features) (cd : Codec DV) (hcd : featureCodec sd p ft = some cd) :
    serArgs sem cd more.inputs moreFields moreVs = .ok [7, 2, 104, 105, 42, 9] ∧
      deArgs sem cd tys renamedFields [7, 2, 104, 105, 42, 9] = some vs := by
  obtain ⟨b, h1, h2⟩ := C97_removed sem has lawful sd (fun _ _ => rfl) p ft cd hcd more renamed 0 2 0 2 moreFields renamedFields
    (by decide +kernel) (by decide +kernel) rfl rfl x.inputs [.typed [] ⟨[c%"c"], true⟩ u8] rfl
    (.cons ⟨rfl, rfl, rfl⟩ (.cons ⟨rfl, rfl⟩ (.cons ⟨rfl, rfl⟩ .nil))) (tys ++ [u8]) tys vs [.base (.num 9)] more_typed renamed_typed
    (by decide) (by decide) (by
      intro b hb
      rw [C76_feature] at hcd
      cases hcd
      revert hb
      cases ft.bincode
      · intro hb; cases hb; cases p <;> rfl
      · intro hb; cases hb; rfl)
  have hser : serArgs sem cd more.inputs moreFields moreVs = .ok [7, 2, 104, 105, 42, 9] := by
    rw [C76_feature] at hcd
    cases hcd
    cases ft.bincode <;> rfl
  rw [show vs ++ [.base (.num 9)] = moreVs from rfl, hser] at h1
  cases h1
  exact ⟨hser, h2⟩

/-- What was recorded before it was added is not run. -/
example (p : Policy) (ft : Features) (cd : Codec DV) (hcd : featureCodec sd p ft = some cd) :
    serArgs sem cd renamed.inputs renamedFields vs = .ok [7, 2, 104, 105, 42] ∧
      deArgs sem cd (tys ++ [u8]) moreFields [7, 2, 104, 105, 42] = none := by
  rw [C76_feature] at hcd
  cases hcd
  cases ft.bincode
  · exact ⟨rfl, by cases p <;> rfl⟩
  · exact ⟨rfl, rfl⟩

end RoundDemo

end TF
