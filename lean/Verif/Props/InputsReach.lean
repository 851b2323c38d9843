import Verif.Props.RoundTrip
import Verif.Props.Module
import Verif.Props.Auto
import Verif.Props.Lifetimes
import Verif.Props.Generics

/-!
# C93: inputs that decode reach the target

C13 is about inputs that were recorded. Here is what becomes of other inputs, made by a fuzzer or generated: of all values of
`Args`, whether or not arguments were ever turned into them.
-/

namespace TF

namespace Spec

/-- What the target receives for an argument of type `t` from a field with value `w`: a value obtained by the conversion, if
there is one; the contents of a string or a vector; a reference to what is received for the type behind the reference. -/
inductive Arrives {A : Type} (S : Sem A) (convert : List (Ty × Ty)) : Ty → Val A → Val A → Prop
  | converted {t y : Ty} (w : Val A) : ConvertsTo convert t y → Arrives S convert t w (S.into y t w)
  | plain {t : Ty} (w : Val A) : ¬ Converted convert t → (∀ lt m s, t ≠ .ref lt m s) → Arrives S convert t w w
  | str {t : Ty} (lt : Option Str) (m : Bool) (a : A) : ¬ Converted convert (.ref lt m t) → IsStr t →
      Arrives S convert (.ref lt m t) (.base a) (.ref m (.str (S.asStr a)))
  | slice {t : Ty} (lt : Option Str) (m : Bool) (a : A) : ¬ Converted convert (.ref lt m (.slice t)) →
      Arrives S convert (.ref lt m (.slice t)) (.base a) (.ref m (.slice (S.asSlice a)))
  | path {q : QSelf} {lead : Bool} {segs : Segs} (lt : Option Str) (m : Bool) (w : Val A) :
      ¬ Converted convert (.ref lt m (.path q lead segs)) → ¬ IsStr (.path q lead segs) →
      Arrives S convert (.ref lt m (.path q lead segs)) w (.ref m w)
  | ref {t : Ty} {w v : Val A} (lt : Option Str) (m : Bool) : ¬ Converted convert (.ref lt m t) →
      (∀ q lead segs, t ≠ .path q lead segs) → (∀ s, t ≠ .slice s) → Arrives S convert t w v →
      Arrives S convert (.ref lt m t) w (.ref m v)

/-- The same for an argument of a function: with serde attributes, the field is what the target receives. -/
def Received {A : Type} (S : Sem A) (convert : List (Ty × Ty)) (a : FnArg) (t : Ty) (w v : Val A) : Prop :=
  (a.attrs = [] ∧ Arrives S convert t w v) ∨ (a.attrs ≠ [] ∧ v = w)

/-- The arguments `vs` are what the target receives from the first fields of `Args`, whose values are `ws`. -/
def ReceivedAll {A : Type} (S : Sem A) (convert : List (Ty × Ty)) (inputs : List FnArg) (tys : List Ty) (ws vs : List (Val A)) :
    Prop :=
  vs.length = inputs.length ∧ ∀ (k : Nat) a t w v, inputs[k]? = some a → tys[k]? = some t → ws[k]? = some w → vs[k]? = some v →
    Received S convert a t w v

/-- A harness of the target that is given `b`, and maybe more, to fuzz or to replay, calls the target exactly once, with
arguments `vs`. -/
def Replays {V R : Type} (t : Target V) (b : Bytes) (vs : V) : Prop :=
  ∀ (c : Setting) (body : V → Prog V R) (s : Proc V R) (junk : Bytes), c.test = true →
    Fuzzing c.ctx.env ∨ Replaying c.ctx.env → c.stdin = b ++ junk →
    ∃ l l', (runHarness c t body s).2.log = s.log ++ l ++ .call vs :: .body vs :: l' ∧ calls l = [] ∧ calls l' = []

end Spec

open Spec

/-! ## Proofs -/

section
variable {A : Type} {S : Sem A} {has : Ty → A → Prop}

theorem hasTy_string {w : Val A} (h : HasTy has w tyString) : ∃ a, w = .base a := by
  unfold tyString at h
  cases h with
  | base _ _ => exact ⟨_, rfl⟩

theorem hasTy_vec {w : Val A} {t : Ty} (h : HasTy has w (tyVec t)) : ∃ a, w = .base a := by
  unfold tyVec at h
  cases h with
  | base _ _ => exact ⟨_, rfl⟩

theorem mapTypedArg_refOther {i : Str} {c : Convs} {e : SerE} {lt : Option Str} {m : Bool} {ps : Pieces}
    (h : c.get (.ref lt m (.other ps)) = none) :
    mapTypedArg i c e (.ref lt m (.other ps)) =
      ⟨(mapTypedArg i c (.deref e) (.other ps)).ty, (mapTypedArg i c (.deref e) (.other ps)).ser,
        .borrow m (mapTypedArg i c (.deref e) (.other ps)).de, (mapTypedArg i c (.deref e) (.other ps)).convs⟩ := by
  simp only [mapTypedArg, h]

/-- A field is used by the expression of its argument. -/
def Uses (S : Sem A) (convert : List (Ty × Ty)) (i : Str) (r : Mapped) (t : Ty) (w : Val A) : Prop :=
  ∃ v, Arrives S convert t w v ∧ ∀ args : ArgsVal A, args.lookup i = some (r.ty, w) → r.de.eval S args t = some v

theorem unconverted {convert : List (Ty × Ty)} {c : Convs} (hc : ∀ u, c.get u = lastConv convert u) {t : Ty}
    (hg : c.get t = none) : ¬ Converted convert t := by
  intro h
  rw [hc] at hg
  exact (lastConv_isSome convert t).mpr h hg

theorem uses_converted {convert : List (Ty × Ty)} {c : Convs} (hc : ∀ u, c.get u = lastConv convert u) (i : Str) {t y : Ty}
    (e : SerE) (w : Val A) (hg : c.get t = some y) : Uses S convert i (mapTypedArg i c e t) t w := by
  refine ⟨_, .converted w (lastConv_iff.mp (hc t ▸ hg)), fun args h => ?_⟩
  rw [mapTypedArg_get hg] at h ⊢
  simp [DeE.eval, h]

theorem uses_plain {convert : List (Ty × Ty)} (i : Str) {t : Ty} {c : Convs} (e : SerE) (w : Val A)
    (hn : ¬ Converted convert t) (hr : ∀ lt m s, t ≠ .ref lt m s) : Uses S convert i (mapPathArg c i e t) t w :=
  ⟨w, .plain w hn hr, fun args h => by simp [mapPathArg, DeE.eval, h]⟩

theorem mapTypedArg_uses {convert : List (Ty × Ty)} {c : Convs} (hc : ∀ u, c.get u = lastConv convert u) (i : Str) :
    ∀ (t : Ty) (e : SerE) (w : Val A), HasTy has w (mapTypedArg i c e t).ty → Uses S convert i (mapTypedArg i c e t) t w
  | .path q lead segs, e, w, hw => by
    cases hg : c.get (.path q lead segs) with
    | some y => exact uses_converted hc i e w hg
    | none => simp only [mapTypedArg, hg]; exact uses_plain i e w (unconverted hc hg) (by intros; exact nofun)
  | .slice t, e, w, hw => by
    cases hg : c.get (.slice t) with
    | some y => exact uses_converted hc i e w hg
    | none => simp only [mapTypedArg, hg]; exact uses_plain i e w (unconverted hc hg) (by intros; exact nofun)
  | .other ps, e, w, hw => by
    cases hg : c.get (.other ps) with
    | some y => exact uses_converted hc i e w hg
    | none => simp only [mapTypedArg, hg]; exact uses_plain i e w (unconverted hc hg) (by intros; exact nofun)
  | .ref lt m (.path q lead segs), e, w, hw => by
    cases hg : c.get (.ref lt m (.path q lead segs)) with
    | some y => exact uses_converted hc i e w hg
    | none =>
      by_cases hs : matchTypePath q segs c%"str" = some .none
      · simp only [mapTypedArg, hg, if_pos hs] at hw ⊢
        obtain ⟨a, rfl⟩ := hasTy_string hw
        refine ⟨_, .str lt m a (unconverted hc hg) (matchTypePath_str.mp hs), fun args h => ?_⟩
        simp [DeE.eval, h]
      · simp only [mapTypedArg, hg, if_neg hs, mapPathArg] at hw ⊢
        refine ⟨_, .path lt m w (unconverted hc hg) (fun h => hs (matchTypePath_str.mpr h)), fun args h => ?_⟩
        simp [DeE.eval, h]
  | .ref lt m (.slice t), e, w, hw => by
    cases hg : c.get (.ref lt m (.slice t)) with
    | some y => exact uses_converted hc i e w hg
    | none =>
      simp only [mapTypedArg, hg] at hw ⊢
      obtain ⟨a, rfl⟩ := hasTy_vec hw
      refine ⟨_, .slice lt m a (unconverted hc hg), fun args h => ?_⟩
      simp [DeE.eval, h]
  | .ref lt m (.other ps), e, w, hw => by
    cases hg : c.get (.ref lt m (.other ps)) with
    | some y => exact uses_converted hc i e w hg
    | none =>
      rw [mapTypedArg_refOther hg] at hw ⊢
      obtain ⟨v, h1, h2⟩ := mapTypedArg_uses hc i (.other ps) (.deref e) w hw
      refine ⟨_, .ref lt m (unconverted hc hg) (by intros; exact nofun) (by intros; exact nofun) h1, fun args h => ?_⟩
      simp [DeE.eval, h2 args h]
  | .ref lt m (.ref lt2 m2 t), e, w, hw => by
    cases hg : c.get (.ref lt m (.ref lt2 m2 t)) with
    | some y => exact uses_converted hc i e w hg
    | none =>
      rw [mapTypedArg_ref hg] at hw ⊢
      obtain ⟨v, h1, h2⟩ := mapTypedArg_uses hc i (.ref lt2 m2 t) (.deref e) w hw
      refine ⟨_, .ref lt m (unconverted hc hg) (by intros; exact nofun) (by intros; exact nofun) h1, fun args h => ?_⟩
      simp [DeE.eval, h2 args h]

theorem fieldFor_received {im : ImplM} {convert : List (Ty × Ty)} {a : FnArg} {f : FieldM} {t : Ty} {w : Val A}
    (hf : FieldFor im (Convs.ofOpts convert) a f) (ht : ArgTy im a t) (hw : HasTy has w f.ty) :
    ∃ v e, f.de = some e ∧ Received S convert a t w v ∧
      ∀ args : ArgsVal A, args.lookup f.ident = some (f.ty, w) → e.eval S args t = some v := by
  obtain ⟨t', b', ck, ht', hck, -, h1, h2⟩ := hf
  obtain rfl := argTy_unique ht' ht
  by_cases ha : a.attrs = []
  · have h1 := h1 ha
    generalize hid : f.ident = i at h1
    have hc : ∀ u, ck.get u = lastConv convert u := fun u => by rw [hck, ofOpts_get]
    subst h1
    obtain ⟨v, g1, g2⟩ := mapTypedArg_uses (S := S) hc i t' (.var b') w hw
    exact ⟨v, _, rfl, .inl ⟨ha, g1⟩, g2⟩
  · have h2 := h2 ha
    generalize hid : f.ident = i at h2
    subst h2
    exact ⟨w, _, rfl, .inr ⟨ha, rfl⟩, fun args h => by simp [DeE.eval, h]⟩

theorem callArgs_phantoms {args : ArgsVal A} : ∀ {ph : List FieldM}, (∀ f ∈ ph, f.de = none) → callArgs S args ph [] = some []
  | [], _ => rfl
  | f :: ph, h => by
    rw [callArgs, h f (by simp)]
    exact callArgs_phantoms fun f hf => h f (List.mem_cons_of_mem _ hf)

theorem fields_receive {im : ImplM} {convert : List (Ty × Ty)} {ph : List FieldM} (hph : ∀ f ∈ ph, f.de = none) :
    ∀ {l : List FnArg} {ts : List Ty} {ws : List (Val A)} {fs : List FieldM}, List.Forall₂ (ArgTy im) l ts →
      List.Forall₂ (FieldFor im (Convs.ofOpts convert)) l fs →
      List.Forall₂ (fun f w => HasTy has w f.ty) (fs ++ ph) ws →
      ∃ vs, ReceivedAll S convert l ts ws vs ∧
        ∀ args : ArgsVal A, (∀ p ∈ (fs ++ ph).zip ws, args.lookup p.1.ident = some (p.1.ty, p.2)) →
          callArgs S args (fs ++ ph) ts = some vs
  | _, _, _, _, .nil, .nil, _ => ⟨[], ⟨rfl, by simp⟩, fun args _ => callArgs_phantoms hph⟩
  | _, _, _, f :: fs, .cons ht hT, .cons hf hF, .cons (b := w) hw hW => by
    obtain ⟨vs, ⟨h1, h2⟩, h3⟩ := fields_receive hph hT hF hW
    obtain ⟨v, e, g1, g2, g3⟩ := fieldFor_received (S := S) hf ht hw
    refine ⟨v :: vs, ⟨by simp [h1], fun k a t w v ha ht hw hv => ?_⟩, fun args ha => ?_⟩
    · cases k with
      | zero =>
        simp only [List.getElem?_cons_zero, Option.some.injEq] at ha ht hw hv
        subst ha ht hw hv
        exact g2
      | succ k => exact h2 k a t w v ha ht hw hv
    · rw [List.cons_append, callArgs, g1]
      simp only
      rw [g3 args (ha (f, w) (by simp)), h3 args fun p hp => ha p (List.mem_cons_of_mem _ hp)]

end

/-- **C93.** Every input that decodes reaches the target: whatever the parameters – receivers, references, `str`, slices,
conversions, serde attributes – and whatever values of the fields' types are read, the call is made, with arguments that are
received from those fields. No input that decodes is skipped. -/
theorem C93_decoded {A : Type} (S : Sem A) (has : Ty → A → Prop) (cd : Codec A) (x : ArgsIn)
    (n n' : Nat) (fs : List FieldM) (h : argsFields x n = .ok (fs, n')) (tys : List Ty)
    (htys : List.Forall₂ (ArgTy x.impl) x.inputs tys) (hnames : (ownNames x.inputs).Nodup)
    (hnum : ∀ i ∈ ownNames x.inputs, ¬ IsNumbered i) (b : Bytes) (ws : List (Val A))
    (hb : cd.dec (schemaOf fs) b = some ws) (hws : List.Forall₂ (fun f w => HasTy has w f.ty) fs ws) :
    ∃ vs, deArgs S cd tys fs b = some vs ∧ ReceivedAll S x.convert x.inputs tys ws vs := by
  have hd := C55_distinct x n n' fs h hnames hnum
  obtain ⟨fs1, c', h1, rfl, -⟩ := argsFields_ok h
  obtain ⟨hF, -⟩ := mapArgs_ok (ofOpts_get_ne_none x.convert) h1
  obtain ⟨vs, g1, g2⟩ := fields_receive (S := S) (convert := x.convert)
    (fun f hf => ((phantomFields_idents x.generics n).2.2.2 f hf).1) htys hF hws
  refine ⟨vs, ?_, g1⟩
  unfold deArgs
  rw [hb]
  exact g2 _ (lookup_zip hd)

theorem arrives_unique {A : Type} {S : Sem A} {convert : List (Ty × Ty)} {t : Ty} {w v v' : Val A}
    (h : Arrives S convert t w v) (h' : Arrives S convert t w v') : v = v' := by
  induction h generalizing v' with
  | converted w hc =>
    have hcd : Converted convert _ := (lastConv_isSome _ _).mp (by rw [lastConv_iff.mpr hc]; exact Option.some_ne_none _)
    cases h' with
    | converted _ hc' =>
      have := lastConv_iff.mpr hc
      rw [lastConv_iff.mpr hc'] at this
      cases this
      rfl
    | plain _ hn _ => exact absurd hcd hn
    | str _ _ _ hn => exact absurd hcd hn
    | slice _ _ _ hn => exact absurd hcd hn
    | path _ _ _ hn => exact absurd hcd hn
    | ref _ _ hn => exact absurd hcd hn
  | plain w hn hr =>
    cases h' with
    | converted _ hc => exact absurd hc (not_convertsTo hn _)
    | plain => rfl
    | str => exact absurd rfl (hr _ _ _)
    | slice => exact absurd rfl (hr _ _ _)
    | path => exact absurd rfl (hr _ _ _)
    | ref => exact absurd rfl (hr _ _ _)
  | str lt m a hn hs =>
    cases h' with
    | converted _ hc => exact absurd hc (not_convertsTo hn _)
    | plain _ _ hr => exact absurd rfl (hr _ _ _)
    | str => rfl
    | slice => obtain ⟨_, hs⟩ := hs; cases hs
    | path _ _ _ _ hs' => exact absurd hs hs'
    | ref _ _ _ hp => obtain ⟨_, hs⟩ := hs; exact absurd hs (hp _ _ _)
  | slice lt m a hn =>
    cases h' with
    | converted _ hc => exact absurd hc (not_convertsTo hn _)
    | plain _ _ hr => exact absurd rfl (hr _ _ _)
    | str _ _ _ _ hs => obtain ⟨_, hs⟩ := hs; cases hs
    | slice => rfl
    | ref _ _ _ _ hp => exact absurd rfl (hp _)
  | path lt m w hn hs =>
    cases h' with
    | converted _ hc => exact absurd hc (not_convertsTo hn _)
    | plain _ _ hr => exact absurd rfl (hr _ _ _)
    | str _ _ _ _ hs' => exact absurd hs' hs
    | path => rfl
    | ref _ _ _ hp => exact absurd rfl (hp _ _ _)
  | ref lt m hn hp hs _ ih =>
    cases h' with
    | converted _ hc => exact absurd hc (not_convertsTo hn _)
    | plain _ _ hr => exact absurd rfl (hr _ _ _)
    | str _ _ _ _ hs' => obtain ⟨_, hs'⟩ := hs'; exact absurd hs' (hp _ _ _)
    | slice => exact absurd rfl (hs _)
    | path => exact absurd rfl (hp _ _ _)
    | ref _ _ _ _ _ h => rw [ih h]

/-- **C93.** What the target receives is determined by the fields: two fields of equal values give equal arguments. -/
theorem C93_unique {A : Type} (S : Sem A) (convert : List (Ty × Ty)) (a : FnArg) (t : Ty) (w v v' : Val A)
    (h : Received S convert a t w v) (h' : Received S convert a t w v') : v = v' := by
  rcases h with ⟨ha, h⟩ | ⟨ha, rfl⟩
  · rcases h' with ⟨-, h'⟩ | ⟨ha', -⟩
    · exact arrives_unique h h'
    · exact absurd ha ha'
  · rcases h' with ⟨ha', -⟩ | ⟨-, rfl⟩
    · exact absurd ha' ha
    · rfl

/-- Of the code: conversions to an argument's type yield values of it, a vector of elements of a type holds such elements. -/
structure Spec.Sound {A : Type} (S : Sem A) (has : Ty → A → Prop) (convert : List (Ty × Ty)) : Prop where
  into_has : ∀ t y w, ConvertsTo convert t y → HasTy has w y → HasTy has (S.into y t w) t
  slice_has : ∀ t a, has (.path .none false (.cons c%"Vec" (.angle false (.ty t .nil)) .nil)) a → ∀ e ∈ S.asSlice a, has t e

theorem arrives_typed {A : Type} {S : Sem A} {has : Ty → A → Prop} {convert : List (Ty × Ty)} (hS : Sound S has convert)
    {c : Convs} (hc : ∀ u, c.get u = lastConv convert u) {i : Str} {t : Ty} {w v : Val A} (h : Arrives S convert t w v) :
    ∀ (e : SerE), HasTy has w (mapTypedArg i c e t).ty → HasTy has v t := by
  have none_of : ∀ t, ¬ Converted convert t → c.get t = none := by
    intro t hn
    rw [hc]
    by_contra hh
    exact hn ((lastConv_isSome _ _).mp hh)
  induction h with
  | @converted t y w hv =>
    intro e hw
    rw [mapTypedArg_get (a := y) (by rw [hc]; exact lastConv_iff.mpr hv)] at hw
    exact hS.into_has _ _ _ hv hw
  | @plain t w hn hr =>
    intro e hw
    cases t with
    | ref => exact absurd rfl (hr _ _ _)
    | _ => simpa only [mapTypedArg, none_of _ hn, mapPathArg] using hw
  | str lt m a hn hs =>
    intro e hw
    obtain ⟨lead, rfl⟩ := hs
    exact .ref _ _ (.str _ _)
  | slice lt m a hn =>
    intro e hw
    simp only [mapTypedArg, none_of _ hn] at hw
    unfold tyVec at hw
    cases hw with
    | base _ h => exact .ref _ _ (.slice (hS.slice_has _ _ h))
  | path lt m w hn hs =>
    intro e hw
    simp only [mapTypedArg, none_of _ hn, if_neg fun h => hs (matchTypePath_str.mp h), mapPathArg] at hw
    exact .ref _ _ hw
  | @ref t w v lt m hn hp hs _ ih =>
    intro e hw
    refine .ref _ _ (ih (.deref e) ?_)
    cases t with
    | path => exact absurd rfl (hp _ _ _)
    | slice => exact absurd rfl (hs _)
    | ref => rw [mapTypedArg_ref (none_of _ hn)] at hw; exact hw
    | other =>
      rw [mapTypedArg_refOther (none_of _ hn)] at hw
      exact hw

/-- **C93.** The arguments have the types of the parameters, if conversions yield values of the types they claim to. -/
theorem C93_typed {A : Type} (S : Sem A) (has : Ty → A → Prop) (x : ArgsIn) (hS : Sound S has x.convert)
    (n n' : Nat) (fs : List FieldM) (h : argsFields x n = .ok (fs, n')) (tys : List Ty) (ws vs : List (Val A))
    (hws : List.Forall₂ (fun f w => HasTy has w f.ty) fs ws) (hr : ReceivedAll S x.convert x.inputs tys ws vs)
    (k : Nat) (a : FnArg) (ha : x.inputs[k]? = some a) (t : Ty) (hk : tys[k]? = some t) (ht : ArgTy x.impl a t) :
    ∃ v, vs[k]? = some v ∧ HasTy has v t := by
  obtain ⟨f, hf, hff⟩ := field_of h ha
  obtain ⟨w, hw, hwt⟩ := forall2_get hws k f hf
  have hlt : k < vs.length := by
    rw [hr.1]
    exact (List.getElem?_eq_some_iff.mp ha).1
  refine ⟨vs[k], List.getElem?_eq_getElem hlt, ?_⟩
  have hrec := hr.2 k a t w vs[k] ha hk hw (List.getElem?_eq_getElem hlt)
  obtain ⟨t', b', ck, ht', hck, -, h1, h2⟩ := hff
  obtain rfl := argTy_unique ht' ht
  rcases hrec with ⟨he, hrec⟩ | ⟨he, hrec⟩
  · have h1 := h1 he
    rw [h1] at hwt
    exact arrives_typed hS (fun u => by rw [hck, ofOpts_get]) hrec _ hwt
  · have h2 := h2 he
    rw [h2] at hwt
    rw [hrec]
    exact hwt

/-! ## Generated inputs -/

theorem runAutoGenerate_ok {V R : Type} {c : Setting} {t : Target V} {s s' : Proc V R} {fr : Frame V R}
    (he : hasEntry t.macro_ = true) (hg : t.macro_.noAutoGenerate = false) (hoff : ¬ On c.ctx.env c%"TEST_FUZZ")
    (h : runAutoGenerate c t s = (.ok fr, s')) : recordAutos c t t.autos s = (.ok (), s') := by
  have g1 : (Guard.not .testFuzz).eval c.ctx.env = true := by
    have : ¬ Guard.testFuzz.eval c.ctx.env = true := fun h => hoff ((eval_testFuzz _).mp h)
    simp only [Guard.eval] at this ⊢
    simpa using this
  simp only [runAutoGenerate, autoGenerateTest, he, hg, Bool.not_false, Bool.and_self, if_true] at h
  rw [exec_when, g1, if_pos rfl, Code.exec] at h
  cases hra : recordAutos c t t.autos s with
  | mk y s1 =>
  rw [hra] at h
  cases y with
  | ok u => cases h; rfl
  | _ => cases h

/-- **C93.** From the generation of inputs to their replay: if the generating test succeeds, then for each generated value of
`Args` – in order – its encoding was stored in the target's corpus; and a harness of the target, in another process and with
any state, that is given this to fuzz or to replay calls the target exactly once, with what is received from that value. -/
theorem C93_generated {A R : Type} (S : Sem A) (has : Ty → A → Prop) (cd : Codec A) (x : ArgsIn)
    (n n' : Nat) (fs : List FieldM) (h : argsFields x n = .ok (fs, n')) (tys : List Ty)
    (htys : List.Forall₂ (ArgTy x.impl) x.inputs tys) (hnames : (ownNames x.inputs).Nodup)
    (hnum : ∀ i ∈ ownNames x.inputs, ¬ IsNumbered i)
    (hcd : ∀ ws, List.Forall₂ (fun f w => HasTy has w f.ty) fs ws → RoundTrip cd (schemaOf fs) ws)
    (values : List (List (Val A))) (hv : List.Forall₂ (fun f l => ∀ w ∈ l, HasTy has w f.ty) fs values)
    (autos : List (List (Val A))) (ha : argsFromAutos values = .ok autos)
    (m : MacroIn) (typeName : Str) (it ty : List (Val A) → List Str) (he : hasEntry m = true) (hg : m.noAutoGenerate = false)
    (c : Setting) (hoff : ¬ On c.ctx.env c%"TEST_FUZZ") (s s' : Proc (List (Val A)) R) (fr : Frame (List (Val A)) R)
    (hr : runAutoGenerate c (targetOf S cd m typeName it ty autos x tys fs) s = (.ok fr, s')) :
    ∃ D bs, (autos ≠ [] → corpusDirFromArgsType c.ctx typeName = .ok D) ∧ StoredAll D bs s.world s'.world ∧
      List.Forall₂ (fun ws b => ∃ vs, ReceivedAll S x.convert x.inputs tys ws vs ∧
        Replays (R := R) (targetOf S cd m typeName it ty autos x tys fs) b vs) autos bs := by
  obtain ⟨D, bs, h1, h2, h3, -⟩ := recordAutos_ok (runAutoGenerate_ok he hg hoff hr)
  refine ⟨D, bs, fun hne => h1 (by simpa [targetOf] using hne), h3, ?_⟩
  have htyped : ∀ ws ∈ autos, List.Forall₂ (fun f w => HasTy has w f.ty) fs ws := by
    intro ws hws
    have hlen : ws.length = values.length := by
      by_cases hn : [] ∈ values
      · rw [C19_none values hn] at ha
        cases ha; cases hws
      · obtain ⟨ts, g1, -, g3⟩ := argsFromAutos_nonempty values fun l hl hh => hn (hh ▸ hl)
        rw [g1] at ha
        cases ha
        obtain ⟨j, hj, rfl⟩ := List.getElem_of_mem hws
        exact (g3 j _ (List.getElem?_eq_getElem hj)).1
    rw [List.forall₂_iff_get]
    refine ⟨by rw [hlen, hv.length_eq], fun k hk hk' => ?_⟩
    obtain ⟨l, hl, hm⟩ := C18_only_values values autos ha ws hws k ws[k] (List.getElem?_eq_getElem hk')
    obtain ⟨l', hl', hval⟩ := forall2_get hv k fs[k] (List.getElem?_eq_getElem hk)
    rw [hl] at hl'
    cases hl'
    exact hval _ hm
  have hmap : autos.map (cd.enc (schemaOf fs)) = bs.map .ok := h2
  clear h1 h2 h3 ha hr
  have key : ∀ (t : Target (List (Val A))), t.macro_ = m → t.de = deArgs S cd tys fs →
      List.Forall₂ (fun ws b => ∃ vs, ReceivedAll S x.convert x.inputs tys ws vs ∧ Replays (R := R) t b vs) autos bs := by
    intro t htm htd
    induction autos generalizing bs with
    | nil =>
      obtain rfl : bs = [] := by simpa using hmap.symm
      exact .nil
    | cons ws autos ih =>
      cases bs with
      | nil => simp at hmap
      | cons b bs =>
        simp only [List.map_cons, List.cons.injEq] at hmap
        refine .cons ?_ (ih bs (fun ws h => htyped ws (List.mem_cons_of_mem _ h)) hmap.2)
        have hw := htyped ws (by simp)
        have hdec := hcd ws hw b hmap.1
        obtain ⟨vs, g1, g2⟩ := C93_decoded S has cd x n n' fs h tys htys hnames hnum (b ++ []) ws (hdec []) hw
        refine ⟨vs, g2, fun c2 body2 s2 junk hc2 hf hstd => ?_⟩
        refine C11_called_once c2 t body2 s2 (by rw [htm]; exact he) hc2 hf vs ?_
        rw [hstd, htd]
        unfold deArgs at g1 ⊢
        rw [hdec junk]
        rw [hdec []] at g1
        exact g1
  exact key _ rfl rfl

/-- **C93.** So every generated value reaches the target: if each field has values, then for every value `w` of every
argument's field there is a stored input whose replay calls the target with what is received from `w` for that argument. -/
theorem C93_every_value {A R : Type} (S : Sem A) (has : Ty → A → Prop) (cd : Codec A) (x : ArgsIn)
    (n n' : Nat) (fs : List FieldM) (h : argsFields x n = .ok (fs, n')) (tys : List Ty)
    (htys : List.Forall₂ (ArgTy x.impl) x.inputs tys) (hnames : (ownNames x.inputs).Nodup)
    (hnum : ∀ i ∈ ownNames x.inputs, ¬ IsNumbered i)
    (hcd : ∀ ws, List.Forall₂ (fun f w => HasTy has w f.ty) fs ws → RoundTrip cd (schemaOf fs) ws)
    (values : List (List (Val A))) (hv : List.Forall₂ (fun f l => ∀ w ∈ l, HasTy has w f.ty) fs values)
    (hne : ∀ l ∈ values, l ≠ []) (autos : List (List (Val A))) (ha : argsFromAutos values = .ok autos)
    (m : MacroIn) (typeName : Str) (it ty : List (Val A) → List Str) (he : hasEntry m = true) (hg : m.noAutoGenerate = false)
    (c : Setting) (hoff : ¬ On c.ctx.env c%"TEST_FUZZ") (s s' : Proc (List (Val A)) R) (fr : Frame (List (Val A)) R)
    (hr : runAutoGenerate c (targetOf S cd m typeName it ty autos x tys fs) s = (.ok fr, s'))
    (k : Nat) (a : FnArg) (hk : x.inputs[k]? = some a) (t : Ty) (ht : tys[k]? = some t) (l : List (Val A))
    (hl : values[k]? = some l) (w : Val A) (hw : w ∈ l) :
    ∃ D bs b vs v, corpusDirFromArgsType c.ctx typeName = .ok D ∧ StoredAll D bs s.world s'.world ∧ b ∈ bs ∧
      vs[k]? = some v ∧ Received S x.convert a t w v ∧
      Replays (R := R) (targetOf S cd m typeName it ty autos x tys fs) b vs := by
  obtain ⟨D, bs, h1, h2, h3⟩ := C93_generated S has cd x n n' fs h tys htys hnames hnum hcd values hv autos ha m typeName it ty
    he hg c hoff s s' fr hr
  obtain ⟨ts, g1, ws, g2, g3⟩ := C18_every_value_used values hne k l hl w hw
  rw [ha] at g1
  cases g1
  obtain ⟨b, hb, vs, hvs, hrep⟩ := forall₂_mem_left h3 g2
  have hlt : k < vs.length := by
    rw [hvs.1]
    exact (List.getElem?_eq_some_iff.mp hk).1
  exact ⟨D, bs, b, vs, vs[k], h1 (List.ne_nil_of_mem g2), h2, hb, List.getElem?_eq_getElem hlt,
    hvs.2 k a t w vs[k] hk ht g3 (List.getElem?_eq_getElem hlt), hrep⟩

/-! ## Cases -/

namespace ReachDemo

open RoundDemo

/-- The types of the parameters of `fn f<T>(&self, a: &mut &str, b: Wide)` in `impl u8`. -/
theorem types : List.Forall₂ (ArgTy x.impl) x.inputs tys :=
  .cons (.recvRef ..) (.cons (.method _ _ _ _ _ (by simp) rfl) (.cons (.method _ _ _ _ _ (by simp) rfl) .nil))

theorem names : ∀ i ∈ ownNames x.inputs, ¬ IsNumbered i := by
  intro i hi
  simp [x, ownNames] at hi
  rcases hi with rfl | rfl <;> (rintro ⟨n, h⟩; cases h)

theorem num_has {n : Nat} (h : n < 256) : HasTy has (.base (.num n)) u8 :=
  .base (by rintro ⟨l, hl⟩; cases hl) ⟨fun _ => ⟨n, h, rfl⟩, fun h => (by cases h), fun h => (by cases h)⟩

theorem str_has (s : Str) : HasTy has (.base (.str s)) (.name c%"String") :=
  .base (by rintro ⟨l, hl⟩; cases hl) ⟨fun h => (by cases h), fun _ => ⟨s, rfl⟩, fun h => (by cases h)⟩

theorem unit_has : HasTy has (.base .unit) (tyPhantom (.ty (.name c%"T") .nil)) :=
  .base (by rintro ⟨l, hl⟩; cases hl) ⟨fun h => (by cases h), fun h => (by cases h), fun _ => rfl⟩

/-- The input 9, 5, 1, 65, 99 was never recorded: it decodes to 9, 5, `"A"` (and an unused byte), and the target is called
with a reference to 9, a reference to a reference to `"A"`, and the `Wide` that 5 is converted to. -/
example : ∃ vs, deArgs sem cd tys fields [9, 5, 1, 65, 99] = some vs ∧
    vs = [.ref false (.base (.num 9)), .ref true (.ref false (.str c%"A")), .base (.num 4)] ∧
    ReceivedAll sem x.convert x.inputs tys [.base (.num 9), .base (.str c%"A"), .base (.num 5), .base .unit] vs := by
  obtain ⟨vs, h1, h2⟩ := C93_decoded sem has cd x 0 2 fields fields_eq tys types (by decide) names [9, 5, 1, 65, 99]
    [.base (.num 9), .base (.str c%"A"), .base (.num 5), .base .unit] rfl
    (.cons (num_has (by decide)) (.cons (str_has _) (.cons (num_has (by decide)) (.cons unit_has .nil))))
  refine ⟨vs, h1, ?_, h2⟩
  have : deArgs sem cd tys fields [9, 5, 1, 65, 99] =
    some [.ref false (.base (.num 9)), .ref true (.ref false (.str c%"A")), .base (.num 4)] := rfl
  rw [this] at h1
  cases h1
  rfl

/-- Values for the fields: 0 and 255; `""`; 1, 2 and 3; `PhantomData`. -/
def values : List (List (Val DV)) :=
  [[.base (.num 0), .base (.num 255)], [.base (.str [])], [.base (.num 1), .base (.num 2), .base (.num 3)], [.base .unit]]

def autos : List (List (Val DV)) :=
  [[.base (.num 0), .base (.str []), .base (.num 3), .base .unit], [.base (.num 255), .base (.str []), .base (.num 1), .base .unit],
   [.base (.num 0), .base (.str []), .base (.num 2), .base .unit]]

theorem values_typed : List.Forall₂ (fun f l => ∀ w ∈ l, HasTy has w f.ty) fields values := by
  refine .cons ?_ (.cons ?_ (.cons ?_ (.cons ?_ .nil)))
  · intro w hw
    simp only [List.mem_cons, List.not_mem_nil, or_false] at hw
    rcases hw with rfl | rfl <;> exact num_has (by decide)
  · intro w hw
    simp only [List.mem_cons, List.not_mem_nil, or_false] at hw
    subst hw
    exact str_has _
  · intro w hw
    simp only [List.mem_cons, List.not_mem_nil, or_false] at hw
    rcases hw with rfl | rfl | rfl <;> exact num_has (by decide)
  · intro w hw
    simp only [List.mem_cons, List.not_mem_nil, or_false] at hw
    subst hw
    exact unit_has

def target : Target (List (Val DV)) :=
  targetOf sem cd { numStmts := 2 } c%"k::t_fuzz__::Args" (fun _ => []) (fun _ => []) autos x tys fields

def start : Proc (List (Val DV)) Nat :=
  ⟨⟨fun p => if p = [] ∨ p = [c%"w"] then some .dir else none, 0⟩, .other 7, false, []⟩

/-- The generating test succeeds. -/
theorem generates : ∃ fr s', runAutoGenerate (HarnessDemo.setting [] []) target start = (.ok fr, s') := by
  have h : (match runAutoGenerate (HarnessDemo.setting [] []) target start with | (.ok _, _) => true | _ => false) = true := by
    decide +kernel
  split at h
  · next fr s' he => exact ⟨fr, s', he⟩
  · cases h

/-- `C93_every_value` at work: there is an input whose replay calls the target with `b` being the `Wide` made of 2. -/
example : ∃ b vs, vs[2]? = some (.base (.num 1)) ∧ Replays (R := Nat) target b vs := by
  obtain ⟨fr, s', h⟩ := generates
  obtain ⟨D, bs, b, vs, v, -, -, -, h4, h5, h6⟩ := C93_every_value sem has cd x 0 2 fields fields_eq tys types (by decide) names
    (fun ws _ => cd_ok _ ws) values values_typed (by decide +revert) autos rfl { numStmts := 2 } c%"k::t_fuzz__::Args" (fun _ => [])
    (fun _ => []) (by rfl) rfl (HarnessDemo.setting [] []) (by rintro ⟨v, hv, -⟩; cases hv) start s' fr h 2 _ rfl _ rfl _ rfl (.base (.num 2)) (by simp)
  refine ⟨b, vs, ?_, h6⟩
  have hv : v = .base (.num 1) := by
    refine C93_unique sem x.convert _ _ _ _ _ h5 (.inl ⟨rfl, ?_⟩)
    exact .converted (t := wide) (y := u8) _ ⟨[], (wide, u8), [], rfl, rfl, nofun, rfl⟩
  rw [h4, hv]

def Small (a : DV) : Prop := ∃ n, n < 256 ∧ a = .num n

/-- Numbers below 256 for `u8` and `Wide`; strings; vectors of `u8`. -/
inductive Has : Ty → DV → Prop
  | num {a : DV} : Small a → Has u8 a
  | wide {t : Ty} {a : DV} : t.toks = wide.toks → Small a → Has t a
  | string (s : Str) : Has (.name c%"String") (.str s)
  | bytes {l : List DV} : (∀ a ∈ l, Small a) → Has (tyVec u8) (.vec l)

/-- What `C93_typed` asks of conversions and vectors holds here. -/
theorem sound : Sound sem Has x.convert where
  into_has t y w hc hw := by
    obtain ⟨l1, p, l2, he, ht, -, rfl⟩ := hc
    have hp : p ∈ x.convert := he ▸ List.mem_append_right _ List.mem_cons_self
    simp only [x, List.mem_singleton] at hp
    subst hp
    have ho : Opaque t := by
      cases t with
      | path => rintro ⟨l, hl⟩; rw [hl] at ht; cases l <;> cases ht
      | slice => cases ht
      | ref => cases ht
      | other => trivial
    simp only at hw
    cases hw with
    | @base a _ _ h =>
      have hs : Small a := by
        cases h with
        | num h => exact h
        | wide h1 h2 => exact h2
      obtain ⟨n, hn, rfl⟩ := hs
      cases n with
      | zero => exact .base ho (.wide ht.symm ⟨0, by decide, rfl⟩)
      | succ n => exact .base ho (.wide ht.symm ⟨n, by omega, rfl⟩)
  slice_has t a h e he := by
    cases h with
    | wide h1 h2 => cases h1
    | bytes h => exact .num (h e he)

end ReachDemo

end TF
