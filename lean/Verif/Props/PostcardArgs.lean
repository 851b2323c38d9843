import Verif.Props.RoundTrip
import Verif.Props.Postcard
import Verif.Model.PostcardArgs

/-!
# C13 and C16 together: recorded arguments in the default format
-/

namespace TF

open Spec

section
variable {A : Type} {sd : Serde A} {has : Ty → A → Prop}

/-- What is asked of `Serialize` and `Deserialize` of the fields: what is serialised is what the deserialiser asks for, and it
is taken for the same value. -/
def Spec.SerdeOk (sd : Serde A) (has : Ty → A → Prop) (fs : List FieldM) : Prop :=
  ∀ f ∈ fs, ∀ w, HasTy has w f.ty →
    (Small (sd.ser (f.attrs, f.ty) w) → Conforms (sd.ser (f.attrs, f.ty) w) (sd.sch (f.attrs, f.ty))) ∧
      sd.de (f.attrs, f.ty) (sd.ser (f.attrs, f.ty) w) = some w

theorem serAll_conforms {fs : List FieldM} {ws : List (Val A)} (h : SerdeOk sd has fs)
    (hw : List.Forall₂ (fun f w => HasTy has w f.ty) fs ws) :
    (SmallAll (sd.serAll (schemaOf fs) ws) → EachConforms (sd.serAll (schemaOf fs) ws) (sd.schs (schemaOf fs))) ∧
      sd.deAll (schemaOf fs) (sd.serAll (schemaOf fs) ws) = some ws := by
  induction hw with
  | nil => exact ⟨fun _ => .nil, rfl⟩
  | @cons f w fs ws hf hr ih =>
    obtain ⟨h1, h2⟩ := ih fun g hg => h g (List.mem_cons_of_mem _ hg)
    obtain ⟨h3, h4⟩ := h f (by simp) w hf
    refine ⟨fun hs => .cons (h3 hs.1) (h1 hs.2), ?_⟩
    simp only [schemaOf, List.map_cons, Serde.serAll, Serde.deAll, h4, Option.bind_eq_bind, Option.bind_some]
    have h2' := h2
    rw [schemaOf] at h2'
    rw [h2']
    rfl

theorem postCodec_exact (p : Policy) {fs : List FieldM} {ws : List (Val A)} (h : SerdeOk sd has fs)
    (hw : List.Forall₂ (fun f w => HasTy has w f.ty) fs ws) (r : Bytes) :
    let v := SVal.tuple (sd.serAll (schemaOf fs) ws)
    Small v →
    (Fits p v 2048 → (postCodec sd p).dec (schemaOf fs) (postSerialize v ++ r) = some ws) ∧
      (¬ Fits p v 2048 → (postCodec sd p).dec (schemaOf fs) (postSerialize v ++ r) = none) := by
  intro v hv
  obtain ⟨h1, h2⟩ := serAll_conforms h hw
  obtain ⟨h3, h4⟩ := C16_round_trip p _ _ (Conforms.tuple (h1 hv)) r
  constructor
  · intro hf
    simp only [postCodec]
    rw [show postDeserialize p _ (postSerialize v ++ r) = some v from h3 hf]
    exact h2
  · intro hf
    simp only [postCodec]
    rw [show postDeserialize p _ (postSerialize v ++ r) = none from h4 hf]

end

/-- **C13.** In the default format, for all parameter lists and values: recording always succeeds. If the values fit in the
sliding buffer, whatever begins with the recorded bytes is replayed as a call with those values; otherwise, it is not replayed
at all. -/
theorem C13_postcard {A : Type} (S : Sem A) (has : Ty → A → Prop) (hS : Lawful S has) (sd : Serde A) (p : Policy)
    (x : ArgsIn) (n n' : Nat) (fs : List FieldM) (h : argsFields x n = .ok (fs, n')) (tys : List Ty) (vs : List (Val A))
    (hcall : TypedCall S has x.impl x.convert x.inputs tys vs) (hbind : (hidingNames ++ x.inputs.filterMap (·.binder)).Nodup)
    (hnames : (ownNames x.inputs).Nodup) (hnum : ∀ i ∈ ownNames x.inputs, ¬ IsNumbered i) (hsd : SerdeOk sd has fs) :
    ∃ (args : ArgsVal A) (v : SVal), buildArgsVal S (recordingEnv (argEnv x.inputs vs)) fs = some args ∧
      v = .tuple (sd.serAll (schemaOf fs) (args.map (·.2.2))) ∧ serArgs S (postCodec sd p) x.inputs fs vs = .ok (postSerialize v) ∧
      (Small v → Fits p v 2048 → ∀ r, deArgs S (postCodec sd p) tys fs (postSerialize v ++ r) = some vs) ∧
      (Small v → ¬ Fits p v 2048 → ∀ r, deArgs S (postCodec sd p) tys fs (postSerialize v ++ r) = none) := by
  have hd := C55_distinct x n n' fs h hnames hnum
  obtain ⟨fs1, c', h1, rfl, -⟩ := argsFields_ok h
  obtain ⟨hF, -⟩ := mapArgs_ok (ofOpts_get_ne_none x.convert) h1
  obtain ⟨ws, g1, g2, g3⟩ := fields_build hS (phantomFields_idents x.generics n).2.2.2 hcall hF
    (env := recordingEnv (argEnv x.inputs vs)) (recordingEnv_get hbind)
  have hw : (((fs1 ++ (phantomFields n x.generics).1).zip ws).map fun p => (p.1.ident, p.1.ty, p.2)).map (·.2.2) = ws := by
    rw [List.map_map]
    exact List.map_snd_zip (Nat.le_of_eq g2.length_eq.symm)
  have key := postCodec_exact p hsd g2
  refine ⟨_, .tuple (sd.serAll (schemaOf (fs1 ++ (phantomFields n x.generics).1)) ws), g1, by rw [hw], ?_, fun hv hf r => ?_, fun hv hf r => ?_⟩
  · unfold serArgs
    rw [g1]
    simp only [hw, postCodec]
  · unfold deArgs
    rw [(key r hv).1 hf]
    exact g3 _ (lookup_zip hd)
  · unfold deArgs
    rw [(key r hv).2 hf]

/-! ## A case -/

namespace RoundDemo

def sd : Serde DV where
  sch := fun t => if t.2 = u8 then .byte else if t.2 = .name c%"String" then .string else .unit
  ser := fun _ w => match w with
    | .base (.num n) => .byte (UInt8.ofNat n)
    | .base (.str s) => .string s
    | _ => .unit
  de := fun _ v => match v with
    | .byte b => some (.base (.num b.toNat))
    | .string s => some (.base (.str s))
    | .unit => some (.base .unit)
    | _ => none

theorem serdeOk : SerdeOk sd has fields := by
  intro f hf w hw
  have key : ∀ t : Ty, Opaque t → HasTy has w t → ∃ a, w = .base a ∧ has t a := by
    intro t ht h
    cases h with
    | base _ h => exact ⟨_, rfl, h⟩
    | str s lead => exact absurd ⟨_, rfl⟩ ht
    | slice => exact ht.elim
    | ref => exact ht.elim
  simp only [fields, List.mem_cons, List.not_mem_nil, or_false] at hf
  rcases hf with rfl | rfl | rfl | rfl
  · obtain ⟨a, rfl, ha⟩ := key _ (by rintro ⟨l, hl⟩; cases hl) hw
    obtain ⟨n, hn, rfl⟩ := ha.1 rfl
    exact ⟨fun _ => .byte _, by simp [sd, Nat.mod_eq_of_lt hn]⟩
  · obtain ⟨a, rfl, ha⟩ := key _ (by rintro ⟨l, hl⟩; cases hl) hw
    obtain ⟨s, rfl⟩ := ha.2.1 rfl
    exact ⟨.string, rfl⟩
  · obtain ⟨a, rfl, ha⟩ := key _ (by rintro ⟨l, hl⟩; cases hl) hw
    obtain ⟨n, hn, rfl⟩ := ha.1 rfl
    exact ⟨fun _ => .byte _, by simp [sd, Nat.mod_eq_of_lt hn]⟩
  · obtain ⟨a, rfl, ha⟩ := key _ (by rintro ⟨l, hl⟩; cases hl) hw
    obtain rfl := ha.2.2 rfl
    exact ⟨fun _ => .unit, rfl⟩

/-- `C13_postcard` at work: the call above is recorded as these bytes and replayed from them. -/
example (p : Policy) (r : Bytes) :
    serArgs sem (postCodec sd p) x.inputs fields vs = .ok [7, 2, 104, 105, 42] ∧
      deArgs sem (postCodec sd p) tys fields ([7, 2, 104, 105, 42] ++ r) = some vs := by
  obtain ⟨args, v, h0, hv, h1, h2, -⟩ := C13_postcard sem has lawful sd p x 0 2 fields fields_eq tys vs typed (by decide) (by decide)
    (by
      intro i hi
      simp [x, ownNames] at hi
      rcases hi with rfl | rfl <;> (rintro ⟨n, h⟩; cases h)) serdeOk
  refine ⟨rfl, ?_⟩
  obtain rfl : _ = args := Option.some.inj h0
  have hv : v = .tuple (.cons (.byte 7) (.cons (.string c%"hi") (.cons (.byte 42) (.cons .unit .nil)))) := hv
  subst hv
  have hl : (utf8Encode c%"hi").length < 2 ^ 64 := by decide +kernel
  refine h2 ?_ ?_ r
  · exact ⟨trivial, hl, trivial, trivial, trivial⟩
  · cases p
    · exact fun n hn => by simp [chunks, chunksAll] at hn; subst hn; decide +kernel
    · show List.sum _ ≤ 2048; decide +kernel

end RoundDemo

end TF
