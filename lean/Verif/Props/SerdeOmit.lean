import Verif.Props.SerdeAttrs
import Verif.Lemmas.Lossy
import Verif.Model.SerdeOmit

/-!
# C90: arguments that serde is told to omit for some values, or to flatten
-/

namespace TF

open Spec

section
variable {A : Type} {d : DeriveIf A} {has : Ty → A → Prop}

theorem serAll_kept_if : ∀ {l : List (List Str × Ty)} {ws : List (Val A)},
    (∀ q ∈ l.zip ws, omitsIf q.1.1 = true → d.cond q.1 q.2 = false) → d.serAll l ws = d.toDerive.serAll l ws
  | [], _, _ => rfl
  | _ :: _, [], _ => rfl
  | t :: l, w :: ws, h => by
    have ih := serAll_kept_if (l := l) (ws := ws) fun q hq => h q (by simp [hq])
    have ht : d.omits t w = skipsSer t.1 := by
      unfold DeriveIf.omits
      cases h1 : omitsIf t.1 with
      | false => simp
      | true => simp [h (t, w) (by simp) h1]
    simp only [DeriveIf.serAll, Derive.serAll, ht, ih]

end

/-- **C90.** The attributes that these properties are about, by their text: `flatten` and `skip_serializing_if` anywhere among
the items of a `serde(..)`. -/
theorem C90_flags_if (l : List SerdeItem) (hp : ∀ i ∈ l, PlainItem i) (hl : l ≠ []) :
    (flattens [serdeText l] = true ↔ ∃ i ∈ l, i.1 = c%"flatten") ∧
      (omitsIf [serdeText l] = true ↔ ∃ i ∈ l, i.1 = c%"skip_serializing_if") := by
  unfold flattens omitsIf
  simp only [List.any_cons, List.any_nil, Bool.or_false, C90_names l hp hl, List.contains_iff_mem, List.mem_map, and_self]

theorem kept_format {A : Type} (S : Sem A) (d : DeriveIf A) (enc : SVal → Bytes) (dec : Sch → Bytes → Option SVal)
    (inputs : List FnArg) (fs : List FieldM) :
    ((∀ f ∈ fs, flattens f.attrs = true → skipsSer f.attrs = true) →
      ∀ vs args, buildArgsVal S (recordingEnv (argEnv inputs vs)) fs = some args →
      (∀ (k : Nat) f a, fs[k]? = some f → args[k]? = some a → omitsIf f.attrs = true → d.cond (f.attrs, f.ty) a.2.2 = false) →
      serArgs S (d.codec enc dec) inputs fs vs = serArgs S (d.toDerive.codec enc dec) inputs fs vs) ∧
    ((∀ f ∈ fs, flattens f.attrs = true → skipsDe f.attrs = true) →
      ∀ tys b, deArgs S (d.codec enc dec) tys fs b = deArgs S (d.toDerive.codec enc dec) tys fs b) := by
  refine ⟨fun hfl vs args h hk => ?_, fun hfl tys b => ?_⟩
  · have hm : writesMap (schemaOf fs) = false := by
      rw [writesMap, List.any_eq_false]
      intro t ht
      obtain ⟨f, hf, rfl⟩ := List.mem_map.mp ht
      have := hfl f hf
      simpa using this
    simp only [serArgs, h, DeriveIf.codec, hm, Derive.codec, Bool.false_eq_true, if_false]
    rw [serAll_kept_if]
    intro q hq
    obtain ⟨k, hq⟩ := List.mem_iff_getElem?.mp hq
    rw [List.getElem?_zip_eq_some, schemaOf, List.getElem?_map, List.getElem?_map] at hq
    obtain ⟨h1, h2⟩ := hq
    obtain ⟨f, hf, h1⟩ := Option.map_eq_some_iff.mp h1
    obtain ⟨a, ha, h2⟩ := Option.map_eq_some_iff.mp h2
    rw [← h1, ← h2]
    exact hk k f a hf ha
  · have hm : readsMap (schemaOf fs) = false := by
      rw [readsMap, List.any_eq_false]
      intro t ht
      obtain ⟨f, hf, rfl⟩ := List.mem_map.mp ht
      have := hfl f hf
      simpa using this
    simp only [deArgs, DeriveIf.codec, hm, Bool.false_eq_true, if_false]

/-- **C90.** If the function that `skip_serializing_if` names says of no argument of a call that it be omitted (in particular, if
there are no such attributes), and `flatten` is only on arguments that are skipped, then the call is recorded, in either format,
as if there were no such attributes; and reading does not depend on them. Hence the above holds of such calls. -/
theorem C90_kept {A : Type} (S : Sem A) (d : DeriveIf A) (p : Policy) (inputs : List FnArg) (fs : List FieldM) :
    ((∀ f ∈ fs, flattens f.attrs = true → skipsSer f.attrs = true) →
      ∀ vs args, buildArgsVal S (recordingEnv (argEnv inputs vs)) fs = some args →
      (∀ (k : Nat) f a, fs[k]? = some f → args[k]? = some a → omitsIf f.attrs = true → d.cond (f.attrs, f.ty) a.2.2 = false) →
      serArgs S (d.post p) inputs fs vs = serArgs S (d.toDerive.post p) inputs fs vs ∧
      serArgs S d.bin inputs fs vs = serArgs S d.toDerive.bin inputs fs vs) ∧
    ((∀ f ∈ fs, flattens f.attrs = true → skipsDe f.attrs = true) →
      ∀ tys b, deArgs S (d.post p) tys fs b = deArgs S (d.toDerive.post p) tys fs b ∧
        deArgs S d.bin tys fs b = deArgs S d.toDerive.bin tys fs b) :=
  ⟨fun hfl vs args h hk => ⟨(kept_format S d _ _ inputs fs).1 hfl vs args h hk, (kept_format S d _ _ inputs fs).1 hfl vs args h hk⟩,
    fun hfl tys b => ⟨(kept_format S d _ _ inputs fs).2 hfl tys b, (kept_format S d _ _ inputs fs).2 hfl tys b⟩⟩

/-- **C90.** With `flatten` on an argument that is not skipped when writing, no call can be recorded in either format: the instrumented
function panics. -/
theorem C90_flatten {A : Type} (S : Sem A) (d : DeriveIf A) (p : Policy) (x : ArgsIn) (n n' : Nat) (fs : List FieldM)
    (h : argsFields x n = .ok (fs, n')) (a : FnArg) (ha : a ∈ x.inputs) (h1 : flattens a.attrs = true)
    (h2 : skipsSer a.attrs = false) (vs : List (Val A)) :
    serArgs S (d.post p) x.inputs fs vs = .panic ∧ serArgs S d.bin x.inputs fs vs = .panic := by
  have hm : writesMap (schemaOf fs) = true := by
    obtain ⟨fs1, c', h3, rfl, -⟩ := argsFields_ok h
    obtain ⟨hF, -⟩ := mapArgs_ok (ofOpts_get_ne_none x.convert) h3
    have h4 : a.attrs ∈ fs1.map (·.attrs) := fields_attrs hF ▸ List.mem_map_of_mem ha
    obtain ⟨f, hf, h4⟩ := List.mem_map.mp h4
    rw [writesMap, List.any_eq_true]
    refine ⟨(f.attrs, f.ty), List.mem_map_of_mem (List.mem_append_left _ hf), ?_⟩
    simp only
    rw [h4, h1, h2]
    rfl
  refine ⟨?_, ?_⟩
  · unfold serArgs
    split
    · simp only [DeriveIf.post, DeriveIf.codec, hm, if_true]
    · rfl
  · unfold serArgs
    split
    · simp only [DeriveIf.bin, DeriveIf.codec, hm, if_true]
    · rfl

/-! ## Calls of which an argument is omitted -/

mutual

theorem enc_needless : ∀ {v : SVal} {s : Sch}, Conforms v s → ¬ Needs s → v.enc = []
  | _, _, .bool _, h => (h trivial).elim
  | _, _, .byte _, h => (h trivial).elim
  | _, _, .uint _, h => (h trivial).elim
  | _, _, .int _ _, h => (h trivial).elim
  | .float b, .float n, .float hb, h => by
    simp only [Needs] at h
    simp only [SVal.enc]
    exact List.length_eq_zero_iff.mp (by omega)
  | _, _, .char _, h => (h trivial).elim
  | _, _, .string _, h => (h trivial).elim
  | _, _, .bytes _, h => (h trivial).elim
  | _, _, .unit, _ => rfl
  | _, _, .none _, h => (h trivial).elim
  | _, _, .some _, h => (h trivial).elim
  | _, _, .seq _ _, h => (h trivial).elim
  | _, _, .tuple ht, h => by
    simp only [SVal.enc]
    exact encAll_needless ht h
  | _, _, .variant _ _, h => (h trivial).elim

theorem encAll_needless : ∀ {vs : SVals} {ss : Schs}, EachConforms vs ss → ¬ NeedsOne ss → vs.enc = []
  | _, _, .nil, _ => rfl
  | _, _, .cons hv hr, h => by
    simp only [NeedsOne, not_or] at h
    simp only [SVals.enc, enc_needless hv h.1, encAll_needless hr h.2, List.nil_append]

end

section
variable {A : Type} {d : DeriveIf A} {has : Ty → A → Prop}

theorem omitted_post {post : List FieldM} {ws : List (Val A)} (h : SerdeOk d.sd has post)
    (hn : ∀ g ∈ post, ¬ Needs (d.sd.sch (g.attrs, g.ty))) (hw : List.Forall₂ (fun f w => HasTy has w f.ty) post ws) :
    SmallAll (d.serAll (schemaOf post) ws) → (d.serAll (schemaOf post) ws).enc = [] := by
  induction hw with
  | nil => exact fun _ => rfl
  | @cons g u fs ws hg hr ih =>
    have ih := ih (fun g hg => h g (List.mem_cons_of_mem _ hg)) fun g hg => hn g (List.mem_cons_of_mem _ hg)
    rw [schemaOf] at ih
    simp only [schemaOf, List.map_cons, DeriveIf.serAll]
    split
    · exact ih
    · intro hs
      simp only [SVals.enc, ih hs.2, enc_needless ((h g (by simp) u hg).1 hs.1) (hn g (by simp)), List.nil_append]

theorem omitted (p : Policy) {f : FieldM} {w : Val A} (h1 : d.omits (f.attrs, f.ty) w = true) (h2 : skipsDe f.attrs = false)
    (h3 : Needs (d.sd.sch (f.attrs, f.ty))) {post : List FieldM} {ws2 : List (Val A)} (hp : SerdeOk d.sd has post)
    (hn : ∀ g ∈ post, ¬ Needs (d.sd.sch (g.attrs, g.ty))) (hw2 : List.Forall₂ (fun f w => HasTy has w f.ty) post ws2)
    {pre : List FieldM} {ws1 : List (Val A)} (h : SerdeOk d.sd has (pre.filter fun f => !skipsDe f.attrs))
    (hw : List.Forall₂ (fun f w => HasTy has w f.ty ∧ d.omits (f.attrs, f.ty) w = skipsDe f.attrs) pre ws1) :
    ∀ buf, SmallAll (d.serAll (schemaOf (pre ++ f :: post)) (ws1 ++ w :: ws2)) →
      (d.schs (schemaOf (pre ++ f :: post))).decAll p buf (d.serAll (schemaOf (pre ++ f :: post)) (ws1 ++ w :: ws2)).enc = none := by
  induction hw with
  | nil =>
    intro buf hs
    simp only [List.nil_append, schemaOf, List.map_cons, DeriveIf.serAll, h1, if_true] at hs
    have he := omitted_post (d := d) hp hn hw2 hs
    rw [schemaOf] at he
    simp only [List.nil_append, schemaOf, List.map_cons, Derive.schs, DeriveIf.serAll, h1, h2, if_true,
      Bool.false_eq_true, if_false, Schs.decAll, he]
    cases hd : (d.sd.sch (f.attrs, f.ty)).dec p buf [] with
    | none => rfl
    | some q =>
      obtain ⟨v, buf', b⟩ := q
      exact absurd h3 (dec_empty p _ _ _ _ _ hd).2
  | @cons g u fs ws hg hr ih =>
    intro buf
    obtain ⟨hg, hs⟩ := hg
    simp only [List.cons_append, schemaOf, List.map_cons, DeriveIf.serAll, Derive.schs, hs]
    cases hk : skipsDe g.attrs with
    | true =>
      rw [List.filter_cons_of_neg (by simp [hk])] at h
      simpa [schemaOf] using ih h buf
    | false =>
      rw [List.filter_cons_of_pos (by simp [hk])] at h
      simp only [Bool.false_eq_true, if_false]
      intro hsm
      obtain ⟨g1, -⟩ := h g (by simp) u hg
      simp only [SVals.enc, Schs.decAll, dec_enc p (g1 hsm.1), ReadsBack]
      cases p.takes (chunks (d.sd.ser (g.attrs, g.ty) u)) buf with
      | none => rfl
      | some b =>
        simp only [Option.bind_eq_bind, Option.map_some, Option.bind_some]
        have := ih (fun g hg => h g (List.mem_cons_of_mem _ hg)) b
        rw [schemaOf] at this
        rw [this hsm.2]
        rfl

end

theorem forall2_split {α β : Type} {R : α → β → Prop} {f : α} {post : List α} : ∀ {pre : List α} {ws : List β},
    List.Forall₂ R (pre ++ f :: post) ws → ∃ ws1 w ws2, ws = ws1 ++ w :: ws2 ∧ List.Forall₂ R pre ws1 ∧ R f w ∧ List.Forall₂ R post ws2
  | [], _, .cons h hr => ⟨[], _, _, rfl, .nil, h, hr⟩
  | _ :: _, _, .cons h hr => by
    obtain ⟨ws1, w, ws2, rfl, h1, h2, h3⟩ := forall2_split hr
    exact ⟨_ :: ws1, w, ws2, rfl, .cons h h1, h2, h3⟩

/-- **C90.** `skip_serializing_if` is a trap of the same kind: if, for a call, the last field that takes any bytes is omitted but
not skipped when reading, then what is recorded for that call cannot be replayed. (`default`, which makes this work for formats
that are self-describing, changes nothing.) -/
theorem C90_omitted {A : Type} (S : Sem A) (has : Ty → A → Prop) (hS : Lawful S has) (d : DeriveIf A) (p : Policy) (x : ArgsIn)
    (n n' : Nat) (pre : List FieldM) (f : FieldM) (post : List FieldM) (h : argsFields x n = .ok (pre ++ f :: post, n'))
    (tys : List Ty) (vs : List (Val A))
    (hcall : TypedCall S has x.impl x.convert x.inputs tys vs) (hbind : (hidingNames ++ x.inputs.filterMap (·.binder)).Nodup)
    (hfl : ∀ g ∈ pre ++ f :: post, flattens g.attrs = false)
    (args : ArgsVal A) (hargs : buildArgsVal S (recordingEnv (argEnv x.inputs vs)) (pre ++ f :: post) = some args)
    (hf : ∀ a, args[pre.length]? = some a → d.omits (f.attrs, f.ty) a.2.2 = true)
    (h2 : skipsDe f.attrs = false) (h3 : Needs (d.sd.sch (f.attrs, f.ty)))
    (hpre : ∀ (k : Nat) g a, pre[k]? = some g → args[k]? = some a → d.omits (g.attrs, g.ty) a.2.2 = skipsDe g.attrs)
    (hpost : ∀ g ∈ post, ¬ Needs (d.sd.sch (g.attrs, g.ty)))
    (hsd : SerdeOk d.sd has (pre.filter fun f => !skipsDe f.attrs)) (hsd' : SerdeOk d.sd has post) :
    ∃ vals, vals = d.serAll (schemaOf (pre ++ f :: post)) (args.map (·.2.2)) ∧
      serArgs S (d.post p) x.inputs (pre ++ f :: post) vs = .ok (postSerialize (.tuple vals)) ∧
      (SmallAll vals → deArgs S (d.post p) tys (pre ++ f :: post) (postSerialize (.tuple vals)) = none) := by
  have hm : writesMap (schemaOf (pre ++ f :: post)) = false := by
    rw [writesMap, List.any_eq_false]
    intro t ht
    obtain ⟨f, hf, rfl⟩ := List.mem_map.mp ht
    simp [hfl f hf]
  have hm' : readsMap (schemaOf (pre ++ f :: post)) = false := by
    rw [readsMap, List.any_eq_false]
    intro t ht
    obtain ⟨f, hf, rfl⟩ := List.mem_map.mp ht
    simp [hfl f hf]
  obtain ⟨fs1, c', k1, hfs, -⟩ := argsFields_ok h
  obtain ⟨hF, -⟩ := mapArgs_ok (ofOpts_get_ne_none x.convert) k1
  obtain ⟨ws, g1, g2, -⟩ := fields_build hS (phantomFields_idents x.generics n).2.2.2 hcall hF
    (env := recordingEnv (argEnv x.inputs vs)) (recordingEnv_get hbind)
  rw [← hfs] at g1 g2
  have hw : (((pre ++ f :: post).zip ws).map fun p => (p.1.ident, p.1.ty, p.2)).map (·.2.2) = ws := by
    rw [List.map_map]
    exact List.map_snd_zip (Nat.le_of_eq g2.length_eq.symm)
  obtain rfl := Option.some.inj (g1.symm.trans hargs)
  refine ⟨_, rfl, ?_, fun hsm => ?_⟩
  · unfold serArgs
    rw [g1]
    simp only [DeriveIf.post, DeriveIf.codec, hm, Bool.false_eq_true, if_false]
  · rw [hw] at hsm ⊢
    obtain ⟨ws1, w, ws2, rfl, j1, j2, j3⟩ := forall2_split g2
    have hlen := j1.length_eq
    have hget : ∀ (k : Nat) (g : FieldM) (u : Val A), (pre ++ f :: post)[k]? = some g → (ws1 ++ w :: ws2)[k]? = some u →
        (((pre ++ f :: post).zip (ws1 ++ w :: ws2)).map fun p => (p.1.ident, p.1.ty, p.2))[k]? = some (g.ident, g.ty, u) := by
      intro k g u hg hu
      rw [List.getElem?_map, (List.getElem?_zip_eq_some (z := (g, u))).mpr ⟨hg, hu⟩]
      rfl
    have hom := hf (f.ident, f.ty, w) (hget _ _ _ (by simp) (by simp [hlen]))
    have hpre' : List.Forall₂ (fun f w => HasTy has w f.ty ∧ d.omits (f.attrs, f.ty) w = skipsDe f.attrs) pre ws1 := by
      rw [List.forall₂_iff_get]
      refine ⟨hlen, fun i hi hi' => ⟨(List.forall₂_iff_get.mp j1).2 i hi hi', ?_⟩⟩
      refine hpre i _ _ (List.getElem?_eq_getElem hi) (hget i pre[i] ws1[i] ?_ ?_)
      · rw [List.getElem?_append_left hi, List.getElem?_eq_getElem hi]
      · rw [List.getElem?_append_left hi', List.getElem?_eq_getElem hi']
    have := omitted p hom h2 h3 hsd' hpost j3 hsd hpre' slidingBufferSize hsm
    unfold deArgs
    simp only [DeriveIf.post, DeriveIf.codec, hm', Derive.codec, postDeserialize, postSerialize, Sch.dec, SVal.enc, this,
      Bool.false_eq_true, if_false]
    rfl

/-! ## Cases -/

namespace OmitDemo

open RoundDemo

def attr : Str := c%"serde(skip_serializing_if = \"is_zero\")"

/-- `fn target(b: &str, #[serde(skip_serializing_if = "is_zero")] a: u8)` -/
def x : ArgsIn where
  impl := none
  generics := [.ty c%"T"]
  convert := []
  inputs := [.typed [] ⟨[c%"b"], true⟩ (.ref none false str), .typed [attr] ⟨[c%"a"], true⟩ u8]

def fb : FieldM := ⟨[], c%"b", .name c%"String", .toOwned (.var c%"b"), some (.asStr false c%"b")⟩
def fa : FieldM := ⟨[attr], c%"a", u8, .cloneAs u8 (.var c%"a"), some (.field c%"a")⟩
def ft : FieldM := ⟨[], c%"_0", tyPhantom (.ty (.name c%"T") .nil), .phantom, none⟩

theorem fields_eq : argsFields x 0 = .ok ([fb] ++ fa :: [ft], 1) := by decide +kernel

def derive : DeriveIf DV where
  sd := sd
  dflt := fun _ => .base (.num 0)
  cond := fun _ w => match w with | .base (.num 0) => true | _ => false
  flatDe := fun _ _ => none

theorem typed (k : Nat) (hk : k < 256) (s : Str) :
    TypedCall sem has x.impl x.convert x.inputs [.ref none false str, u8] [.ref false (.str s), .base (.num k)] := by
  refine .cons (.free _ _ _ (by simp)) (.ref _ _ (.str _ _)) trivial ?_ (by simp [FnArg.attrs]) (by simp [FnArg.binder]) <|
    .cons (.free _ _ _ (by simp)) (.base ?_ ⟨fun _ => ⟨k, hk, rfl⟩, fun h => (by cases h), fun h => (by cases h)⟩) ?_
      (by simp [FnArg.attrs]) (fun _ => trivial) (by simp [FnArg.binder]) .nil
  · rintro _ u s a _ ⟨p, hp, -⟩
    simp [x] at hp
  · rintro ⟨l, hl⟩; cases hl
  · rintro ⟨l, hl⟩; cases hl

theorem opaque_ty {w : Val DV} {t : Ty} (ht : Opaque t) (h : HasTy has w t) : ∃ a, w = .base a ∧ has t a := by
  cases h with
  | base _ h => exact ⟨_, rfl, h⟩
  | str s lead => exact absurd ⟨_, rfl⟩ ht
  | slice => exact ht.elim
  | ref => exact ht.elim

theorem serdeOk_str {f : FieldM} (hf : f.ty = .name c%"String") : SerdeOk derive.sd has [f] := by
  intro g hg w hw
  obtain rfl := List.mem_singleton.mp hg
  rw [hf] at hw
  obtain ⟨a, rfl, ha⟩ := opaque_ty (by rintro ⟨l, hl⟩; cases hl) hw
  obtain ⟨s, rfl⟩ := ha.2.1 rfl
  rw [hf]
  exact ⟨.string, rfl⟩

theorem serdeOk_phantom : SerdeOk derive.sd has [ft] := by
  intro g hg w hw
  obtain rfl := List.mem_singleton.mp hg
  obtain ⟨a, rfl, ha⟩ := opaque_ty (by rintro ⟨l, hl⟩; cases hl) hw
  obtain rfl := ha.2.2 rfl
  exact ⟨fun _ => .unit, rfl⟩

/-- `C90_omitted` at work: for 0 two characters and their number are recorded, and nothing can be made of them. -/
example (p : Policy) : serArgs sem (derive.post p) x.inputs ([fb] ++ fa :: [ft]) [.ref false (.str c%"hi"), .base (.num 0)] =
      .ok [2, 104, 105] ∧
    deArgs sem (derive.post p) [.ref none false str, u8] ([fb] ++ fa :: [ft]) [2, 104, 105] = none := by
  obtain ⟨vals, rfl, h1, h2⟩ := C90_omitted sem has lawful derive p x 0 1 [fb] fa [ft] fields_eq _ _ (typed 0 (by decide) c%"hi")
    (by decide) (by decide +kernel) _ rfl (fun a ha => by obtain rfl := Option.some.inj ha; decide +kernel) (by decide +kernel)
    trivial (fun k g a hg ha => by
      cases k with
      | zero =>
        obtain rfl := Option.some.inj hg
        obtain rfl := Option.some.inj ha
        decide +kernel
      | succ k => cases hg)
    (fun g hg => by obtain rfl := List.mem_singleton.mp hg; exact id)
    (serdeOk_str (f := fb) rfl) serdeOk_phantom
  refine ⟨h1, h2 ?_⟩
  have : (utf8Encode c%"hi").length < 2 ^ 64 := by decide +kernel
  exact ⟨this, trivial, trivial⟩

/-- `C90_kept` at work: for 7 the byte is there. -/
example (p : Policy) : serArgs sem (derive.post p) x.inputs ([fb] ++ fa :: [ft]) [.ref false (.str c%"hi"), .base (.num 7)] =
    .ok [2, 104, 105, 7] := by
  refine ((C90_kept sem derive p x.inputs ([fb] ++ fa :: [ft])).1 (by decide +kernel) _ _ rfl ?_).1.trans rfl
  intro k f a hf ha hk
  match k with
  | 0 => obtain rfl := Option.some.inj hf; exact absurd hk (by decide +kernel)
  | 1 => obtain rfl := Option.some.inj hf; obtain rfl := Option.some.inj ha; rfl
  | 2 => obtain rfl := Option.some.inj hf; exact absurd hk (by decide +kernel)
  | k + 3 => cases hf

/-- `fn target(#[serde(skip_serializing_if = "is_zero")] a: u8, b: &str)` -/
def x2 : ArgsIn where
  impl := none
  generics := []
  convert := []
  inputs := [.typed [attr] ⟨[c%"a"], true⟩ u8, .typed [] ⟨[c%"b"], true⟩ (.ref none false str)]

theorem fields2_eq : argsFields x2 0 = .ok ([fa, fb], 0) := by decide +kernel

/-- `fn target(#[serde(flatten)] a: u8, ..)` -/
def x3 : ArgsIn where
  impl := none
  generics := []
  convert := []
  inputs := [.typed [] ⟨[c%"b"], true⟩ (.ref none false str), .typed [c%"serde(flatten)"] ⟨[c%"a"], true⟩ u8]

example (p : Policy) (vs : List (Val DV)) : ∃ fs, argsFields x3 0 = .ok (fs, 0) ∧ serArgs sem (derive.post p) x3.inputs fs vs = .panic := by
  refine ⟨_, rfl, (C90_flatten sem derive p x3 0 0 _ rfl (.typed [c%"serde(flatten)"] ⟨[c%"a"], true⟩ u8) ?_ ?_ ?_ vs).1⟩
  · simp [x3]
  · decide +kernel
  · decide +kernel

example : serdeText [(c%"default", none), (c%"flatten", none)] = c%"serde(default, flatten)" ∧
    flattens [c%"serde(default, flatten)"] = true ∧ omitsIf [c%"serde(default, flatten)"] = false := by decide +kernel

end OmitDemo

open RoundDemo OmitDemo in
/-- **C90.** If another field follows, what was recorded may be replayed, but as another call. With
`fn target(#[serde(skip_serializing_if = "is_zero")] a: u8, b: &str)`, for every string `s` of fewer than 127 bytes there is a
character `c` such that the call with 0 and `c` followed by `s` is recorded in the same file as, and replayed as, the call with the
length of `s` plus one and `s`. -/
theorem C90_misread (p : Policy) (s : Str) (hs : (utf8Encode s).length < 127) :
    argsFields x2 0 = .ok ([fa, fb], 0) ∧ ∃ c : Char, ∀ r,
      serArgs sem (derive.post p) x2.inputs [fa, fb] [.base (.num 0), .ref false (.str (c :: s))] =
        serArgs sem (derive.post p) x2.inputs [fa, fb] [.base (.num ((utf8Encode s).length + 1)), .ref false (.str s)] ∧
      ∃ b, serArgs sem (derive.post p) x2.inputs [fa, fb] [.base (.num 0), .ref false (.str (c :: s))] = .ok b ∧
        deArgs sem (derive.post p) [u8, .ref none false str] [fa, fb] (b ++ r) =
          some [.base (.num ((utf8Encode s).length + 1)), .ref false (.str s)] := by
  refine ⟨fields2_eq, ?_⟩
  obtain ⟨c, hc⟩ := exists_char1 (a := UInt8.ofNat (utf8Encode s).length) (by simp; omega)
  refine ⟨c, fun r => ?_⟩
  have hv : ∀ n, n < 128 → varint n = [UInt8.ofNat n] := fun n hn => by
    unfold varint varintF
    rw [if_pos hn]
  have he : utf8Encode (c :: s) = UInt8.ofNat (utf8Encode s).length :: utf8Encode s := by
    rw [show c :: s = [c] ++ s from rfl, utf8Encode_append, utf8Encode_singleton, hc]
    rfl
  have e1 : serArgs sem (derive.post p) x2.inputs [fa, fb] [.base (.num 0), .ref false (.str (c :: s))] =
      .ok (postSerialize (.tuple (.cons (.string (c :: s)) .nil))) := rfl
  have e2 : serArgs sem (derive.post p) x2.inputs [fa, fb] [.base (.num ((utf8Encode s).length + 1)), .ref false (.str s)] =
      .ok (postSerialize (.tuple (.cons (.byte (UInt8.ofNat ((utf8Encode s).length + 1))) (.cons (.string s) .nil)))) := rfl
  have e3 : postSerialize (.tuple (.cons (.string (c :: s)) .nil)) =
      postSerialize (.tuple (.cons (.byte (UInt8.ofNat ((utf8Encode s).length + 1))) (.cons (.string s) .nil))) := by
    simp only [postSerialize, SVal.enc, SVals.enc, he, List.length_cons, hv _ (show (utf8Encode s).length + 1 < 128 by omega),
      hv _ (show (utf8Encode s).length < 128 by omega), List.append_nil, List.cons_append, List.nil_append]
  refine ⟨by rw [e1, e2, e3], _, e1, ?_⟩
  rw [e3]
  refine ((C90_kept sem derive p x2.inputs [fa, fb]).2 (by decide +kernel) _ _).1.trans ?_
  obtain ⟨args, v, h0, h1, -, h2, -⟩ := C90_skip sem has lawful derive.toDerive p x2 0 0 [fa, fb] fields2_eq
    [u8, .ref none false str] [.base (.num ((utf8Encode s).length + 1)), .ref false (.str s)]
    (by
      refine .cons (.free _ _ _ (by simp)) (.base ?_ ⟨fun _ => ⟨_, by omega, rfl⟩, fun h => (by cases h), fun h => (by cases h)⟩) ?_
          (by simp [FnArg.attrs]) (fun _ => trivial) (by simp [FnArg.binder]) <|
        .cons (.free _ _ _ (by simp)) (.ref _ _ (.str _ _)) trivial ?_ (by simp [FnArg.attrs]) (by simp [FnArg.binder]) .nil
      · rintro ⟨l, hl⟩; cases hl
      · rintro ⟨l, hl⟩; cases hl
      · rintro _ u s a _ ⟨p, hp, -⟩
        simp [x2] at hp) (by decide) (by decide)
    (by
      intro i hi
      simp [x2, ownNames] at hi
      rcases hi with rfl | rfl <;> (rintro ⟨n, h⟩; cases h)) (by decide +kernel)
    (by
      rw [show [fa, fb].filter (fun f => !skipsDe f.attrs) = [fa, fb] from by decide +kernel]
      intro g hg w hw
      rcases List.mem_cons.mp hg with rfl | hg
      · obtain ⟨a, rfl, ha⟩ := opaque_ty (by rintro ⟨l, hl⟩; cases hl) hw
        obtain ⟨n, hn, rfl⟩ := ha.1 rfl
        exact ⟨fun _ => .byte _, by simp [derive, sd, Nat.mod_eq_of_lt hn]⟩
      · exact serdeOk_str (f := fb) rfl g hg w hw)
  obtain rfl : _ = args := Option.some.inj h0
  have h1 : v = .tuple (.cons (.byte (UInt8.ofNat ((utf8Encode s).length + 1))) (.cons (.string s) .nil)) := h1
  subst h1
  refine h2 ⟨trivial, ?_, trivial⟩ ?_ r
  · show (utf8Encode s).length < 2 ^ 64
    omega
  · cases p
    · intro n hn
      simp [chunks, chunksAll] at hn
      omega
    · show List.sum _ ≤ 2048
      simp [chunks, chunksAll]
      omega

end TF
