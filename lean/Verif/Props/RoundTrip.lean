import Verif.Props.ArgsList
import Verif.Props.Harness

/-!
# C13: what is recorded is what the harness calls the target with
-/

namespace TF

open Spec

section
variable {A : Type} {S : Sem A} {has : Ty → A → Prop}

/-- What is to be shown of a field. -/
def Restores (S : Sem A) (has : Ty → A → Prop) (env : Str → Option (Val A)) (f : FieldM) (t : Ty) (v w : Val A) : Prop :=
  f.ser.eval S env = some w ∧ HasTy has w f.ty ∧
    ∃ e, f.de = some e ∧ ∀ args : ArgsVal A, args.lookup f.ident = some (f.ty, w) → e.eval S args t = some v

theorem fieldFor_restores (hS : Lawful S has) {im : ImplM} {convert : List (Ty × Ty)} {a : FnArg} {f : FieldM} {t : Ty}
    {v : Val A} {env : Str → Option (Val A)} (hf : FieldFor im (Convs.ofOpts convert) a f) (ht : ArgTy im a t)
    (hv : HasTy has v t) (hp : Passable t) (hi : a.attrs = [] → Inverse S has convert v t)
    (hcl : a.attrs ≠ [] → Clonable v) {b : Str} (hb : a.binder = some b) (he : env b = some v) :
    ∃ w, Restores S has env f t v w := by
  obtain ⟨t', b', ck, ht', hck, hb', h1, h2⟩ := hf
  obtain rfl := argTy_unique ht' ht
  obtain rfl := hb' b hb
  by_cases ha : a.attrs = []
  · have h1 := h1 ha
    generalize hid : f.ident = i at h1
    obtain ⟨w, g1, g2, g3⟩ := mapTypedArg_adapts hS convert (env := env) i ck
      (fun t a h => lastConv_mem (by rw [← ofOpts_get, ← hck]; exact h)) t' (.var b) v hv hp (hi ha) he
    subst h1
    exact ⟨w, g1, g2, _, rfl, g3⟩
  · have h2 := h2 ha
    generalize hid : f.ident = i at h2
    subst h2
    have hcl := hcl ha
    refine ⟨v, ?_, hv, _, rfl, fun args h => by simp [DeE.eval, h]⟩
    cases v with
    | base x => simp [SerE.eval, he, hS.clone_eq]
    | ref m u => simp only [Clonable] at hcl; subst hcl; simp [SerE.eval, he]
    | str => exact hcl.elim
    | slice => exact hcl.elim

theorem phantoms_build (hS : Lawful S has) {env : Str → Option (Val A)} : ∀ (ph : List FieldM),
    (∀ f ∈ ph, f.de = none ∧ f.ser = .phantom ∧ ∃ ps, f.ty = tyPhantom ps) →
    ∃ ws, buildArgsVal S env ph = some ((ph.zip ws).map fun p => (p.1.ident, p.1.ty, p.2)) ∧
      List.Forall₂ (fun f w => HasTy has w f.ty) ph ws ∧ ∀ args : ArgsVal A, callArgs S args ph [] = some []
  | [], _ => ⟨[], rfl, .nil, fun _ => rfl⟩
  | f :: ph, h => by
    obtain ⟨ws, h1, h2, h3⟩ := phantoms_build hS ph fun f hf => h f (List.mem_cons_of_mem _ hf)
    obtain ⟨g1, g2, ps, g3⟩ := h f (by simp)
    refine ⟨.base S.phantom :: ws, ?_, .cons ?_ h2, fun args => ?_⟩
    · rw [buildArgsVal, g2, h1]; rfl
    · rw [g3]
      refine .base ?_ (hS.phantom_has ps)
      rintro ⟨l, hl⟩; cases hl
    · rw [callArgs, g1]; exact h3 args

theorem fields_build (hS : Lawful S has) {im : ImplM} {convert : List (Ty × Ty)} {env : Str → Option (Val A)}
    {ph : List FieldM} (hph : ∀ f ∈ ph, f.de = none ∧ f.ser = .phantom ∧ ∃ ps, f.ty = tyPhantom ps) :
    ∀ {l : List FnArg} {ts : List Ty} {vs : List (Val A)} {fs : List FieldM}, TypedCall S has im convert l ts vs →
      List.Forall₂ (FieldFor im (Convs.ofOpts convert)) l fs →
      (∀ (k : Nat) a b v, l[k]? = some a → a.binder = some b → vs[k]? = some v → env b = some v) →
      ∃ ws, buildArgsVal S env (fs ++ ph) = some (((fs ++ ph).zip ws).map fun p => (p.1.ident, p.1.ty, p.2)) ∧
        List.Forall₂ (fun f w => HasTy has w f.ty) (fs ++ ph) ws ∧
        ∀ args : ArgsVal A, (∀ p ∈ (fs ++ ph).zip ws, args.lookup p.1.ident = some (p.1.ty, p.2)) →
          callArgs S args (fs ++ ph) ts = some vs
  | _, _, _, _, .nil, .nil, _ => by
    obtain ⟨ws, h1, h2, h3⟩ := phantoms_build hS (env := env) ph hph
    exact ⟨ws, h1, h2, fun args _ => h3 args⟩
  | _, _, _, f :: fs, .cons (a := a) (v := v) ht hv hp hi hcl hb hr, .cons hf hF, henv => by
    obtain ⟨ws, h1, h2, h3⟩ := fields_build hS hph hr hF fun k a b v ha hb hv => henv (k + 1) a b v ha hb hv
    obtain ⟨b, hb⟩ := Option.ne_none_iff_exists'.mp hb
    obtain ⟨w, g1, g2, e, g3, g4⟩ := fieldFor_restores hS hf ht hv hp hi hcl hb (henv 0 a b v rfl hb rfl)
    refine ⟨w :: ws, ?_, .cons g2 h2, fun args ha => ?_⟩
    · rw [List.cons_append, buildArgsVal, g1, h1]; rfl
    · rw [List.cons_append, callArgs, g3]
      simp only
      rw [g4 args (ha (f, w) (by simp)), h3 args fun p hp => ha p (List.mem_cons_of_mem _ hp)]

theorem argEnv_get : ∀ {l : List FnArg} {vs : List (Val A)}, (l.filterMap (·.binder)).Nodup →
    ∀ (k : Nat) a b v, l[k]? = some a → a.binder = some b → vs[k]? = some v → argEnv l vs b = some v
  | [], _, _, k, a, b, v, ha, _, _ => by simp at ha
  | x :: l, [], _, k, a, b, v, _, _, hv => by simp at hv
  | x :: l, u :: vs, hd, 0, a, b, v, ha, hb, hv => by
    simp at ha hv
    subst ha hv
    simp [argEnv, hb]
  | x :: l, u :: vs, hd, k + 1, a, b, v, ha, hb, hv => by
    simp only [List.getElem?_cons_succ] at ha hv
    have hne : x.binder ≠ some b := by
      intro h
      rw [List.filterMap_cons_some h, List.nodup_cons] at hd
      exact hd.1 (List.mem_filterMap.mpr ⟨a, List.mem_of_getElem? ha, hb⟩)
    have hd' : (l.filterMap (·.binder)).Nodup := by
      rw [List.filterMap_cons] at hd
      split at hd
      · exact hd
      · exact (List.nodup_cons.mp hd).2
    rw [argEnv, if_neg hne]
    exact argEnv_get hd' k a b v ha hb hv

theorem recordingEnv_get {l : List FnArg} {vs : List (Val A)} (h : (hidingNames ++ l.filterMap (·.binder)).Nodup) (k : Nat) (a b v)
    (ha : l[k]? = some a) (hb : a.binder = some b) (hv : vs[k]? = some v) : recordingEnv (argEnv l vs) b = some v := by
  rw [List.nodup_append] at h
  have hm : b ∈ l.filterMap (·.binder) := List.mem_filterMap.mpr ⟨a, List.mem_of_getElem? ha, hb⟩
  unfold recordingEnv
  rw [if_neg, argEnv_get h.2.1 k a b v ha hb hv]
  rintro (rfl | rfl)
  · exact h.2.2 _ (by simp [hidingNames]) _ hm rfl
  · exact h.2.2 _ (by simp [hidingNames]) _ hm rfl

theorem lookup_zip : ∀ {fs : List FieldM} {ws : List (Val A)}, (fs.map (·.ident)).Nodup →
    ∀ p ∈ fs.zip ws, ((fs.zip ws).map fun p => (p.1.ident, p.1.ty, p.2)).lookup p.1.ident = some (p.1.ty, p.2)
  | [], _, _, p, hp => by simp at hp
  | f :: fs, [], _, p, hp => by simp at hp
  | f :: fs, w :: ws, hd, p, hp => by
    rw [List.map_cons, List.nodup_cons] at hd
    rw [List.zip_cons_cons] at hp ⊢
    rw [List.map_cons, List.lookup_cons]
    rcases List.mem_cons.mp hp with rfl | hp
    · simp
    · have : (p.1.ident == f.ident) = false := by
        rw [beq_eq_false_iff_ne]
        intro h
        exact hd.1 (h ▸ List.mem_map_of_mem (List.of_mem_zip hp).1)
      rw [this]
      exact lookup_zip hd.2 p hp

end

/-- **C13.** For all parameter lists – with receivers, references, `str`, slices, generics, conversions and serde
attributes – and all values: if the arguments are serialised to `b`, then reading an input that begins with `b` yields
those values. The format is assumed to give back values of the fields' types. -/
theorem C13_round_trip {A : Type} (S : Sem A) (has : Ty → A → Prop) (hS : Lawful S has) (cd : Codec A) (x : ArgsIn)
    (n n' : Nat) (fs : List FieldM) (h : argsFields x n = .ok (fs, n')) (tys : List Ty) (vs : List (Val A))
    (hcall : TypedCall S has x.impl x.convert x.inputs tys vs) (hbind : (hidingNames ++ x.inputs.filterMap (·.binder)).Nodup)
    (hnames : (ownNames x.inputs).Nodup) (hnum : ∀ i ∈ ownNames x.inputs, ¬ IsNumbered i)
    (hcd : ∀ ws, List.Forall₂ (fun f w => HasTy has w f.ty) fs ws → RoundTrip cd (schemaOf fs) ws)
    (b : Bytes) (hb : serArgs S cd x.inputs fs vs = .ok b) (r : Bytes) : deArgs S cd tys fs (b ++ r) = some vs := by
  have hd := C55_distinct x n n' fs h hnames hnum
  obtain ⟨fs1, c', h1, rfl, -⟩ := argsFields_ok h
  obtain ⟨hF, -⟩ := mapArgs_ok (ofOpts_get_ne_none x.convert) h1
  obtain ⟨ws, g1, g2, g3⟩ := fields_build hS (phantomFields_idents x.generics n).2.2.2 hcall hF
    (env := recordingEnv (argEnv x.inputs vs)) (recordingEnv_get hbind)
  unfold serArgs at hb
  rw [g1] at hb
  simp only at hb
  have hlen := g2.length_eq
  have hw : (((fs1 ++ (phantomFields n x.generics).1).zip ws).map fun p => (p.1.ident, p.1.ty, p.2)).map (·.2.2) = ws := by
    rw [List.map_map]
    exact List.map_snd_zip (Nat.le_of_eq hlen.symm)
  rw [hw] at hb
  unfold deArgs
  rw [hcd ws g2 b hb r]
  exact g3 _ (lookup_zip hd)

/-- **C13.** Recording always produces a value of `Args` in such cases: serialisation fails only if the format does. -/
theorem C13_recordable {A : Type} (S : Sem A) (has : Ty → A → Prop) (hS : Lawful S has) (cd : Codec A) (x : ArgsIn)
    (n n' : Nat) (fs : List FieldM) (h : argsFields x n = .ok (fs, n')) (tys : List Ty) (vs : List (Val A))
    (hcall : TypedCall S has x.impl x.convert x.inputs tys vs) (hbind : (hidingNames ++ x.inputs.filterMap (·.binder)).Nodup) :
    ∃ ws, List.Forall₂ (fun f w => HasTy has w f.ty) fs ws ∧ serArgs S cd x.inputs fs vs = cd.enc (schemaOf fs) ws := by
  obtain ⟨fs1, c', h1, rfl, -⟩ := argsFields_ok h
  obtain ⟨hF, -⟩ := mapArgs_ok (ofOpts_get_ne_none x.convert) h1
  obtain ⟨ws, g1, g2, g3⟩ := fields_build hS (phantomFields_idents x.generics n).2.2.2 hcall hF
    (env := recordingEnv (argEnv x.inputs vs)) (recordingEnv_get hbind)
  refine ⟨ws, g2, ?_⟩
  unfold serArgs
  rw [g1]
  simp only
  congr 1
  rw [List.map_map]
  exact List.map_snd_zip (Nat.le_of_eq g2.length_eq.symm)

theorem mapTypedArg_none {A : Type} {S : Sem A} {env : Str → Option (Val A)} (i : Str) (c : Convs) :
    ∀ (e : SerE) (t : Ty), e.eval S env = none → (mapTypedArg i c e t).ser.eval S env = none
  | e, .path q lead segs, h => by
    unfold mapTypedArg
    split <;> simp [SerE.eval, mapPathArg, h]
  | e, .slice t, h => by
    unfold mapTypedArg
    split <;> simp [SerE.eval, mapPathArg, h]
  | e, .other ps, h => by
    unfold mapTypedArg
    split <;> simp [SerE.eval, mapPathArg, h]
  | e, .ref lt m t, h => by
    have hd : (SerE.deref e).eval S env = none := by simp [SerE.eval, h]
    unfold mapTypedArg
    split
    · simp [SerE.eval, h]
    · split
      · split
        · simp [SerE.eval, h]
        · simp [SerE.eval, mapPathArg, h]
      · simp [SerE.eval, h]
      · exact mapTypedArg_none i c _ _ hd

theorem buildArgsVal_none {A : Type} {S : Sem A} {env : Str → Option (Val A)} {fs : List FieldM} {f : FieldM} (hf : f ∈ fs)
    (h : f.ser.eval S env = none) : buildArgsVal S env fs = none := by
  induction fs with
  | nil => simp at hf
  | cons g fs ih =>
    unfold buildArgsVal
    rcases List.mem_cons.mp hf with rfl | hf
    · rw [h]
    · rw [ih hf]; cases g.ser.eval S env <;> rfl

/-- **C13.** The condition on names is necessary: with an argument called `generic_args` or `impl_generic_args` there is no value
of `Args`, whatever the arguments (the function does not compile). -/
theorem C13_hidden {A : Type} (S : Sem A) (cd : Codec A) (x : ArgsIn) (n n' : Nat) (fs : List FieldM)
    (h : argsFields x n = .ok (fs, n')) (a : FnArg) (ha : a ∈ x.inputs) (b : Str) (hb : a.binder = some b) (hh : b ∈ hidingNames)
    (vs : List (Val A)) : serArgs S cd x.inputs fs vs = .panic := by
  obtain ⟨fs1, c', h1, rfl, -⟩ := argsFields_ok h
  obtain ⟨hF, -⟩ := mapArgs_ok (ofOpts_get_ne_none x.convert) h1
  obtain ⟨f, hf, hff⟩ : ∃ f ∈ fs1, FieldFor x.impl (Convs.ofOpts x.convert) a f := by
    clear h h1
    generalize x.inputs = l at hF ha
    induction hF with
    | nil => simp at ha
    | cons hx _ ih =>
      rcases List.mem_cons.mp ha with rfl | ha
      · exact ⟨_, List.mem_cons_self, hx⟩
      · obtain ⟨f, hf, h⟩ := ih ha
        exact ⟨f, List.mem_cons_of_mem _ hf, h⟩
  have hn : (SerE.var b).eval S (recordingEnv (argEnv x.inputs vs)) = none := by
    simp only [SerE.eval, recordingEnv]
    rw [if_pos (by simpa [hidingNames] using hh)]
  unfold serArgs
  rw [buildArgsVal_none (List.mem_append_left _ hf)]
  obtain ⟨t, b', ck, -, -, hb', h1, h2⟩ := hff
  obtain rfl := hb' b hb
  by_cases he : a.attrs = []
  · have h1 := h1 he
    generalize f.ident = i at h1
    subst h1
    exact mapTypedArg_none _ _ _ _ hn
  · have h2 := h2 he
    generalize f.ident = i at h2
    subst h2
    simp only [SerE.eval] at hn ⊢
    rw [hn]

/-- **C13.** From the recording of a call to its replay: a call that is to be recorded stores a file, unless recording
fails; whenever a harness of the same target – in another process, with any state – is given the contents of that file
(and possibly more) to fuzz or replay, it calls the target exactly once, with the recorded arguments. -/
theorem C13_record_replay {A R : Type} (S : Sem A) (has : Ty → A → Prop) (hS : Lawful S has) (cd : Codec A) (x : ArgsIn)
    (n n' : Nat) (fs : List FieldM) (h : argsFields x n = .ok (fs, n')) (tys : List Ty) (vs : List (Val A))
    (hcall : TypedCall S has x.impl x.convert x.inputs tys vs) (hbind : (hidingNames ++ x.inputs.filterMap (·.binder)).Nodup)
    (hnames : (ownNames x.inputs).Nodup) (hnum : ∀ i ∈ ownNames x.inputs, ¬ IsNumbered i)
    (hcd : ∀ ws, List.Forall₂ (fun f w => HasTy has w f.ty) fs ws → RoundTrip cd (schemaOf fs) ws)
    (m : MacroIn) (typeName : Str) (it ty : List (Val A) → List Str) (autos : List (List (Val A)))
    (hm : m.onlyGenericArgs = false) (he : hasEntry m = true) (c : Setting)
    (hc : Due c.ctx.env c.test m.enableInProduction) (body : Proc (List (Val A)) R → Out R × Proc (List (Val A)) R)
    (s : Proc (List (Val A)) R) :
    let t := targetOf S cd m typeName it ty autos x tys fs
    (∃ l k l', (callInstrumented c t vs body s).2.log = s.log ++ l ++ .recordFailed k :: l' ∧
      ((callInstrumented c t vs body s).1 = .panic ∨ (callInstrumented c t vs body s).1 = .crash)) ∨
    ∃ dc data w w', corpusDirFromArgsType c.ctx typeName = .ok dc ∧ Stored dc data w w' ∧
      (∃ l, callInstrumented c t vs body s = body { s with world := w', log := s.log ++ l ++ [.body vs] }) ∧
      ∀ (c2 : Setting) (body2 : List (Val A) → Prog (List (Val A)) R) (s2 : Proc (List (Val A)) R) (junk : Bytes),
        c2.test = true → Fuzzing c2.ctx.env ∨ Replaying c2.ctx.env → c2.stdin = data ++ junk →
        ∃ l l', (runHarness c2 t body2 s2).2.log = s2.log ++ l ++ .call vs :: .body vs :: l' ∧ calls l = [] ∧
          calls l' = [] := by
  intro t
  rcases C07_due c t vs body s hc with ⟨w, di, w1, dg, w2, w3, -, -, -, -, -, h6, -, h8⟩ | ⟨l, k, l', h1, h2, -⟩
  · obtain ⟨dc, data, g1, g2, g3⟩ := h6 hm
    refine .inr ⟨dc, data, w2, w3, g1, g3, ⟨_, by rw [h8, List.append_assoc s.log]⟩, fun c2 body2 s2 junk hc2 hf hstd => ?_⟩
    refine C11_called_once c2 t body2 s2 he hc2 hf vs ?_
    rw [hstd]
    exact C13_round_trip S has hS cd x n n' fs h tys vs hcall hbind hnames hnum hcd data g2 junk
  · exact .inl ⟨l, k, l', h1, h2⟩

/-! ## A case -/

namespace RoundDemo

/-- Numbers, strings, vectors and `PhantomData`. -/
inductive DV where
  | num (n : Nat)
  | str (s : Str)
  | vec (l : List DV)
  | unit

def sem : Sem DV where
  clone := id
  string := .str
  asStr := fun | .str s => s | _ => []
  vec := .vec
  asSlice := fun | .vec l => l | _ => []
  phantom := .unit
  fromRef := fun _ _ v => match v with | .base (.num n) => .num (n + 1) | _ => .unit
  into := fun _ _ v => match v with | .base (.num (n + 1)) => .base (.num n) | v => v

def u8 : Ty := .name c%"u8"
def wide : Ty := .name c%"Wide"
def str : Ty := .name c%"str"

def has (t : Ty) (a : DV) : Prop :=
  (t = u8 → ∃ n, n < 256 ∧ a = .num n) ∧ (t = .name c%"String" → ∃ s, a = .str s) ∧
    (t = tyPhantom (.ty (.name c%"T") .nil) → a = .unit)

theorem lawful : Lawful sem has where
  clone_eq _ := rfl
  asStr_string _ := rfl
  asSlice_vec _ := rfl
  string_has s := ⟨fun h => (by cases h), fun _ => ⟨s, rfl⟩, fun h => (by cases h)⟩
  vec_has l t _ := ⟨fun h => (by cases h), fun h => (by cases h), fun h => (by cases h)⟩
  phantom_has ps := ⟨fun h => (by cases h), fun h => (by cases h), fun _ => rfl⟩

/-- `fn f<T>(&self, a: &mut &str, b: Wide)` in `impl u8`, with `convert = "Wide, u8"`. -/
def x : ArgsIn where
  impl := some ⟨none, u8⟩
  generics := [.ty c%"T"]
  convert := [(wide, u8)]
  inputs := [.receiver [] false (.reference none false), .typed [] ⟨[c%"a"], true⟩ (.ref none true (.ref none false str)),
    .typed [] ⟨[c%"b"], true⟩ wide]

def fields : List FieldM :=
  [⟨[], c%"_1", u8, .clone (.deref (.var c%"self")), some (.borrow false (.field c%"_1"))⟩,
   ⟨[], c%"a", .name c%"String", .toOwned (.deref (.var c%"a")), some (.borrow true (.asStr false c%"a"))⟩,
   ⟨[], c%"b", u8, .fromRef u8 wide (.var c%"b"), some (.into c%"b")⟩,
   ⟨[], c%"_0", tyPhantom (.ty (.name c%"T") .nil), .phantom, none⟩]

theorem fields_eq : argsFields x 0 = .ok (fields, 2) := by decide +kernel

def tys : List Ty := [.ref none false u8, .ref none true (.ref none false str), wide]

def vs : List (Val DV) := [.ref false (.base (.num 7)), .ref true (.ref false (.str c%"hi")), .base (.num 41)]

theorem typed : TypedCall sem has x.impl x.convert x.inputs tys vs := by
  have no : ∀ (v u : Val DV) (t s a : Ty), Behind v t u s → (∃ p ∈ x.convert, p.1.toks = s.toks ∧ p.2 = a) →
      s.toks = [c%"Wide"] ∧ a = u8 := by
    intro v u t s a _ hp
    simp only [x, List.mem_singleton, exists_eq_left] at hp
    exact ⟨hp.1.symm, hp.2.symm⟩
  refine .cons (.recvRef ..) (.ref _ _ (.base ?_ ⟨fun _ => ⟨7, by decide, rfl⟩, fun h => (by cases h), fun h => (by cases h)⟩)) trivial ?_ (by simp [FnArg.attrs]) (by simp [FnArg.binder]) <|
    .cons (.method _ _ _ _ _ (by simp) rfl) (.ref _ _ (.ref _ _ (.str _ _))) trivial ?_ (by simp [FnArg.attrs]) (by simp [FnArg.binder]) <|
    .cons (.method _ _ _ _ _ (by simp) rfl) (.base ?_ ⟨fun h => (by cases h), fun h => (by cases h), fun h => (by cases h)⟩) ?_ ?_
      (by simp [FnArg.attrs]) (by simp [FnArg.binder]) .nil
  · rintro ⟨l, hl⟩; cases hl
  · intro _ u s a hb hp
    have h := (no _ _ _ _ _ hb hp).1
    cases hb with
    | here => cases h
    | ref _ _ hb => cases hb; cases h
  · intro _ u s a hb hp
    have h := (no _ _ _ _ _ hb hp).1
    cases hb with
    | here => cases h
    | ref _ _ hb =>
      cases hb with
      | here => cases h
      | ref _ _ hb => cases hb; cases h
  · rintro ⟨l, hl⟩; cases hl
  · rintro ⟨l, hl⟩; cases hl
  · intro _ u s a hb hp
    obtain ⟨h, rfl⟩ := no _ _ _ _ _ hb hp
    cases hb with
    | here =>
      exact ⟨.base (by rintro ⟨l, hl⟩; cases hl) ⟨fun _ => ⟨42, by decide, rfl⟩, fun h => (by cases h), fun h => (by cases h)⟩, rfl⟩

/-- A format for the fields above: strings have at most 255 characters, all of them below 256. -/
def cd : Codec DV where
  enc := fun _ ws => match ws with
    | [.base (.num a), .base (.str s), .base (.num b), .base .unit] =>
      if a < 256 ∧ b < 256 ∧ s.length < 256 ∧ ∀ c ∈ s, c.toNat < 256 then
        .ok (UInt8.ofNat a :: UInt8.ofNat b :: UInt8.ofNat s.length :: s.map fun c => UInt8.ofNat c.toNat)
      else .err []
    | _ => .err []
  dec := fun _ d => match d with
    | a :: b :: l :: r => some [.base (.num a.toNat), .base (.str ((r.take l.toNat).map fun x => Char.ofNat x.toNat)),
        .base (.num b.toNat), .base .unit]
    | _ => none

theorem cd_ok (sch : List (List Str × Ty)) (ws : List (Val DV)) : RoundTrip cd sch ws := by
  intro b hb r
  simp only [cd] at hb
  split at hb
  · rename_i a s c
    split at hb
    · rename_i h
      cases hb
      have hs : ((s.map fun c => UInt8.ofNat c.toNat).map fun x => Char.ofNat x.toNat) = s := by
        rw [List.map_map]
        conv_rhs => rw [← List.map_id s]
        refine List.map_congr_left fun c hc => ?_
        have := h.2.2.2 c hc
        simp [Nat.mod_eq_of_lt this]
      simp only [cd, List.cons_append]
      rw [List.take_append_of_le_length (by simp [Nat.mod_eq_of_lt h.2.2.1]),
        List.take_of_length_le (by simp [Nat.mod_eq_of_lt h.2.2.1]), hs]
      simp [Nat.mod_eq_of_lt h.1, Nat.mod_eq_of_lt h.2.1]
    · cases hb
  · cases hb

/-- `C13_round_trip` at work. -/
example (r : Bytes) : ∃ b, serArgs sem cd x.inputs fields vs = .ok b ∧ deArgs sem cd tys fields (b ++ r) = some vs := by
  refine ⟨[7, 42, 2, 104, 105], by rfl, ?_⟩
  exact C13_round_trip sem has lawful cd x 0 2 fields fields_eq tys vs typed (by decide) (by decide)
    (by
      intro i hi
      simp [x, ownNames] at hi
      rcases hi with rfl | rfl <;> (rintro ⟨n, h⟩; cases h))
    (fun ws _ => cd_ok _ ws) [7, 42, 2, 104, 105] (by rfl) r

/-- `C13_hidden` at work: `fn f(generic_args: u8)`; under another name the argument is recorded. -/
example : serArgs sem cd [.typed [] ⟨[c%"generic_args"], true⟩ u8]
      [⟨[], c%"generic_args", u8, .clone (.var c%"generic_args"), some (.field c%"generic_args")⟩] [.base (.num 7)] = .panic ∧
    (buildArgsVal sem (recordingEnv (argEnv [.typed [] ⟨[c%"args"], true⟩ u8] [.base (.num 7)]))
      [⟨[], c%"args", u8, .clone (.var c%"args"), some (.field c%"args")⟩]).isSome ∧
    argsFields { x with impl := none, generics := [], convert := [], inputs := [.typed [] ⟨[c%"generic_args"], true⟩ u8] } 0 =
      .ok ([⟨[], c%"generic_args", u8, .clone (.var c%"generic_args"), some (.field c%"generic_args")⟩], 0) :=
  ⟨C13_hidden sem cd { x with impl := none, generics := [], convert := [], inputs := [.typed [] ⟨[c%"generic_args"], true⟩ u8] }
    0 0 _ (by decide +kernel) (.typed [] ⟨[c%"generic_args"], true⟩ u8) (by simp) c%"generic_args" (by decide) (by decide) _,
   by rfl, by decide +kernel⟩

/-- `C14_loss_free` at work, on `&mut &str`. -/
example : ∃ w, (mapTypedArg c%"a" (Convs.ofOpts x.convert) (.var c%"a") tys[1]).ser.eval sem (argEnv x.inputs vs) = some w ∧
    HasTy has w (.name c%"String") :=
  let h := C14_loss_free sem has lawful x.convert (argEnv x.inputs vs) c%"a" (.var c%"a") tys[1] vs[1]
    (.ref _ _ (.ref _ _ (.str _ _))) trivial
    (by cases typed with | cons _ _ _ _ _ _ h => cases h with | cons _ _ _ hi => exact hi rfl) rfl
  let ⟨w, h1, h2, _⟩ := h
  ⟨w, h1, h2⟩

/-- `C15_last_wins`: of two conversions for `Wide` the second is used. -/
example : (argsFields { x with convert := [(wide, .name c%"A"), (wide, .name c%"B")] } 0 >>= fun r =>
    Out.ok (r.1[2]?.map (·.ty))) = .ok (some (.name c%"B")) := by decide +kernel

/-- `C15_all_used`: the conversion for `u8` applies to no argument – not to `&self`, either. -/
example : argsFields { x with convert := [(wide, u8), (u8, wide)] } 0 = .panic := by decide +kernel

/-- `C15_attributes`: the argument with an attribute is not converted, and then the conversion is unused. -/
example : argsFields { x with inputs := [.typed [c%"#[serde(default)]"] ⟨[c%"b"], true⟩ wide] } 0 = .panic ∧
    argsFields { x with convert := [], inputs := [.typed [c%"#[serde(default)]"] ⟨[c%"b"], true⟩ wide] } 0 =
      .ok ([⟨[c%"#[serde(default)]"], c%"b", wide, .cloneAs wide (.var c%"b"), some (.field c%"b")⟩,
        ⟨[], c%"_0", tyPhantom (.ty (.name c%"T") .nil), .phantom, none⟩], 1) := by decide +kernel

end RoundDemo

end TF
