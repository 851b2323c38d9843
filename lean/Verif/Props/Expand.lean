import Verif.Model.Expand
import Verif.Props.ArgsList
import Verif.Props.Naming
import Verif.Props.Instrument

/-!
# C54, C56, C67, C68: generated modules, impls, and when the macros succeed
-/

namespace TF

open Spec

/-! ## Vocabulary -/

namespace Spec

/-- `#[test_fuzz]`, `#[test_fuzz::test_fuzz]`, .. -/
def Tagged (a : AttrM) : Prop := ∀ s ∈ a.path, s = c%"test_fuzz"

/-- The last identifier of a path type. -/
def EndsIn (t : Ty) (b : Str) : Prop := ∃ q lead segs a, t = .path q lead (Segs.append segs (.cons b a .nil))

/-- The name of a target: what its module is called, without the suffix. -/
inductive TargetIdent : Option ImplIn → AttrOpts → FnIn → Str → Prop
  | renamed (im : Option ImplIn) (o : AttrOpts) (f : FnIn) (r : Str) : o.rename = some r → TargetIdent im o f r
  | free (o : AttrOpts) (f : FnIn) : o.rename = none → TargetIdent none o f f.name
  | method (x : ImplIn) (o : AttrOpts) (f : FnIn) (b : Str) : o.rename = none → EndsIn x.ctx.self b →
      TargetIdent (some x) o f (b ++ c%"_" ++ f.name)
  | unnamed (x : ImplIn) (o : AttrOpts) (f : FnIn) : o.rename = none → (∀ b, ¬ EndsIn x.ctx.self b) →
      TargetIdent (some x) o f f.name

/-- Parameters without their attributes. -/
def SameParam : FnArg → FnArg → Prop
  | .receiver _ m k, .receiver at' m' k' => at' = [] ∧ m = m' ∧ k = k'
  | .typed _ p t, .typed at' p' t' => at' = [] ∧ p = p' ∧ t = t'
  | _, _ => False

/-- What the macro makes of the items of an impl: the items, and the modules. Methods and modules are those of the claims about
`mapMethodOrFn`, with the options of the attribute. -/
inductive Expanded (fz : Bool) (x : ImplIn) : List ItemIn → List ItemOut → List ModuleM → Prop
  | nil : Expanded fz x [] [] []
  | other (s : Str) {l : List ItemIn} {os : List ItemOut} {ms : List ModuleM} : Expanded fz x l os ms →
      Expanded fz x (.other s :: l) (.other s :: os) ms
  | plain (f : FnIn) {l : List ItemIn} {os : List ItemOut} {ms : List ModuleM} : (∀ a ∈ f.attrs, ¬ Tagged a) →
      Expanded fz x l os ms → Expanded fz x (.fn f :: l) (.fn f :: os) ms
  | tagged (f : FnIn) (pre post : List AttrM) (a : AttrM) (o : AttrOpts) (m : MethodM) (mo : ModuleM) (i : Str)
      {l : List ItemIn} {os : List ItemOut} {ms : List ModuleM} :
      f.attrs = pre ++ a :: post → (∀ b ∈ pre, ¬ Tagged b) → Tagged a →
      (a.args = .opts o ∨ a.args = .absent ∧ o = {}) →
      m.attrs = pre ++ post → m.vis = f.vis → m.name = f.name → m.generics = f.generics →
      List.Forall₂ SameParam f.inputs m.inputs → m.output = f.output → m.stmts = f.stmts →
      m.code = instrumentation (macroIn (some x) o f) →
      TargetIdent (some x) o f i → mo.ident = i ++ c%"_fuzz__" →
      (∃ n n', mapMethodOrFn fz (some x) o { f with attrs := pre ++ post } n = .ok (m, mo, n')) →
      Expanded fz x l os ms → Expanded fz x (.fn f :: l) (.method m :: os) (mo :: ms)

end Spec

/-! ## Lemmas -/

theorem isTestFuzz_iff (a : AttrM) : a.isTestFuzz = true ↔ Tagged a := by
  unfold AttrM.isTestFuzz Tagged
  rw [List.all_eq_true]
  simp

theorem lastIdent_append : ∀ (s : Segs) (b : Str) (a : Args), (s.append (.cons b a .nil)).lastIdent = some b
  | .nil, _, _ => rfl
  | .cons i a' .nil, b, a => rfl
  | .cons i a' (.cons j a2 r), b, a => lastIdent_append (.cons j a2 r) b a

theorem lastIdent_some : ∀ (s : Segs) (b : Str), s.lastIdent = some b → ∃ (s' : Segs) (a : Args), s = s'.append (.cons b a .nil)
  | .nil, _, h => by cases h
  | .cons i a .nil, b, h => by cases h; exact ⟨.nil, a, rfl⟩
  | .cons i a (.cons j a2 r), b, h => by
    obtain ⟨s', a', h'⟩ := lastIdent_some (.cons j a2 r) b h
    exact ⟨.cons i a s', a', by rw [h']; rfl⟩

theorem base_eq_some (t : Ty) (b : Str) : t.base = some b ↔ EndsIn t b := by
  constructor
  · intro h
    cases t with
    | path q lead segs =>
      obtain ⟨s', a, rfl⟩ := lastIdent_some segs b h
      exact ⟨q, lead, s', a, rfl⟩
    | _ => cases h
  · rintro ⟨q, lead, segs, a, rfl⟩
    exact lastIdent_append segs b a

theorem modIdent_eq (im : Option ImplIn) (o : AttrOpts) (f : FnIn) :
    ∃ i, TargetIdent im o f i ∧ modIdent o.rename (im.bind (·.ctx.self.base)) f.name = i ++ c%"_fuzz__" := by
  unfold modIdent
  cases hr : o.rename with
  | some r => exact ⟨r, .renamed _ _ _ _ hr, rfl⟩
  | none =>
    cases im with
    | none => exact ⟨f.name, .free _ _ hr, rfl⟩
    | some x =>
      simp only [Option.bind_some]
      cases hb : x.ctx.self.base with
      | some b => exact ⟨_, .method _ _ _ b hr ((base_eq_some _ _).mp hb), rfl⟩
      | none =>
        refine ⟨_, .unnamed _ _ _ hr fun b h => ?_, rfl⟩
        rw [(base_eq_some _ _).mpr h] at hb; cases hb

theorem targetIdent_unique {im : Option ImplIn} {o : AttrOpts} {f : FnIn} {i j : Str} (h : TargetIdent im o f i)
    (h' : TargetIdent im o f j) : i = j := by
  have key : ∀ {i}, TargetIdent im o f i → modIdent o.rename (im.bind (·.ctx.self.base)) f.name = i ++ c%"_fuzz__" := by
    intro i h
    unfold modIdent
    cases h with
    | renamed _ _ _ _ hr => rw [hr]
    | free _ _ hr => rw [hr]; rfl
    | method x _ _ b hr hb => rw [hr]; simp only [Option.bind_some, (base_eq_some _ _).mpr hb]
    | unnamed x _ _ hr hb =>
      rw [hr]
      have : x.ctx.self.base = none := by
        cases hx : x.ctx.self.base with
        | none => rfl
        | some b => exact absurd ((base_eq_some _ _).mp hx) (hb b)
      simp only [Option.bind_some, this]
      rfl
  have := (key h).symm.trans (key h')
  exact List.append_cancel_right this

/-- The parts of a successful expansion. -/
theorem mapMethodOrFn_ok {fz : Bool} {im : Option ImplIn} {o : AttrOpts} {f : FnIn} {n n' : Nat} {m : MethodM}
    {mo : ModuleM} (h : mapMethodOrFn fz im o f n = .ok (m, mo, n')) :
    ∃ ra fs ret ca, withDummyLifetimes ((im.map (·.generics)).getD [] ++ f.generics)
        (combineArgs o.implGenericArgs o.genericArgs) = .ok ra ∧ argsFields (argsIn im o f) n = .ok (fs, n') ∧
      retTy im f = .ok ret ∧ calleeToks im o f.name = .ok ca ∧
      m = ⟨f.attrs, f.vis, f.name, f.generics, f.inputs.map (·.bare), f.output, instrumentation (macroIn im o f), f.stmts⟩ ∧
      mo = ⟨modIdent o.rename (im.bind (·.ctx.self.base)) f.name, !o.enableInProduction,
        if o.onlyGenericArgs then none else some fs, ret, ra, ca, entryTest (macroIn im o f),
        autoGenerateTest (macroIn im o f)⟩ := by
  unfold mapMethodOrFn at h
  split at h
  · cases h
  · cases h1 : withDummyLifetimes ((im.map (·.generics)).getD [] ++ f.generics)
        (combineArgs o.implGenericArgs o.genericArgs) with
    | ok ra =>
      rw [h1, Out.ok_bind] at h
      cases h2 : argsFields (argsIn im o f) n with
      | ok r =>
        obtain ⟨fs, n1⟩ := r
        rw [h2, Out.ok_bind] at h
        simp only at h
        cases h3 : retTy im f with
        | ok ret =>
          rw [h3, Out.ok_bind] at h
          cases h4 : calleeToks im o f.name with
          | ok ca =>
            rw [h4, Out.ok_bind] at h
            unfold identNew at h
            split at h
            · cases h
            · rw [Out.ok_bind] at h
              simp only [Out.ok.injEq, Prod.mk.injEq] at h
              obtain ⟨rfl, rfl, rfl⟩ := h
              exact ⟨ra, fs, ret, ca, rfl, rfl, rfl, rfl, rfl, rfl⟩
          | _ => rw [h4] at h; cases h
        | _ => rw [h3] at h; cases h
      | _ => rw [h2] at h; cases h
    | _ => rw [h1] at h; cases h

theorem bare_same (l : List FnArg) : List.Forall₂ SameParam l (l.map (·.bare)) := by
  induction l with
  | nil => exact .nil
  | cons a l ih => exact .cons (by cases a <;> exact ⟨rfl, rfl, rfl⟩) ih

/-! ## C54 -/

/-- **C54.** The module is called `<rename>_fuzz__`, or `<Self>_<fn>_fuzz__` in an impl of a path type, where `<Self>` is the
path's last identifier, or `<fn>_fuzz__`. -/
theorem C54_name (fz : Bool) (im : Option ImplIn) (o : AttrOpts) (f : FnIn) (n n' : Nat) (m : MethodM) (mo : ModuleM)
    (h : mapMethodOrFn fz im o f n = .ok (m, mo, n')) (i : Str) (hi : TargetIdent im o f i) : mo.ident = i ++ c%"_fuzz__" := by
  obtain ⟨_, _, _, _, -, -, -, -, -, rfl⟩ := mapMethodOrFn_ok h
  obtain ⟨j, hj, he⟩ := modIdent_eq im o f
  rw [targetIdent_unique hi hj]
  exact he

/-- There always is such a name. -/
theorem C54_name_exists (im : Option ImplIn) (o : AttrOpts) (f : FnIn) : ∃ i, TargetIdent im o f i :=
  let ⟨i, h, _⟩ := modIdent_eq im o f
  ⟨i, h⟩

/-- **C54.** Functions of the same impl, and free functions, get different modules if their names differ (and they are not
renamed). -/
theorem C54_distinct (fz : Bool) (im : Option ImplIn) (o o' : AttrOpts) (f f' : FnIn) (n n1 n' n1' : Nat)
    (m m' : MethodM) (mo mo' : ModuleM) (h : mapMethodOrFn fz im o f n = .ok (m, mo, n1))
    (h' : mapMethodOrFn fz im o' f' n' = .ok (m', mo', n1')) (hr : o.rename = none) (hr' : o'.rename = none)
    (hne : f.name ≠ f'.name) : mo.ident ≠ mo'.ident := by
  obtain ⟨_, _, _, _, -, -, -, -, -, rfl⟩ := mapMethodOrFn_ok h
  obtain ⟨_, _, _, _, -, -, -, -, -, rfl⟩ := mapMethodOrFn_ok h'
  simp only [modIdent, hr, hr']
  intro he
  exact hne (List.append_cancel_left (List.append_cancel_right he))

/-- **C54.** Renamed targets get different modules if they are renamed differently. -/
theorem C54_distinct_renamed (fz : Bool) (im im' : Option ImplIn) (o o' : AttrOpts) (f f' : FnIn) (n n1 n' n1' : Nat)
    (m m' : MethodM) (mo mo' : ModuleM) (h : mapMethodOrFn fz im o f n = .ok (m, mo, n1))
    (h' : mapMethodOrFn fz im' o' f' n' = .ok (m', mo', n1')) (r r' : Str) (hr : o.rename = some r)
    (hr' : o'.rename = some r') (hne : r ≠ r') : mo.ident ≠ mo'.ident := by
  rw [C54_name fz im o f n n1 m mo h r (.renamed _ _ _ _ hr), C54_name fz im' o' f' n' n1' m' mo' h' r' (.renamed _ _ _ _ hr')]
  exact fun he => hne (List.append_cancel_right he)

/-- **C54.** Without renaming there are clashes: a method `f` of `b::S` and one of `a::S`, and a function `S_f`. -/
theorem C54_clash (s f : Str) (x y : ImplIn) (g1 g2 : FnIn) (hx : EndsIn x.ctx.self s) (hy : EndsIn y.ctx.self s)
    (h1 : g1.name = f) (h2 : g2.name = s ++ c%"_" ++ f) :
    TargetIdent (some x) {} g1 (s ++ c%"_" ++ f) ∧ TargetIdent (some y) {} g1 (s ++ c%"_" ++ f) ∧
      TargetIdent none {} g2 (s ++ c%"_" ++ f) :=
  ⟨h1 ▸ .method x _ _ s rfl hx, h1 ▸ .method y _ _ s rfl hy, h2 ▸ .free _ _ rfl⟩

/-- **C54.** The target's name that `cargo test-fuzz` finds in the test list is the module's name without the suffix, below
the modules the target is in. -/
theorem C54_listed (fz : Bool) (im : Option ImplIn) (o : AttrOpts) (f : FnIn) (n n' : Nat) (m : MethodM) (mo : ModuleM)
    (h : mapMethodOrFn fz im o f n = .ok (m, mo, n')) (i : Str) (hi : TargetIdent im o f i) (mods : List Str) :
    targetOfLine (colons (mods ++ [mo.ident, c%"entry"]) ++ c%": test") = some (colons (mods ++ [i])) := by
  rw [C54_name fz im o f n n' m mo h i hi]
  exact targetOfLine_harness ⟨[], mods, i, []⟩

/-! ## C56 -/

theorem findIdx_split {α : Type} (p : α → Bool) : ∀ (l : List α) (i : Nat), l.findIdx? p = some i →
    ∃ pre a post, l = pre ++ a :: post ∧ (∀ b ∈ pre, p b = false) ∧ p a = true ∧ l[i]? = some a ∧ l.eraseIdx i = pre ++ post
  | [], i, h => by simp at h
  | a :: l, i, h => by
    rw [List.findIdx?_cons] at h
    by_cases ha : p a = true
    · rw [if_pos ha] at h
      cases h
      exact ⟨[], a, l, rfl, by simp, ha, rfl, rfl⟩
    · rw [if_neg ha] at h
      cases hi : l.findIdx? p with
      | none => rw [hi] at h; cases h
      | some k =>
        rw [hi] at h
        cases h
        obtain ⟨pre, b, post, rfl, h2, h3, h4, h5⟩ := findIdx_split p l k hi
        refine ⟨a :: pre, b, post, rfl, ?_, h3, ?_, ?_⟩
        · intro c hc
          rcases List.mem_cons.mp hc with rfl | hc
          · simpa using ha
          · exact h2 c hc
        · simpa using h4
        · rw [List.eraseIdx_cons_succ, h5]; rfl

theorem mapImplItems_expanded {fz : Bool} {x : ImplIn} : ∀ {l : List ItemIn} {n n' : Nat} {os : List ItemOut}
    {ms : List ModuleM}, mapImplItems fz x l n = .ok (os, ms, n') → Expanded fz x l os ms
  | [], n, n', os, ms, h => by cases h; exact .nil
  | it :: l, n, n', os, ms, h => by
    rw [mapImplItems] at h
    cases h1 : mapImplItem fz x it n with
    | ok r =>
      obtain ⟨o1, mo, n1⟩ := r
      rw [h1, Out.ok_bind] at h
      simp only at h
      cases h2 : mapImplItems fz x l n1 with
      | ok r2 =>
        obtain ⟨os2, ms2, n2⟩ := r2
        rw [h2, Out.ok_bind] at h
        simp only [Out.ok.injEq, Prod.mk.injEq] at h
        obtain ⟨rfl, rfl, rfl⟩ := h
        have ih := mapImplItems_expanded h2
        cases it with
        | other s => cases h1; exact .other s ih
        | fn f =>
          unfold mapImplItem mapImplItemFn at h1
          simp only at h1
          cases hi : f.attrs.findIdx? (·.isTestFuzz) with
          | none =>
            rw [hi] at h1
            cases h1
            refine .plain f (fun a ha ht => ?_) ih
            rw [List.findIdx?_eq_none_iff] at hi
            have := (isTestFuzz_iff a).mpr ht
            rw [hi a ha] at this; cases this
          | some i =>
            rw [hi] at h1
            obtain ⟨pre, a, post, g1, g2, g3, g4, g5⟩ := findIdx_split _ _ _ hi
            simp only [g4] at h1
            cases ho : a.testFuzzOpts with
            | ok o =>
              rw [ho, Out.ok_bind] at h1
              cases hm : mapMethodOrFn fz (some x) o { f with attrs := f.attrs.eraseIdx i } n with
              | ok r =>
                obtain ⟨m, mo', n3⟩ := r
                rw [hm, Out.ok_bind] at h1
                simp only [Out.ok.injEq, Prod.mk.injEq] at h1
                obtain ⟨rfl, rfl, rfl⟩ := h1
                obtain ⟨_, _, _, _, -, -, -, -, hm1, hm2⟩ := mapMethodOrFn_ok hm
                obtain ⟨j, hj, he⟩ := modIdent_eq (some x) o f
                refine .tagged f pre post a o m mo' j g1 ?_ ((isTestFuzz_iff a).mp g3) ?_ (by rw [hm1]; exact g5)
                  (by rw [hm1]) (by rw [hm1]) (by rw [hm1]) (by rw [hm1]; exact bare_same _) (by rw [hm1]) (by rw [hm1])
                  (by rw [hm1]; rfl) hj (by rw [hm2]; exact he) ⟨n, n3, g5 ▸ hm⟩ ih
                · intro b hb ht
                  have := (isTestFuzz_iff b).mpr ht
                  rw [g2 b hb] at this; cases this
                · unfold AttrM.testFuzzOpts at ho
                  cases ha : a.args with
                  | absent => rw [ha] at ho; cases ho; exact .inr ⟨rfl, rfl⟩
                  | bad => rw [ha] at ho; cases ho
                  | opts o' => rw [ha] at ho; cases ho; exact .inl rfl
              | _ => rw [hm] at h1; cases h1
            | _ => rw [ho] at h1; cases h1
      | _ => rw [h2] at h; cases h
    | _ => rw [h1] at h; cases h

/-- **C56.** All items of the impl are kept, in order. Items other than functions, and functions without the attribute, are
unchanged. Functions with the attribute lose the first such attribute and the attributes of their parameters, and get the
recording code before their statements; for each, in order, there is a module. -/
theorem C56_items (fz : Bool) (x : ImplIn) (l : List ItemIn) (n n' : Nat) (os : List ItemOut) (ms : List ModuleM) (w : Bool)
    (h : testFuzzImpl fz x l n = .ok (os, ms, w, n')) : Expanded fz x l os ms ∧ (w = true ↔ ms = []) := by
  unfold testFuzzImpl at h
  cases h1 : mapImplItems fz x l n with
  | ok r =>
    obtain ⟨os1, ms1, n1⟩ := r
    rw [h1, Out.ok_bind] at h
    simp only [Out.ok.injEq, Prod.mk.injEq] at h
    obtain ⟨rfl, rfl, rfl, rfl⟩ := h
    exact ⟨mapImplItems_expanded h1, by simp⟩
  | _ => rw [h1] at h; cases h

/-- Whether a function of an impl is a target. -/
def Spec.IsTarget : ItemIn → Prop
  | .fn f => ∃ a ∈ f.attrs, Tagged a
  | .other _ => False

theorem expanded_counts {fz : Bool} {x : ImplIn} {l : List ItemIn} {os : List ItemOut} {ms : List ModuleM} (h : Expanded fz x l os ms) :
    os.length = l.length ∧ ((∃ it ∈ l, IsTarget it) ↔ ms ≠ []) := by
  induction h with
  | nil => exact ⟨rfl, by simp⟩
  | other s _ ih => exact ⟨by simp [ih.1], by simpa [IsTarget] using ih.2⟩
  | plain f hf _ ih =>
    refine ⟨by simp [ih.1], ?_⟩
    rw [← ih.2]
    simp only [List.mem_cons, exists_eq_or_imp, or_iff_right_iff_imp]
    rintro ⟨a, ha, ht⟩
    exact absurd ht (hf a ha)
  | tagged f pre post a o m mo i h1 _ h3 _ _ _ _ _ _ _ _ _ _ _ _ _ ih =>
    refine ⟨by simp [ih.1], ?_⟩
    simp only [ne_eq, reduceCtorEq, not_false_eq_true, iff_true]
    exact ⟨_, List.mem_cons_self .., a, by simp [h1], h3⟩

/-- **C56.** A function with the attribute, outside of impls: all of it is kept – its attributes, also others of the same name –
except for the attributes of parameters; it gets the recording code, and a module, according to the options given. The claims
about `mapMethodOrFn` apply to both, with these options. -/
theorem C56_function (fz : Bool) (args : AttrArgs) (f : FnIn) (n n' : Nat) (m : MethodM) (mo : ModuleM)
    (h : testFuzz fz args f n = .ok (m, mo, n')) :
    ∃ o i, (args = .opts o ∨ args = .absent ∧ o = {}) ∧
      m.attrs = f.attrs ∧ m.vis = f.vis ∧ m.name = f.name ∧ m.generics = f.generics ∧
      List.Forall₂ SameParam f.inputs m.inputs ∧ m.output = f.output ∧ m.stmts = f.stmts ∧
      m.code = instrumentation (macroIn none o f) ∧ TargetIdent none o f i ∧ mo.ident = i ++ c%"_fuzz__" ∧
      mapMethodOrFn fz none o f n = .ok (m, mo, n') := by
  unfold testFuzz AttrM.testFuzzOpts at h
  have key : ∀ o, mapMethodOrFn fz none o f n = .ok (m, mo, n') → ∃ i,
      m.attrs = f.attrs ∧ m.vis = f.vis ∧ m.name = f.name ∧ m.generics = f.generics ∧
      List.Forall₂ SameParam f.inputs m.inputs ∧ m.output = f.output ∧ m.stmts = f.stmts ∧
      m.code = instrumentation (macroIn none o f) ∧ TargetIdent none o f i ∧ mo.ident = i ++ c%"_fuzz__" ∧
      mapMethodOrFn fz none o f n = .ok (m, mo, n') := by
    intro o hm
    obtain ⟨_, _, _, _, -, -, -, -, hm1, hm2⟩ := mapMethodOrFn_ok hm
    obtain ⟨j, hj, he⟩ := modIdent_eq none o f
    refine ⟨j, ?_⟩
    subst hm1 hm2
    exact ⟨rfl, rfl, rfl, rfl, bare_same _, rfl, rfl, rfl, hj, he, hm⟩
  cases args with
  | absent =>
    obtain ⟨i, hi⟩ := key {} h
    exact ⟨{}, i, .inr ⟨rfl, rfl⟩, hi⟩
  | bad => cases h
  | opts o =>
    obtain ⟨i, hi⟩ := key o h
    exact ⟨o, i, .inl rfl, hi⟩

/-- **C56.** The warning is printed just if no function of the impl has the attribute. -/
theorem C56_warning (fz : Bool) (x : ImplIn) (l : List ItemIn) (n n' : Nat) (os : List ItemOut) (ms : List ModuleM) (w : Bool)
    (h : testFuzzImpl fz x l n = .ok (os, ms, w, n')) : (w = true ↔ ∀ it ∈ l, ¬ IsTarget it) ∧ os.length = l.length := by
  obtain ⟨h1, h2⟩ := C56_items fz x l n n' os ms w h
  obtain ⟨h3, h4⟩ := expanded_counts h1
  refine ⟨?_, h3⟩
  rw [h2]
  constructor
  · intro hm it hit ht
    exact h4.mp ⟨it, hit, ht⟩ hm
  · intro hn
    by_contra hc
    obtain ⟨it, hit, ht⟩ := h4.mpr hc
    exact hn it hit ht

/-- **C56.** An impl without targets is left as it is, and never rejected. -/
theorem C56_untouched (fz : Bool) (x : ImplIn) (l : List ItemIn) (n : Nat) (h : ∀ it ∈ l, ¬ IsTarget it) :
    ∃ os, testFuzzImpl fz x l n = .ok (os, [], true, n) ∧
      os = l.map (fun | .fn f => ItemOut.fn f | .other s => ItemOut.other s) := by
  refine ⟨_, ?_, rfl⟩
  suffices hs : mapImplItems fz x l n =
      .ok (l.map (fun | .fn f => ItemOut.fn f | .other s => ItemOut.other s), [], n) by
    unfold testFuzzImpl; rw [hs]; rfl
  induction l with
  | nil => rfl
  | cons it l ih =>
    rw [mapImplItems]
    have hi : mapImplItem fz x it n = .ok ((fun | .fn f => ItemOut.fn f | .other s => ItemOut.other s : ItemIn → ItemOut) it, none, n) := by
      cases it with
      | other s => rfl
      | fn f =>
        unfold mapImplItem mapImplItemFn
        have : f.attrs.findIdx? (·.isTestFuzz) = none := by
          rw [List.findIdx?_eq_none_iff]
          intro a ha
          cases hb : a.isTestFuzz with
          | false => rfl
          | true => exact absurd ⟨a, ha, (isTestFuzz_iff a).mp hb⟩ (h (.fn f) (by simp))
        simp only [this]
    rw [hi, Out.ok_bind]
    simp only
    rw [ih fun it hit => h it (List.mem_cons_of_mem _ hit), Out.ok_bind]
    rfl

/-! ## C67 -/

/-- The parameter list has parameters other than lifetimes. -/
def Spec.HasNonLifetime (gs : List GParam) : Prop := ∃ g ∈ gs, ∀ s, g ≠ .lifetime s

theorem isGeneric_iff (gs : List GParam) : isGeneric gs = true ↔ HasNonLifetime gs := by
  unfold isGeneric HasNonLifetime
  rw [List.any_eq_true]
  constructor
  · rintro ⟨g, hg, h⟩
    refine ⟨g, hg, fun s hs => ?_⟩
    subst hs; cases h
  · rintro ⟨g, hg, h⟩
    refine ⟨g, hg, ?_⟩
    cases g with
    | lifetime s => exact absurd rfl (h s)
    | _ => rfl

/-- How many of the parameters are lifetimes. -/
def Spec.numLifetimes (gs : List GParam) : Nat := (gs.filterMap fun | .lifetime s => some s | _ => none).length

/-- How many of the arguments are lifetimes. -/
def Spec.numLifetimeArgs (as : List GArg) : Nat := (as.filterMap fun | .lifetime s => some s | _ => none).length

theorem lifetimeParams_eq (gs : List GParam) : lifetimeParams gs = numLifetimes gs := by
  induction gs with
  | nil => rfl
  | cons g gs ih => cases g <;> simp [lifetimeParams, numLifetimes, ih]

theorem lifetimeArgs_eq (as : List GArg) : lifetimeArgs as = numLifetimeArgs as := by
  induction as with
  | nil => rfl
  | cons a as ih => cases a <;> simp [lifetimeArgs, numLifetimeArgs, ih]

/-- The parameters of the impl. -/
def Spec.implParams (im : Option ImplIn) : List GParam := (im.map (·.generics)).getD []

theorem out_bind_ok {α β : Type} {x : Out α} {f : α → Out β} : (∃ r, (x >>= f) = .ok r) ↔ ∃ a, x = .ok a ∧ ∃ r, f a = .ok r := by
  constructor
  · rintro ⟨r, h⟩
    cases x with
    | ok a => exact ⟨a, rfl, r, h⟩
    | _ => cases h
  · rintro ⟨a, rfl, r, h⟩; exact ⟨r, h⟩

/-- **C67.** When the macro succeeds: unless in a fuzzing build the arguments for non-lifetime parameters are missing; there
are no more lifetime arguments than parameters, and no more arguments for the impl than parameters; each parameter of the
function is one the macro can deal with, and each conversion is used; `Self` can be expanded in the result type, and the
impl's parameters can be substituted in its type and trait; and the names that the module is called after are not raw
identifiers. -/
theorem C67_succeeds (fz : Bool) (im : Option ImplIn) (o : AttrOpts) (f : FnIn) (n : Nat) :
    (∃ r, mapMethodOrFn fz im o f n = .ok r) ↔
      (fz = true → o.onlyGenericArgs = false →
        (HasNonLifetime (implParams im) → o.implGenericArgs ≠ none) ∧ (HasNonLifetime f.generics → o.genericArgs ≠ none)) ∧
      numLifetimeArgs ((o.implGenericArgs.getD []) ++ (o.genericArgs.getD [])) ≤ numLifetimes (implParams im ++ f.generics) ∧
      ((∀ a ∈ f.inputs, ∃ t, ArgTy (im.map (·.ctx)) a t) ∧
        ∀ p ∈ o.convert, ∃ a ∈ f.inputs, a.attrs = [] ∧ ∃ t u, ArgTy (im.map (·.ctx)) a t ∧ Considered o.convert t u ∧
          u.toks = p.1.toks) ∧
      (∀ x t, im = some x → f.output = some t → ∃ t', t.expandSelf x.ctx = .ok t') ∧
      (∀ x, im = some x → ∃ m, genericParamsMap x.generics (o.implGenericArgs.getD []) = .ok m ∧
        (∃ t', x.ctx.self.mapParams m = .ok t') ∧ ∀ p, x.ctx.tr = some p → ∃ p', p.mapParams m = .ok p') ∧
      ∀ i, TargetIdent im o f i → '#' ∉ i := by
  rw [← lifetimeArgs_eq, ← lifetimeParams_eq]
  have hid : (∀ i, TargetIdent im o f i → '#' ∉ i) ↔
      '#' ∉ modIdent o.rename (im.bind (·.ctx.self.base)) f.name := by
    obtain ⟨j, hj, he⟩ := modIdent_eq im o f
    rw [he]
    have hs : '#' ∉ c%"_fuzz__" := by decide
    constructor
    · intro h hm
      rcases List.mem_append.mp hm with hm | hm
      · exact h j hj hm
      · exact hs hm
    · intro h i hi hm
      rw [targetIdent_unique hi hj] at hm
      exact h (List.mem_append_left _ hm)
  have hg : (fz && !o.onlyGenericArgs && ((isGeneric (implParams im) && o.implGenericArgs.isNone) ||
      (isGeneric f.generics && o.genericArgs.isNone))) = true ↔
      ¬ (fz = true → o.onlyGenericArgs = false →
        (HasNonLifetime (implParams im) → o.implGenericArgs ≠ none) ∧ (HasNonLifetime f.generics → o.genericArgs ≠ none)) := by
    rw [← isGeneric_iff, ← isGeneric_iff]
    cases fz <;> cases o.onlyGenericArgs <;> cases isGeneric (implParams im) <;> cases isGeneric f.generics <;>
      cases o.implGenericArgs <;> cases o.genericArgs <;> simp
  have hd : (∃ r, withDummyLifetimes (implParams im ++ f.generics) (combineArgs o.implGenericArgs o.genericArgs) = .ok r) ↔
      lifetimeArgs ((o.implGenericArgs.getD []) ++ (o.genericArgs.getD [])) ≤ lifetimeParams (implParams im ++ f.generics) := by
    have hc : (combineArgs o.implGenericArgs o.genericArgs).getD [] =
        (o.implGenericArgs.getD []) ++ (o.genericArgs.getD []) := by
      cases o.implGenericArgs <;> cases o.genericArgs <;> simp [combineArgs]
    unfold withDummyLifetimes
    rw [hc]
    simp only
    split
    · simp; omega
    · simp; omega
  have ha := C15_all_used (argsIn im o f) n
  have hr : (∃ r, retTy im f = .ok r) ↔ ∀ x t, im = some x → f.output = some t → ∃ t', t.expandSelf x.ctx = .ok t' := by
    unfold retTy
    cases f.output with
    | none => simp
    | some t => cases im <;> simp
  have hcal : (∃ r, calleeToks im o f.name = .ok r) ↔
      ∀ x, im = some x → ∃ m, genericParamsMap x.generics (o.implGenericArgs.getD []) = .ok m ∧
        (∃ t', x.ctx.self.mapParams m = .ok t') ∧ ∀ p, x.ctx.tr = some p → ∃ p', p.mapParams m = .ok p' := by
    unfold calleeToks
    cases im with
    | none => simp
    | some x =>
      simp only [Option.some.injEq, forall_eq', out_bind_ok]
      constructor
      · rintro ⟨m, hm, t, ht, h⟩
        refine ⟨m, hm, ⟨t, ht⟩, fun p hp => ?_⟩
        rw [hp] at h
        simp only [out_bind_ok] at h
        obtain ⟨p', hp', -⟩ := h
        exact ⟨p', hp'⟩
      · rintro ⟨m, hm, ⟨t, ht⟩, h⟩
        refine ⟨m, hm, t, ht, ?_⟩
        cases hp : x.ctx.tr with
        | none => exact ⟨_, rfl⟩
        | some p =>
          simp only [out_bind_ok]
          obtain ⟨p', hp'⟩ := h p hp
          exact ⟨p', hp', _, rfl⟩
  rw [← hd, ← hr, ← hcal, hid]
  have ha' : ((∀ a ∈ f.inputs, ∃ t, ArgTy (im.map (·.ctx)) a t) ∧
        ∀ p ∈ o.convert, ∃ a ∈ f.inputs, a.attrs = [] ∧ ∃ t u, ArgTy (im.map (·.ctx)) a t ∧ Considered o.convert t u ∧
          u.toks = p.1.toks) ↔ ∃ r, argsFields (argsIn im o f) n = .ok r := ha.symm
  rw [ha']
  unfold mapMethodOrFn
  by_cases hc : (fz && !o.onlyGenericArgs && ((isGeneric (implParams im) && o.implGenericArgs.isNone) ||
      (isGeneric f.generics && o.genericArgs.isNone))) = true
  · have hn := hg.mp hc
    unfold implParams at hc
    rw [if_pos hc]
    constructor
    · rintro ⟨r, h⟩; cases h
    · rintro ⟨h, -⟩; exact absurd h hn
  · have hn := (not_iff_comm.mp hg.symm).mp hc
    unfold implParams at hc
    rw [if_neg hc]
    simp only [out_bind_ok]
    constructor
    · rintro ⟨ra, h1, r, h2, ret, h3, ca, h4, i, h5, -⟩
      refine ⟨hn, ⟨ra, h1⟩, ⟨r, h2⟩, ⟨ret, h3⟩, ⟨ca, h4⟩, fun hm => ?_⟩
      rw [identNew, if_pos hm] at h5
      cases h5
    · rintro ⟨-, ⟨ra, h1⟩, ⟨r, h2⟩, ⟨ret, h3⟩, ⟨ca, h4⟩, h5⟩
      exact ⟨ra, h1, r, h2, ret, h3, ca, h4, _, if_neg h5, _, rfl⟩

/-- **C67.** If the macro succeeds in a fuzzing build, it does so in others. -/
theorem C67_fuzzing_builds (im : Option ImplIn) (o : AttrOpts) (f : FnIn) (n : Nat) (r : MethodM × ModuleM × Nat)
    (h : mapMethodOrFn true im o f n = .ok r) (fz : Bool) : mapMethodOrFn fz im o f n = .ok r := by
  cases fz with
  | true => exact h
  | false =>
    unfold mapMethodOrFn at h ⊢
    split at h
    · cases h
    · rw [if_neg (by simp)]; exact h

theorem typeIdents_pos {gs : List GParam} (h : 0 < (typeIdents gs).length) : isGeneric gs = true := by
  induction gs with
  | nil => simp [typeIdents] at h
  | cons g gs ih =>
    cases g with
    | ty i => rfl
    | const i => rfl
    | lifetime s => exact ih h

/-- **C67.** In a fuzzing build no harness is empty, except with `only_generic_args`: what is missing is reported. -/
theorem C67_harness_present (im : Option ImplIn) (o : AttrOpts) (f : FnIn) (n n' : Nat) (m : MethodM) (mo : ModuleM)
    (h : mapMethodOrFn true im o f n = .ok (m, mo, n')) (ho : o.onlyGenericArgs = false) :
    mo.entry = argsEntry (macroIn im o f) ∧ hasEntry (macroIn im o f) = true := by
  have hok := ((C67_succeeds true im o f n).mp ⟨_, h⟩).1 rfl ho
  obtain ⟨_, _, _, _, -, -, -, -, -, rfl⟩ := mapMethodOrFn_ok h
  have he : hasEntry (macroIn im o f) = true := by
    unfold hasEntry macroIn
    simp only [ho, Bool.false_or, Bool.not_eq_true', Bool.or_eq_false_iff, Bool.and_eq_false_iff, decide_eq_false_iff_not,
      Bool.not_eq_false]
    constructor
    · by_cases hp : 0 < (typeIdents ((im.map (·.generics)).getD [])).length
      · refine .inr ?_
        have := hok.1 ((isGeneric_iff _).mp (typeIdents_pos hp))
        cases hx : o.implGenericArgs with
        | none => exact absurd hx this
        | some => rfl
      · exact .inl hp
    · by_cases hp : 0 < (typeIdents f.generics).length
      · refine .inr ?_
        have := hok.2 ((isGeneric_iff _).mp (typeIdents_pos hp))
        cases hx : o.genericArgs with
        | none => exact absurd hx this
        | some => rfl
      · exact .inl hp
  exact ⟨by simp only [entryTest, he, if_true], he⟩

/-! ## C68 -/

theorem lifetimeArgs_append (l l' : List GArg) : lifetimeArgs (l ++ l') = lifetimeArgs l + lifetimeArgs l' := by
  induction l with
  | nil => simp [lifetimeArgs]
  | cons a l ih => cases a <;> simp [lifetimeArgs, ih]; omega

theorem lifetimeArgs_replicate (k : Nat) (s : Str) : lifetimeArgs (List.replicate k (.lifetime s)) = k := by
  induction k with
  | zero => rfl
  | succ k ih => rw [List.replicate_succ, lifetimeArgs, ih]

/-- **C68.** In the result type each lifetime parameter is filled: the arguments given are followed by as many `'static` as
are missing. -/
theorem C68_lifetimes_filled (fz : Bool) (im : Option ImplIn) (o : AttrOpts) (f : FnIn) (n n' : Nat) (m : MethodM)
    (mo : ModuleM) (h : mapMethodOrFn fz im o f n = .ok (m, mo, n')) :
    ∃ k, mo.retArgs = (o.implGenericArgs.getD []) ++ (o.genericArgs.getD []) ++ List.replicate k (.lifetime c%"static") ∧
      numLifetimeArgs mo.retArgs = numLifetimes (implParams im ++ f.generics) := by
  rw [← lifetimeArgs_eq, ← lifetimeParams_eq]
  obtain ⟨ra, _, _, _, h1, -, -, -, -, rfl⟩ := mapMethodOrFn_ok h
  have hc : (combineArgs o.implGenericArgs o.genericArgs).getD [] =
      (o.implGenericArgs.getD []) ++ (o.genericArgs.getD []) := by
    cases o.implGenericArgs <;> cases o.genericArgs <;> simp [combineArgs]
  unfold withDummyLifetimes at h1
  rw [hc] at h1
  simp only at h1
  split at h1
  · cases h1
  · rename_i hlt
    cases h1
    refine ⟨_, rfl, ?_⟩
    simp only [lifetimeArgs_append, lifetimeArgs_replicate]
    unfold implParams
    simp only [lifetimeArgs_append] at hlt
    omega

/-- **C68.** The type of the result is `()` if the target has none, and otherwise that of the target, with `Self` expanded. -/
theorem C68_result (fz : Bool) (im : Option ImplIn) (o : AttrOpts) (f : FnIn) (n n' : Nat) (m : MethodM)
    (mo : ModuleM) (h : mapMethodOrFn fz im o f n = .ok (m, mo, n')) :
    (f.output = none → mo.retTy.toks = [c%"()"]) ∧ (∀ t, f.output = some t → im = none → mo.retTy = t) ∧
      ∀ t x, f.output = some t → im = some x → t.expandSelf x.ctx = .ok mo.retTy := by
  obtain ⟨_, _, ret, _, -, -, h1, -, -, rfl⟩ := mapMethodOrFn_ok h
  unfold retTy at h1
  refine ⟨fun ho => ?_, fun t ho hi => ?_, fun t x ho hi => ?_⟩
  · rw [ho] at h1
    cases h1
    rfl
  · rw [ho, hi] at h1
    cases h1
    rfl
  · rw [ho, hi] at h1
    exact h1

/-! ## A case: `impl<'a, T> m::Foo<'a, T>` with a constant, a plain function and a target -/

namespace ExpandDemo

def tf : AttrM := ⟨[c%"test_fuzz", c%"test_fuzz"], c%"#[test_fuzz::test_fuzz(..)]",
  .opts { implGenericArgs := some [.ty (.name c%"u8")], convert := [(.name c%"Wide", .name c%"u8")] }⟩

def inline : AttrM := ⟨[c%"inline"], c%"#[inline]", .absent⟩

def fooT : Ty := .path .none false (.cons c%"m" .none (.cons c%"Foo"
  (.angle false (.tok c%"'" (.tok c%"a" (.tok c%"," (.ty (.name c%"T") .nil))))) .nil))

def x : ImplIn := ⟨[.lifetime c%"a", .ty c%"T"], ⟨none, fooT⟩⟩

def target : FnIn := ⟨[inline, tf, inline], c%"pub", c%"go", [], [.receiver [] false (.reference none false),
  .typed [] ⟨[c%"w"], true⟩ (.name c%"Wide")], some (.name c%"Self"), [c%"..;", c%".."]⟩

def plainFn : FnIn := ⟨[inline], c%"pub", c%"other", [], [], none, []⟩

def items : List ItemIn := [.other c%"const N: u8 = 0;", .fn plainFn, .fn target]

/-- The macro succeeds; the module's name, the call and the type arguments are as expected. -/
example : ∃ m mo, testFuzzImpl true x items 0 = .ok ([.other c%"const N: u8 = 0;", .fn plainFn, .method m], [mo], false, 3) ∧
    m.attrs = [inline, inline] ∧ m.name = c%"go" ∧ mo.ident = c%"Foo_go_fuzz__" ∧ mo.retTy = fooT ∧
    mo.retArgs = [.ty (.name c%"u8"), .lifetime c%"static"] ∧
    mo.callee = [c%"m", c%":", c%":", c%"Foo", c%":", c%":", c%"<", c%"'", c%"a", c%",", c%"u8", c%">", c%":", c%":",
      c%"go"] ∧ (mo.fields.map fun l => l.map (·.ident)) = some [c%"_2", c%"w", c%"_0", c%"_1"] :=
  ⟨_, _, rfl, rfl, rfl, rfl, rfl, rfl, rfl, rfl⟩

/-- Without the arguments a fuzzing build is rejected, and other builds have an empty harness. -/
example : mapMethodOrFn true (some x) {} target 0 = .panic ∧
    ∃ m mo n, mapMethodOrFn false (some x) {} target 0 = .ok (m, mo, n) ∧ mo.entry = .nop := by
  exact ⟨rfl, _, _, _, rfl, rfl⟩

/-- `C56_function` at work: of two attributes `test_fuzz` the compiler hands the second on to the macro with the function. -/
example : ∃ m mo, testFuzz false (.opts { rename := some c%"r", noAutoGenerate := true }) { plainFn with attrs := [inline, tf] } 0 =
      .ok (m, mo, 0) ∧ m.attrs = [inline, tf] ∧ mo.ident = c%"r_fuzz__" ∧ mo.autoGenerate = none := by
  exact ⟨_, _, rfl, rfl, rfl, rfl⟩

/-- `fn r#type()` is rejected, unless it is renamed. -/
example : mapMethodOrFn false none {} { plainFn with name := c%"r#type" } 0 = .panic ∧
    ∃ r, mapMethodOrFn false none { rename := some c%"ty" } { plainFn with name := c%"r#type" } 0 = .ok r :=
  ⟨rfl, _, rfl⟩

end ExpandDemo

end TF
