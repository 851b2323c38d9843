import Verif.Props.BincodeArgs
import Verif.Props.Expand
import Verif.Model.SerdeAttrs

/-!
# C90: arguments that serde is told to skip
-/

namespace TF

/-! ## Specification -/

namespace Spec

/-- An item of an attribute: a name, possibly with a string. -/
abbrev SerdeItem := Str × Option Str

def SerdeItem.text (i : SerdeItem) : Str :=
  match i.2 with
  | none => i.1
  | some v => i.1 ++ c%" = \"" ++ v ++ c%"\""

/-- `a, b = "..", c` -/
def itemsText : List SerdeItem → Str
  | [] => []
  | [i] => i.text
  | i :: l => i.text ++ c%", " ++ itemsText l

/-- `serde(a, b = "..", c)` -/
def serdeText (l : List SerdeItem) : Str := c%"serde(" ++ itemsText l ++ c%")"

/-- Names are identifiers; strings are without quotes and escapes. -/
def PlainItem (i : SerdeItem) : Prop :=
  (∀ c ∈ i.1, c.isAlphanum = true ∨ c = '_') ∧ i.1 ≠ [] ∧ ∀ v, i.2 = some v → '"' ∉ v ∧ '\\' ∉ v

/-- The arguments that a replay is to call the target with: for those that are skipped, the default. -/
def Defaulted {A : Type} (dflt : List Str × Ty → Val A) : List FnArg → List Ty → List (Val A) → List (Val A)
  | a :: l, t :: ts, v :: vs => (if skipsDe a.attrs then dflt (a.attrs, t) else v) :: Defaulted dflt l ts vs
  | _, _, _ => []

/-- The two calls differ at most in arguments that are not written. -/
inductive SameWritten {A : Type} : List FnArg → List (Val A) → List (Val A) → Prop
  | nil : SameWritten [] [] []
  | cons {a : FnArg} {l : List FnArg} {v u : Val A} {vs us : List (Val A)} : (skipsSer a.attrs = false → v = u) →
      SameWritten l vs us → SameWritten (a :: l) (v :: vs) (u :: us)

mutual

/-- At least one byte is read for this. -/
def Needs : Sch → Prop
  | .unit => False
  | .float n => 0 < n
  | .tuple ss => NeedsOne ss
  | _ => True

def NeedsOne : Schs → Prop
  | .nil => False
  | .cons s r => Needs s ∨ NeedsOne r

end

end Spec

open Spec

/-! ## Attributes as text -/

theorem splitItems_ne_nil (q : Bool) (s : Str) : splitItems q s ≠ [] := by
  induction s generalizing q with
  | nil => cases q <;> simp [splitItems]
  | cons c r ih =>
    unfold splitItems
    split
    · simp_all
    · split <;> simp
    · split
      · split <;> simp
      · split
        · simp
        · split <;> simp

theorem splitItems_plain (c : Char) (r : Str) (q : Bool) (w : Str) (ws : List Str) (h1 : c ≠ '"') (h2 : ¬ (c = ',' ∧ q = false))
    (h3 : c ≠ '\\') (h : splitItems q r = w :: ws) : splitItems q (c :: r) = (c :: w) :: ws := by
  rw [splitItems.eq_def]
  split
  · simp_all
  · simp_all
  · rename_i h4
    obtain ⟨rfl, rfl⟩ := List.cons.inj h4
    rw [if_neg h1, if_neg h2, h]

theorem splitItems_quote (r : Str) (q : Bool) (w : Str) (ws : List Str) (h : splitItems (!q) r = w :: ws) :
    splitItems q ('"' :: r) = ('"' :: w) :: ws := by
  rw [splitItems.eq_def]
  split
  · simp_all
  · simp_all
  · rename_i h4
    obtain ⟨rfl, rfl⟩ := List.cons.inj h4
    rw [if_pos rfl, h]

theorem splitItems_comma (r : Str) : splitItems false (',' :: r) = [] :: splitItems false r := by
  rw [splitItems.eq_def]
  simp

theorem splitItems_name (s r : Str) (q : Bool) (w : Str) (ws : List Str)
    (hs : ∀ c ∈ s, c ≠ '"' ∧ ¬ (c = ',' ∧ q = false) ∧ c ≠ '\\') (h : splitItems q r = w :: ws) :
    splitItems q (s ++ r) = (s ++ w) :: ws := by
  induction s with
  | nil => exact h
  | cons c s ih =>
    obtain ⟨h1, h2, h3⟩ := hs c (by simp)
    exact splitItems_plain c _ q _ ws h1 h2 h3 (ih fun c hc => hs c (List.mem_cons_of_mem _ hc))

theorem nameChar_plain {c : Char} (h : c.isAlphanum = true ∨ c = '_') : c ≠ '"' ∧ c ≠ ',' ∧ c ≠ '\\' ∧ c ≠ ' ' := by
  refine ⟨?_, ?_, ?_, ?_⟩ <;> (rintro rfl; revert h; decide)

theorem splitItems_item (i : SerdeItem) (hi : PlainItem i) (r : Str) (w : Str) (ws : List Str) (h : splitItems false r = w :: ws) :
    splitItems false (i.text ++ r) = (i.text ++ w) :: ws := by
  obtain ⟨n, v⟩ := i
  obtain ⟨h1, h2, h3⟩ := hi
  have hn : ∀ c ∈ n, c ≠ '"' ∧ ¬ (c = ',' ∧ false = false) ∧ c ≠ '\\' := fun c hc =>
    let k := nameChar_plain (h1 c hc)
    ⟨k.1, fun h => k.2.1 h.1, k.2.2.1⟩
  cases v with
  | none => exact splitItems_name n r false w ws hn h
  | some v =>
    obtain ⟨h4, h5⟩ := h3 v rfl
    simp only [SerdeItem.text, List.append_assoc]
    refine splitItems_name n _ false _ ws hn ?_
    refine splitItems_plain ' ' _ _ _ _ (by decide) (by decide) (by decide) ?_
    refine splitItems_plain '=' _ _ _ _ (by decide) (by decide) (by decide) ?_
    refine splitItems_plain ' ' _ _ _ _ (by decide) (by decide) (by decide) ?_
    refine splitItems_quote _ _ _ _ ?_
    refine splitItems_name v _ true _ ws (fun c hc => ⟨?_, by simp, ?_⟩) ?_
    · rintro rfl; exact h4 hc
    · rintro rfl; exact h5 hc
    · exact splitItems_quote _ _ _ _ h

theorem itemName_space (s : Str) : itemName (' ' :: s) = itemName s := by simp [itemName]

theorem itemName_text (i : SerdeItem) (hi : PlainItem i) : itemName i.text = i.1 := by
  obtain ⟨n, v⟩ := i
  obtain ⟨h1, h2, -⟩ := hi
  have h3 : ∀ r : Str, (n ++ r).dropWhile (· = ' ') = n ++ r := by
    intro r
    cases n with
    | nil => exact absurd rfl h2
    | cons c n =>
      rw [List.cons_append, List.dropWhile_cons_of_neg]
      simpa using (nameChar_plain (h1 c (by simp))).2.2.2
  have h4 : ∀ c ∈ n, (c.isAlphanum || c = '_') = true := fun c hc => by simpa using h1 c hc
  cases v with
  | none =>
    have := h3 []
    rw [List.append_nil] at this
    simp only [itemName, SerdeItem.text, this]
    simpa using List.takeWhile_append_of_pos (l₂ := []) h4
  | some v =>
    simp only [itemName, SerdeItem.text, List.append_assoc, h3]
    rw [List.takeWhile_append_of_pos h4]
    rw [show (List.takeWhile (fun c : Char => c.isAlphanum || c = '_') (c%" = \"" ++ (v ++ c%"\""))) = [] from by
      rw [List.cons_append, List.takeWhile_cons_of_neg (by decide)], List.append_nil]

theorem splitItems_items : ∀ (l : List SerdeItem), (∀ i ∈ l, PlainItem i) → l ≠ [] →
    ∃ w ws, splitItems false (itemsText l) = w :: ws ∧ (w :: ws).map itemName = l.map (·.1)
  | [], _, h => absurd rfl h
  | [i], hp, _ => by
    have h := splitItems_item i (hp i (by simp)) [] [] [] rfl
    rw [List.append_nil] at h
    exact ⟨_, _, h, by simp [itemName_text i (hp i (by simp))]⟩
  | i :: j :: l, hp, _ => by
    obtain ⟨w, ws, h1, h2⟩ := splitItems_items (j :: l) (fun i hi => hp i (List.mem_cons_of_mem _ hi)) (by simp)
    have h3 : splitItems false (c%", " ++ itemsText (j :: l)) = [] :: (' ' :: w) :: ws := by
      rw [List.cons_append, splitItems_comma]
      exact congrArg _ (splitItems_plain ' ' _ _ _ _ (by decide) (by decide) (by decide) h1)
    have h4 := splitItems_item i (hp i (by simp)) _ _ _ h3
    refine ⟨_, _, by rw [itemsText, List.append_assoc]; exact h4; simp, ?_⟩
    rw [List.append_nil, List.map_cons, List.map_cons, itemName_space, ← List.map_cons, h2, itemName_text i (hp i (by simp))]
    rfl

/-- **C90.** What is read from the text of an attribute: the names in it, whatever strings come with them – also with commas,
or with the words that are looked for. -/
theorem C90_names (l : List SerdeItem) (hp : ∀ i ∈ l, PlainItem i) (hl : l ≠ []) : serdeNames (serdeText l) = l.map (·.1) := by
  obtain ⟨w, ws, h1, h2⟩ := splitItems_items l hp hl
  have h3 : (serdeText l).take 6 = c%"serde(" := by
    rw [serdeText, List.append_assoc]
    rfl
  have h4 : (serdeText l).getLast? = some ')' := by
    rw [serdeText]
    exact List.getLast?_concat
  have h5 : ((serdeText l).drop 6).dropLast = itemsText l := by
    rw [serdeText, List.append_assoc, show List.drop 6 (c%"serde(" ++ (itemsText l ++ c%")")) = itemsText l ++ c%")" from rfl]
    exact List.dropLast_concat
  unfold serdeNames
  rw [if_pos ⟨h3, h4⟩, h5, h1, h2]

/-- **C90.** A field with one attribute is left out of what is written if and only if `skip` or `skip_serializing` is among its
names; and of what is read, if and only if `skip` or `skip_deserializing` is. -/
theorem C90_skips (l : List SerdeItem) (hp : ∀ i ∈ l, PlainItem i) (hl : l ≠ []) :
    (skipsSer [serdeText l] = true ↔ ∃ i ∈ l, i.1 = c%"skip" ∨ i.1 = c%"skip_serializing") ∧
      (skipsDe [serdeText l] = true ↔ ∃ i ∈ l, i.1 = c%"skip" ∨ i.1 = c%"skip_deserializing") := by
  unfold skipsSer skipsDe
  simp only [List.any_cons, List.any_nil, Bool.or_false, C90_names l hp hl, Bool.or_eq_true, List.contains_iff_mem, List.mem_map]
  constructor
  · constructor
    · rintro (⟨i, hi, h⟩ | ⟨i, hi, h⟩)
      · exact ⟨i, hi, .inl h⟩
      · exact ⟨i, hi, .inr h⟩
    · rintro ⟨i, hi, h | h⟩
      · exact .inl ⟨i, hi, h⟩
      · exact .inr ⟨i, hi, h⟩
  · constructor
    · rintro (⟨i, hi, h⟩ | ⟨i, hi, h⟩)
      · exact ⟨i, hi, .inl h⟩
      · exact ⟨i, hi, .inr h⟩
    · rintro ⟨i, hi, h | h⟩
      · exact .inl ⟨i, hi, h⟩
      · exact .inr ⟨i, hi, h⟩

example : serdeText [(c%"default", some c%"f::<A, skip>"), (c%"skip_serializing", none)] =
    c%"serde(default = \"f::<A, skip>\", skip_serializing)" := by decide +kernel

example : skipsSer [c%"serde(default = \"f::<A, skip>\", skip_serializing)"] = true ∧
    skipsDe [c%"serde(default = \"f::<A, skip>\", skip_serializing)"] = false := by decide +kernel

/-! ## The derived implementations -/

section
variable {A : Type} {d : Derive A} {has : Ty → A → Prop}

/-- The values of the fields after reading. -/
def readBack (d : Derive A) : List FieldM → List (Val A) → List (Val A)
  | f :: fs, w :: ws => (if skipsDe f.attrs then d.dflt (f.attrs, f.ty) else w) :: readBack d fs ws
  | _, _ => []

theorem readBack_length : ∀ (fs : List FieldM) (ws : List (Val A)), fs.length = ws.length →
    (readBack d fs ws).length = ws.length
  | [], [], _ => rfl
  | _ :: fs, _ :: ws, h => by simp [readBack, readBack_length fs ws (by simpa using h)]

theorem derive_conforms {fs : List FieldM} {ws : List (Val A)} (h : SerdeOk d.sd has (fs.filter fun f => !skipsDe f.attrs))
    (hsym : ∀ f ∈ fs, skipsSer f.attrs = skipsDe f.attrs) (hw : List.Forall₂ (fun f w => HasTy has w f.ty) fs ws) :
    (SmallAll (d.serAll (schemaOf fs) ws) → EachConforms (d.serAll (schemaOf fs) ws) (d.schs (schemaOf fs))) ∧
      d.deAll (schemaOf fs) (d.serAll (schemaOf fs) ws) = some (readBack d fs ws) := by
  induction hw with
  | nil => exact ⟨fun _ => .nil, rfl⟩
  | @cons f w fs ws hf hr ih =>
    have hs := hsym f (by simp)
    have hsym' := fun g hg => hsym g (List.mem_cons_of_mem _ hg)
    simp only [schemaOf, List.map_cons, Derive.serAll, Derive.schs, Derive.deAll, readBack, hs]
    cases hk : skipsDe f.attrs with
    | true =>
      rw [List.filter_cons_of_neg (by simp [hk])] at h
      obtain ⟨h1, h2⟩ := ih h hsym'
      rw [schemaOf] at h1 h2
      simp only [if_true]
      exact ⟨h1, by rw [h2]; rfl⟩
    | false =>
      rw [List.filter_cons_of_pos (by simp [hk])] at h
      obtain ⟨h1, h2⟩ := ih (fun g hg => h g (List.mem_cons_of_mem _ hg)) hsym'
      obtain ⟨h3, h4⟩ := h f (by simp) w hf
      rw [schemaOf] at h1 h2
      simp only [Bool.false_eq_true, if_false]
      refine ⟨fun hs => .cons (h3 hs.1) (h1 hs.2), ?_⟩
      rw [h4, h2]
      rfl

/-- With fields that are not skipped, this is the model of C13 and C76. -/
theorem derive_plain {l : List (List Str × Ty)} (h : ∀ t ∈ l, skipsSer t.1 = false ∧ skipsDe t.1 = false) :
    d.schs l = d.sd.schs l ∧ (∀ ws, d.serAll l ws = d.sd.serAll l ws) ∧ ∀ vs, d.deAll l vs = d.sd.deAll l vs := by
  induction l with
  | nil => exact ⟨rfl, fun ws => by cases ws <;> rfl, fun vs => by cases vs <;> rfl⟩
  | cons t l ih =>
    obtain ⟨h1, h2, h3⟩ := ih fun t ht => h t (List.mem_cons_of_mem _ ht)
    obtain ⟨h4, h5⟩ := h t (by simp)
    refine ⟨?_, fun ws => ?_, fun vs => ?_⟩
    · simp [Derive.schs, Serde.schs, h5, h1]
    · cases ws with
      | nil => rfl
      | cons w ws => simp [Derive.serAll, Serde.serAll, h4, h2]
    · cases vs with
      | nil => simp [Derive.deAll, Serde.deAll, h5]
      | cons v vs => simp [Derive.deAll, Serde.deAll, h5, h3]

theorem fieldFor_attrs {im : ImplM} {c : Convs} {a : FnArg} {f : FieldM} (hf : FieldFor im c a f) : f.attrs = a.attrs := by
  obtain ⟨_, _, _, _, _, _, h1, h2⟩ := hf
  by_cases ha : a.attrs = []
  · rw [h1 ha, ha]
  · rw [h2 ha]

theorem fields_attrs {im : ImplM} {c : Convs} {l : List FnArg} {fs : List FieldM} (h : List.Forall₂ (FieldFor im c) l fs) :
    fs.map (·.attrs) = l.map (·.attrs) := by
  induction h with
  | nil => rfl
  | cons hf _ ih => rw [List.map_cons, List.map_cons, ih, fieldFor_attrs hf]

theorem phantoms_attrs (n : Nat) (gs : List GParam) : ∀ f ∈ (phantomFields n gs).1, f.attrs = [] := by
  induction gs generalizing n with
  | nil => simp [phantomFields]
  | cons g gs ih =>
    cases g <;> simp only [phantomFields, List.mem_cons]
    · rintro f (rfl | hf)
      · rfl
      · exact ih _ f hf
    · rintro f (rfl | hf)
      · rfl
      · exact ih _ f hf
    · exact ih _

theorem fields_sym {x : ArgsIn} {n n' : Nat} {fs : List FieldM} (h : argsFields x n = .ok (fs, n'))
    (hsym : ∀ a ∈ x.inputs, skipsSer a.attrs = skipsDe a.attrs) : ∀ f ∈ fs, skipsSer f.attrs = skipsDe f.attrs := by
  obtain ⟨fs1, c', h1, rfl, -⟩ := argsFields_ok h
  obtain ⟨hF, -⟩ := mapArgs_ok (ofOpts_get_ne_none x.convert) h1
  intro f hf
  rcases List.mem_append.mp hf with hf | hf
  · have h2 : f.attrs ∈ x.inputs.map (·.attrs) := fields_attrs hF ▸ List.mem_map_of_mem hf
    obtain ⟨a, ha, h3⟩ := List.mem_map.mp h2
    rw [← h3]
    exact hsym a ha
  · rw [phantoms_attrs _ _ f hf]
    rfl

theorem serAll_kept : ∀ (fs : List FieldM) (args : ArgsVal A), (∀ f ∈ fs, skipsSer f.attrs = skipsDe f.attrs) →
    d.serAll (schemaOf fs) (args.map (·.2.2)) = d.sd.serAll (schemaOf (fs.filter fun f => !skipsDe f.attrs))
      (((fs.zip args).filter fun q => !skipsDe q.1.attrs).map (·.2.2.2))
  | [], _, _ => rfl
  | f :: fs, [], _ => by
    simp only [List.zip_nil_right, List.filter_nil, List.map_nil]
    rw [show d.serAll (schemaOf (f :: fs)) [] = .nil from rfl]
    cases List.filter (fun f : FieldM => !skipsDe f.attrs) (f :: fs) <;> rfl
  | f :: fs, a :: args, h => by
    have ih := serAll_kept fs args fun f hf => h f (List.mem_cons_of_mem _ hf)
    rw [schemaOf] at ih
    simp only [schemaOf, List.map_cons, Derive.serAll, h f (by simp), List.zip_cons_cons]
    cases hk : skipsDe f.attrs with
    | true =>
      rw [List.filter_cons_of_neg (by simp [hk]), List.filter_cons_of_neg (by simp [hk]), if_pos rfl, ih]
      rfl
    | false =>
      rw [List.filter_cons_of_pos (by simp [hk]), List.filter_cons_of_pos (by simp [hk]), if_neg (by simp), ih]
      rfl

/-- As `fields_build`, with the values after reading. -/
theorem fields_read {S : Sem A} (hS : Lawful S has) {im : ImplM} {convert : List (Ty × Ty)} {env : Str → Option (Val A)}
    {ph : List FieldM} (hph : ∀ f ∈ ph, f.de = none ∧ f.ser = .phantom ∧ ∃ ps, f.ty = tyPhantom ps) :
    ∀ {l : List FnArg} {ts : List Ty} {vs : List (Val A)} {fs : List FieldM}, TypedCall S has im convert l ts vs →
      List.Forall₂ (FieldFor im (Convs.ofOpts convert)) l fs →
      (∀ (k : Nat) a b v, l[k]? = some a → a.binder = some b → vs[k]? = some v → env b = some v) →
      ∃ ws, buildArgsVal S env (fs ++ ph) = some (((fs ++ ph).zip ws).map fun p => (p.1.ident, p.1.ty, p.2)) ∧
        List.Forall₂ (fun f w => HasTy has w f.ty) (fs ++ ph) ws ∧
        ∀ args : ArgsVal A, (∀ p ∈ (fs ++ ph).zip (readBack d (fs ++ ph) ws), args.lookup p.1.ident = some (p.1.ty, p.2)) →
          callArgs S args (fs ++ ph) ts = some (Defaulted d.dflt l ts vs)
  | _, _, _, _, .nil, .nil, _ => by
    obtain ⟨ws, h1, h2, h3⟩ := phantoms_build hS (env := env) ph hph
    exact ⟨ws, h1, h2, fun args _ => h3 args⟩
  | _, _, _, f :: fs, .cons (a := a) (t := t) (v := v) ht hv hp hi hcl hb hr, .cons hf hF, henv => by
    obtain ⟨ws, h1, h2, h3⟩ := fields_read hS hph hr hF fun k a b v ha hb hv => henv (k + 1) a b v ha hb hv
    obtain ⟨b, hb⟩ := Option.ne_none_iff_exists'.mp hb
    obtain ⟨w, g1, g2, e, g3, g4⟩ := fieldFor_restores hS hf ht hv hp hi hcl hb (henv 0 a b v rfl hb rfl)
    have hattrs := fieldFor_attrs hf
    refine ⟨w :: ws, ?_, .cons g2 h2, fun args ha => ?_⟩
    · rw [List.cons_append, buildArgsVal, g1, h1]; rfl
    · rw [List.cons_append, callArgs, g3]
      simp only [Defaulted]
      have h4 := ha (f, if skipsDe f.attrs then d.dflt (f.attrs, f.ty) else w) (by simp [readBack])
      rw [h3 args fun p hp => ha p (List.mem_cons_of_mem _ hp)]
      cases hk : skipsDe f.attrs with
      | false =>
        simp only [hk, Bool.false_eq_true, if_false] at h4
        rw [g4 args h4, ← hattrs, hk]
        rfl
      | true =>
        simp only [hk, if_true] at h4
        have hne : a.attrs ≠ [] := by
          intro h
          rw [hattrs, h] at hk
          simp [skipsDe] at hk
        obtain ⟨t', b', ck, ht', -, -, -, h2⟩ := hf
        obtain rfl := argTy_unique ht' ht
        have h2 := h2 hne
        have h5 : f.ty = t' := by rw [h2]
        have h6 : some e = some (DeE.field f.ident) := by rw [← g3, h2]
        obtain rfl := Option.some.inj h6
        rw [← hattrs, hk]
        simp only [DeE.eval, h4, Option.map_some, if_true, h5]

/-- What is written, and what is called for it, for any format. -/
theorem skip_format {S : Sem A} (hS : Lawful S has) (x : ArgsIn) (n n' : Nat) (fs : List FieldM)
    (h : argsFields x n = .ok (fs, n')) (tys : List Ty) (vs : List (Val A))
    (hcall : TypedCall S has x.impl x.convert x.inputs tys vs) (hbind : (hidingNames ++ x.inputs.filterMap (·.binder)).Nodup)
    (hnames : (ownNames x.inputs).Nodup) (hnum : ∀ i ∈ ownNames x.inputs, ¬ IsNumbered i)
    (hsym : ∀ a ∈ x.inputs, skipsSer a.attrs = skipsDe a.attrs)
    (hsd : SerdeOk d.sd has (fs.filter fun f => !skipsDe f.attrs)) (enc : SVal → Bytes) (dec : Sch → Bytes → Option SVal) :
    ∃ (args : ArgsVal A) (vals : SVals), buildArgsVal S (recordingEnv (argEnv x.inputs vs)) fs = some args ∧
      vals = d.serAll (schemaOf fs) (args.map (·.2.2)) ∧
      serArgs S (d.codec enc dec) x.inputs fs vs = .ok (enc (.tuple vals)) ∧
      (Small (.tuple vals) → Conforms (.tuple vals) (.tuple (d.schs (schemaOf fs)))) ∧
      (∀ b, dec (.tuple (d.schs (schemaOf fs))) b = some (.tuple vals) →
        deArgs S (d.codec enc dec) tys fs b = some (Defaulted d.dflt x.inputs tys vs)) ∧
      ∀ b, dec (.tuple (d.schs (schemaOf fs))) b = none → deArgs S (d.codec enc dec) tys fs b = none := by
  have hd := C55_distinct x n n' fs h hnames hnum
  have hsym' := fields_sym h hsym
  obtain ⟨fs1, c', h1, rfl, -⟩ := argsFields_ok h
  obtain ⟨hF, -⟩ := mapArgs_ok (ofOpts_get_ne_none x.convert) h1
  obtain ⟨ws, g1, g2, g3⟩ := fields_read (d := d) hS (phantomFields_idents x.generics n).2.2.2 hcall hF
    (env := recordingEnv (argEnv x.inputs vs)) (recordingEnv_get hbind)
  obtain ⟨k1, k2⟩ := derive_conforms hsd hsym' g2
  have hw : (((fs1 ++ (phantomFields n x.generics).1).zip ws).map fun p => (p.1.ident, p.1.ty, p.2)).map (·.2.2) = ws := by
    rw [List.map_map]
    exact List.map_snd_zip (Nat.le_of_eq g2.length_eq.symm)
  refine ⟨_, _, g1, rfl, ?_, ?_, fun b hb => ?_, fun b hb => ?_⟩
  · unfold serArgs
    rw [g1]
    rfl
  · rw [hw]
    exact fun hs => .tuple (k1 hs)
  · rw [hw] at hb
    unfold deArgs
    simp only [Derive.codec, hb, k2]
    exact g3 _ (lookup_zip hd)
  · unfold deArgs
    simp only [Derive.codec, hb]

end

/-- **C90.** In the default format, with arguments of which some are skipped (in both directions), for all parameter lists and
values: a call is always recorded; what is written is what the fields that are not skipped have, and nothing is asked of the
types of the others, which need not be serialisable. If it fits in the sliding buffer, whatever begins with it is replayed as a
call with the same values, except that those skipped are defaults; otherwise, it is not replayed at all. -/
theorem C90_skip {A : Type} (S : Sem A) (has : Ty → A → Prop) (hS : Lawful S has) (d : Derive A) (p : Policy) (x : ArgsIn)
    (n n' : Nat) (fs : List FieldM) (h : argsFields x n = .ok (fs, n')) (tys : List Ty) (vs : List (Val A))
    (hcall : TypedCall S has x.impl x.convert x.inputs tys vs) (hbind : (hidingNames ++ x.inputs.filterMap (·.binder)).Nodup)
    (hnames : (ownNames x.inputs).Nodup) (hnum : ∀ i ∈ ownNames x.inputs, ¬ IsNumbered i)
    (hsym : ∀ a ∈ x.inputs, skipsSer a.attrs = skipsDe a.attrs)
    (hsd : SerdeOk d.sd has (fs.filter fun f => !skipsDe f.attrs)) :
    ∃ (args : ArgsVal A) (v : SVal), buildArgsVal S (recordingEnv (argEnv x.inputs vs)) fs = some args ∧
      v = .tuple (d.sd.serAll (schemaOf (fs.filter fun f => !skipsDe f.attrs))
        (((fs.zip args).filter fun q => !skipsDe q.1.attrs).map (·.2.2.2))) ∧
      serArgs S (d.post p) x.inputs fs vs = .ok (postSerialize v) ∧
      (Small v → Fits p v 2048 → ∀ r, deArgs S (d.post p) tys fs (postSerialize v ++ r) = some (Defaulted d.dflt x.inputs tys vs)) ∧
      (Small v → ¬ Fits p v 2048 → ∀ r, deArgs S (d.post p) tys fs (postSerialize v ++ r) = none) := by
  obtain ⟨args, vals, h1, h2, h3, h4, h5, h6⟩ := skip_format (d := d) hS x n n' fs h tys vs hcall hbind hnames hnum hsym hsd
    postSerialize (postDeserialize p)
  refine ⟨args, .tuple vals, h1, ?_, h3, fun hv hf r => ?_, fun hv hf r => ?_⟩
  · rw [h2, serAll_kept fs args (fields_sym h hsym)]
  · exact h5 _ ((C16_round_trip p _ _ (h4 hv) r).1 hf)
  · exact h6 _ ((C16_round_trip p _ _ (h4 hv) r).2 hf)

/-- **C90.** The same with bincode. -/
theorem C90_skip_bincode {A : Type} (S : Sem A) (has : Ty → A → Prop) (hS : Lawful S has) (d : Derive A) (x : ArgsIn)
    (n n' : Nat) (fs : List FieldM) (h : argsFields x n = .ok (fs, n')) (tys : List Ty) (vs : List (Val A))
    (hcall : TypedCall S has x.impl x.convert x.inputs tys vs) (hbind : (hidingNames ++ x.inputs.filterMap (·.binder)).Nodup)
    (hnames : (ownNames x.inputs).Nodup) (hnum : ∀ i ∈ ownNames x.inputs, ¬ IsNumbered i)
    (hsym : ∀ a ∈ x.inputs, skipsSer a.attrs = skipsDe a.attrs)
    (hsd : SerdeOk d.sd has (fs.filter fun f => !skipsDe f.attrs)) :
    ∃ (args : ArgsVal A) (v : SVal), buildArgsVal S (recordingEnv (argEnv x.inputs vs)) fs = some args ∧
      v = .tuple (d.sd.serAll (schemaOf (fs.filter fun f => !skipsDe f.attrs))
        (((fs.zip args).filter fun q => !skipsDe q.1.attrs).map (·.2.2.2))) ∧
      serArgs S d.bin x.inputs fs vs = .ok (binSerialize v) ∧
      (Small v → claimed (.tuple (d.schs (schemaOf fs))) v ≤ 2 ^ 30 → ∀ r,
        deArgs S d.bin tys fs (binSerialize v ++ r) = some (Defaulted d.dflt x.inputs tys vs)) ∧
      (Small v → 2 ^ 30 < claimed (.tuple (d.schs (schemaOf fs))) v → ∀ r,
        deArgs S d.bin tys fs (binSerialize v ++ r) = none) := by
  obtain ⟨args, vals, h1, h2, h3, h4, h5, h6⟩ := skip_format (d := d) hS x n n' fs h tys vs hcall hbind hnames hnum hsym hsd
    binSerialize binDeserialize
  refine ⟨args, .tuple vals, h1, ?_, h3, fun hv hf r => ?_, fun hv hf r => ?_⟩
  · rw [h2, serAll_kept fs args (fields_sym h hsym)]
  · exact h5 _ ((C76_round_trip _ _ (h4 hv) r).1 hf)
  · exact h6 _ ((C76_round_trip _ _ (h4 hv) r).2 hf)

/-- **C90.** Where no argument is skipped, this is the format that C13 and C76 are about. -/
theorem C90_none {A : Type} (S : Sem A) (d : Derive A) (p : Policy) (x : ArgsIn) (n n' : Nat) (fs : List FieldM)
    (h : argsFields x n = .ok (fs, n')) (ha : ∀ a ∈ x.inputs, skipsSer a.attrs = false ∧ skipsDe a.attrs = false) :
    (∀ vs, serArgs S (d.post p) x.inputs fs vs = serArgs S (postCodec d.sd p) x.inputs fs vs ∧
      serArgs S d.bin x.inputs fs vs = serArgs S (binCodec d.sd) x.inputs fs vs) ∧
    ∀ tys b, deArgs S (d.post p) tys fs b = deArgs S (postCodec d.sd p) tys fs b ∧
      deArgs S d.bin tys fs b = deArgs S (binCodec d.sd) tys fs b := by
  have hk : ∀ t ∈ schemaOf fs, skipsSer t.1 = false ∧ skipsDe t.1 = false := by
    obtain ⟨fs1, c', h1, rfl, -⟩ := argsFields_ok h
    obtain ⟨hF, -⟩ := mapArgs_ok (ofOpts_get_ne_none x.convert) h1
    intro t ht
    obtain ⟨f, hf, rfl⟩ := List.mem_map.mp ht
    rcases List.mem_append.mp hf with hf | hf
    · have h2 : f.attrs ∈ x.inputs.map (·.attrs) := fields_attrs hF ▸ List.mem_map_of_mem hf
      obtain ⟨a, ha', h3⟩ := List.mem_map.mp h2
      simp only
      rw [← h3]
      exact ha a ha'
    · simp only
      rw [phantoms_attrs _ _ f hf]
      exact ⟨rfl, rfl⟩
  obtain ⟨h1, h2, h3⟩ := derive_plain (d := d) hk
  refine ⟨fun vs => ⟨?_, ?_⟩, fun tys b => ⟨?_, ?_⟩⟩
  · simp only [serArgs, Derive.post, Derive.codec, postCodec, h2]
  · simp only [serArgs, Derive.bin, Derive.codec, binCodec, h2]
  · simp only [deArgs, Derive.post, Derive.codec, postCodec, h1, h3]
    rfl
  · simp only [deArgs, Derive.bin, Derive.codec, binCodec, h1, h3]
    rfl

/-! ## What is not written is forgotten -/

theorem mapTypedArg_congr {A : Type} {S : Sem A} {env env' : Str → Option (Val A)} (i : Str) (c : Convs) :
    ∀ (e : SerE) (t : Ty), e.eval S env = e.eval S env' →
      (mapTypedArg i c e t).ser.eval S env = (mapTypedArg i c e t).ser.eval S env'
  | e, .path q lead segs, h => by
    unfold mapTypedArg
    split <;> simp [SerE.eval, mapPathArg, h]
  | e, .slice t, h => by
    unfold mapTypedArg
    split <;> simp [SerE.eval, mapPathArg, h]
  | e, .other ps, h => by
    unfold mapTypedArg
    split <;> simp [SerE.eval, mapPathArg, h]
  | e, .ref lt m t, h => by
    have hd : (SerE.deref e).eval S env = (SerE.deref e).eval S env' := by simp [SerE.eval, h]
    unfold mapTypedArg
    split
    · simp [SerE.eval, h]
    · split
      · split
        · simp [SerE.eval, h]
        · simp [SerE.eval, mapPathArg, h]
      · simp [SerE.eval, h]
      · exact mapTypedArg_congr i c _ _ hd

theorem fieldFor_congr {A : Type} {S : Sem A} {env env' : Str → Option (Val A)} {im : ImplM} {c : Convs} {a : FnArg} {f : FieldM}
    (hf : FieldFor im c a f) {b : Str} (hb : a.binder = some b) (h : env b = env' b) :
    f.ser.eval S env = f.ser.eval S env' := by
  obtain ⟨t, b', ck, -, -, hb', h1, h2⟩ := hf
  obtain rfl := hb' b hb
  have hv : (SerE.var b).eval S env = (SerE.var b).eval S env' := h
  by_cases ha : a.attrs = []
  · rw [h1 ha]
    exact mapTypedArg_congr _ _ _ _ hv
  · rw [h2 ha]
    simp only [SerE.eval, h]

theorem serAll_congr {A : Type} {d : Derive A} {S : Sem A} {env env' : Str → Option (Val A)} : ∀ {fs : List FieldM}
    {args args' : ArgsVal A}, buildArgsVal S env fs = some args → buildArgsVal S env' fs = some args' →
      (∀ f ∈ fs, skipsSer f.attrs = false → f.ser.eval S env = f.ser.eval S env') →
      d.serAll (schemaOf fs) (args.map (·.2.2)) = d.serAll (schemaOf fs) (args'.map (·.2.2))
  | [], _, _, _, _, _ => rfl
  | f :: fs, args, args', h1, h2, h => by
    unfold buildArgsVal at h1 h2
    cases e1 : f.ser.eval S env with
    | none => simp [e1] at h1
    | some v =>
      cases e2 : buildArgsVal S env fs with
      | none => simp [e1, e2] at h1
      | some r =>
        cases e3 : f.ser.eval S env' with
        | none => simp [e3] at h2
        | some v' =>
          cases e4 : buildArgsVal S env' fs with
          | none => simp [e3, e4] at h2
          | some r' =>
            simp only [e1, e2, e3, e4, Option.some.injEq] at h1 h2
            subst h1 h2
            have ih := serAll_congr (d := d) e2 e4 fun f hf => h f (List.mem_cons_of_mem _ hf)
            rw [schemaOf] at ih
            simp only [schemaOf, List.map_cons, Derive.serAll]
            cases hk : skipsSer f.attrs with
            | true => simpa using ih
            | false =>
              have := h f (by simp) hk
              rw [e1, e3] at this
              obtain rfl := Option.some.inj this
              simp [ih]

theorem sameWritten_get {A : Type} : ∀ {l : List FnArg} {vs us : List (Val A)}, SameWritten l vs us → ∀ (k : Nat) (a : FnArg),
    l[k]? = some a → skipsSer a.attrs = false → vs[k]? = us[k]? ∧ ∃ v, vs[k]? = some v
  | _, _, _, .nil, k, a, h, _ => by simp at h
  | _, _, _, .cons (v := v) hv hr, 0, a, h, hs => by
    obtain rfl := Option.some.inj h
    obtain rfl := hv hs
    exact ⟨rfl, v, rfl⟩
  | _, _, _, .cons hv hr, k + 1, a, h, hs => by
    simpa using sameWritten_get hr k a h hs

/-- **C90.** Calls that differ only in arguments that are not written are recorded as the same bytes, hence in one file. -/
theorem C90_forgotten {A : Type} (S : Sem A) (has : Ty → A → Prop) (hS : Lawful S has) (d : Derive A)
    (enc : SVal → Bytes) (dec : Sch → Bytes → Option SVal) (x : ArgsIn)
    (n n' : Nat) (fs : List FieldM) (h : argsFields x n = .ok (fs, n')) (tys : List Ty) (vs us : List (Val A))
    (hvs : TypedCall S has x.impl x.convert x.inputs tys vs) (hus : TypedCall S has x.impl x.convert x.inputs tys us)
    (hbind : (hidingNames ++ x.inputs.filterMap (·.binder)).Nodup) (hsame : SameWritten x.inputs vs us) :
    serArgs S (d.codec enc dec) x.inputs fs vs = serArgs S (d.codec enc dec) x.inputs fs us := by
  obtain ⟨fs1, c', h1, rfl, -⟩ := argsFields_ok h
  obtain ⟨hF, -⟩ := mapArgs_ok (ofOpts_get_ne_none x.convert) h1
  obtain ⟨ws, g1, -⟩ := fields_build hS (phantomFields_idents x.generics n).2.2.2 hvs hF
    (env := recordingEnv (argEnv x.inputs vs)) (recordingEnv_get hbind)
  obtain ⟨ws', g1', -⟩ := fields_build hS (phantomFields_idents x.generics n).2.2.2 hus hF
    (env := recordingEnv (argEnv x.inputs us)) (recordingEnv_get hbind)
  unfold serArgs
  rw [g1, g1']
  simp only [Derive.codec]
  rw [serAll_congr g1 g1']
  intro f hf0 hs
  rcases List.mem_append.mp hf0 with hf | hf
  · clear hf0
    obtain ⟨k, hk⟩ := List.mem_iff_getElem?.mp hf
    obtain ⟨a, ha, hfa⟩ : ∃ a, x.inputs[k]? = some a ∧ FieldFor x.impl (Convs.ofOpts x.convert) a f := by
      clear h h1 g1 g1' hvs hus hbind hsame hf hs
      generalize x.inputs = l at hF
      induction hF generalizing k with
      | nil => simp at hk
      | cons hx _ ih =>
        cases k with
        | zero => obtain rfl := Option.some.inj hk; exact ⟨_, rfl, hx⟩
        | succ k => exact ih k hk
    rw [fieldFor_attrs hfa] at hs
    obtain ⟨b, hb⟩ : ∃ b, a.binder = some b := by
      clear h h1 g1 g1' hus hbind hsame hF hfa hs hk hf
      generalize x.inputs = l at ha hvs
      induction hvs generalizing k with
      | nil => simp at ha
      | cons _ _ _ _ _ hb _ ih =>
        cases k with
        | zero => obtain rfl := Option.some.inj ha; exact Option.ne_none_iff_exists'.mp hb
        | succ k => exact ih k ha
    obtain ⟨e1, v, e2⟩ := sameWritten_get hsame k a ha hs
    refine fieldFor_congr hfa hb ?_
    rw [recordingEnv_get hbind k a b v ha hb e2, recordingEnv_get hbind k a b v ha hb (e1 ▸ e2)]
  · rw [((phantomFields_idents x.generics n).2.2.2 f hf).2.1]
    rfl

/-! ## Fields that are skipped in one direction only -/

mutual

theorem dec_empty (p : Policy) : ∀ (s : Sch) (buf : Nat) (v : SVal) (buf' : Nat) (b : Bytes),
    s.dec p buf [] = some (v, buf', b) → b = [] ∧ ¬ Needs s
  | .bool, _, _, _, _, h => by cases h
  | .byte, _, _, _, _, h => by cases h
  | .uint w, _, _, _, _, h => by cases w <;> cases h
  | .int w, _, _, _, _, h => by cases w <;> cases h
  | .float n, buf, v, buf', b, h => by
    simp only [Sch.dec, takeN, Option.bind_eq_bind] at h
    obtain ⟨⟨x, bu, b'⟩, h1, h2⟩ := Option.bind_eq_some_iff.mp h
    obtain ⟨c, -, h3⟩ := Option.bind_eq_some_iff.mp h1
    simp only [Option.some.injEq, Prod.mk.injEq] at h2
    obtain ⟨-, -, rfl⟩ := h2
    split at h3
    · rename_i hn
      simp only [List.length_nil] at hn
      simp only [List.drop_nil, Option.some.injEq, Prod.mk.injEq] at h3
      exact ⟨h3.2.2.symm, fun h => by simp only [Needs] at h; omega⟩
    · cases h3
  | .char, _, _, _, _, h => by cases h
  | .string, _, _, _, _, h => by cases h
  | .bytes, _, _, _, _, h => by cases h
  | .unit, _, _, _, _, h => by cases h; exact ⟨rfl, id⟩
  | .option s, _, _, _, _, h => by cases h
  | .seq s, _, _, _, _, h => by cases h
  | .tuple ss, buf, v, buf', b, h => by
    simp only [Sch.dec, Option.bind_eq_bind] at h
    obtain ⟨⟨x, bu, b'⟩, h1, h2⟩ := Option.bind_eq_some_iff.mp h
    simp only [Option.some.injEq, Prod.mk.injEq] at h2
    obtain ⟨-, -, rfl⟩ := h2
    exact decAll_empty p ss _ _ _ _ h1
  | .enum ss, _, _, _, _, h => by cases h

theorem decAll_empty (p : Policy) : ∀ (ss : Schs) (buf : Nat) (vs : SVals) (buf' : Nat) (b : Bytes),
    ss.decAll p buf [] = some (vs, buf', b) → b = [] ∧ ¬ NeedsOne ss
  | .nil, _, _, _, _, h => by cases h; exact ⟨rfl, id⟩
  | .cons s r, buf, vs, buf', b, h => by
    simp only [Schs.decAll, Option.bind_eq_bind] at h
    obtain ⟨⟨x, bu, b'⟩, h1, h⟩ := Option.bind_eq_some_iff.mp h
    obtain ⟨⟨xs, bu', b''⟩, h2, h⟩ := Option.bind_eq_some_iff.mp h
    simp only [Option.some.injEq, Prod.mk.injEq] at h
    obtain ⟨-, -, rfl⟩ := h
    obtain ⟨rfl, h3⟩ := dec_empty p s _ _ _ _ h1
    obtain ⟨h4, h5⟩ := decAll_empty p r _ _ _ _ h2
    exact ⟨h4, fun h => h.elim h3 h5⟩

end

section
variable {A : Type} {d : Derive A} {has : Ty → A → Prop}

theorem one_sided (p : Policy) {f : FieldM} (w : Val A) (h1 : skipsSer f.attrs = true) (h2 : skipsDe f.attrs = false)
    (h3 : Needs (d.sd.sch (f.attrs, f.ty))) {pre : List FieldM} {ws : List (Val A)}
    (h : SerdeOk d.sd has (pre.filter fun f => !skipsDe f.attrs))
    (hsym : ∀ f ∈ pre, skipsSer f.attrs = skipsDe f.attrs) (hw : List.Forall₂ (fun f w => HasTy has w f.ty) pre ws) :
    ∀ buf, SmallAll (d.serAll (schemaOf (pre ++ [f])) (ws ++ [w])) →
      (d.schs (schemaOf (pre ++ [f]))).decAll p buf (d.serAll (schemaOf (pre ++ [f])) (ws ++ [w])).enc = none := by
  induction hw with
  | nil =>
    intro buf _
    simp only [List.nil_append, schemaOf, List.map_cons, List.map_nil, Derive.schs, Derive.serAll, h1, h2, if_true,
      Bool.false_eq_true, if_false, SVals.enc, Schs.decAll]
    cases hd : (d.sd.sch (f.attrs, f.ty)).dec p buf [] with
    | none => rfl
    | some q =>
      obtain ⟨v, buf', b⟩ := q
      exact absurd h3 (dec_empty p _ _ _ _ _ hd).2
  | @cons g u fs ws hg hr ih =>
    intro buf
    have hs := hsym g (by simp)
    have hsym' := fun g hg => hsym g (List.mem_cons_of_mem _ hg)
    simp only [List.cons_append, schemaOf, List.map_cons, Derive.serAll, Derive.schs, hs]
    cases hk : skipsDe g.attrs with
    | true =>
      rw [List.filter_cons_of_neg (by simp [hk])] at h
      simpa [schemaOf] using ih h hsym' buf
    | false =>
      rw [List.filter_cons_of_pos (by simp [hk])] at h
      simp only [Bool.false_eq_true, if_false]
      intro hsm
      obtain ⟨g1, -⟩ := h g (by simp) u hg
      simp only [SVals.enc, Schs.decAll, dec_enc p (g1 hsm.1), ReadsBack]
      cases p.takes (chunks (d.sd.ser (g.attrs, g.ty) u)) buf with
      | none => rfl
      | some b =>
        simp only [Option.bind_eq_bind, Option.map_some, Option.bind_some]
        have := ih (fun g hg => h g (List.mem_cons_of_mem _ hg)) hsym' b
        rw [schemaOf] at this
        rw [this hsm.2]
        rfl

end

/-- **C90.** `skip_serializing` alone is a trap: if the last field is not written but read, and takes at least one byte, then
what is recorded for a call cannot be replayed, whatever the values. -/
theorem C90_one_sided {A : Type} (S : Sem A) (has : Ty → A → Prop) (hS : Lawful S has) (d : Derive A) (p : Policy) (x : ArgsIn)
    (n n' : Nat) (pre : List FieldM) (f : FieldM) (h : argsFields x n = .ok (pre ++ [f], n')) (tys : List Ty) (vs : List (Val A))
    (hcall : TypedCall S has x.impl x.convert x.inputs tys vs) (hbind : (hidingNames ++ x.inputs.filterMap (·.binder)).Nodup)
    (h1 : skipsSer f.attrs = true) (h2 : skipsDe f.attrs = false) (h3 : Needs (d.sd.sch (f.attrs, f.ty)))
    (hsym : ∀ f ∈ pre, skipsSer f.attrs = skipsDe f.attrs)
    (hsd : SerdeOk d.sd has (pre.filter fun f => !skipsDe f.attrs)) :
    ∃ (args : ArgsVal A) (vals : SVals), buildArgsVal S (recordingEnv (argEnv x.inputs vs)) (pre ++ [f]) = some args ∧
      vals = d.serAll (schemaOf (pre ++ [f])) (args.map (·.2.2)) ∧
      serArgs S (d.post p) x.inputs (pre ++ [f]) vs = .ok (postSerialize (.tuple vals)) ∧
      (SmallAll vals → deArgs S (d.post p) tys (pre ++ [f]) (postSerialize (.tuple vals)) = none) := by
  obtain ⟨fs1, c', k1, hfs, -⟩ := argsFields_ok h
  obtain ⟨hF, -⟩ := mapArgs_ok (ofOpts_get_ne_none x.convert) k1
  obtain ⟨ws, g1, g2, -⟩ := fields_build hS (phantomFields_idents x.generics n).2.2.2 hcall hF
    (env := recordingEnv (argEnv x.inputs vs)) (recordingEnv_get hbind)
  rw [← hfs] at g1 g2
  have hw : (((pre ++ [f]).zip ws).map fun p => (p.1.ident, p.1.ty, p.2)).map (·.2.2) = ws := by
    rw [List.map_map]
    exact List.map_snd_zip (Nat.le_of_eq g2.length_eq.symm)
  obtain ⟨ws1, w, rfl, g3⟩ : ∃ ws1 w, ws = ws1 ++ [w] ∧ List.Forall₂ (fun f w => HasTy has w f.ty) pre ws1 := by
    clear g1 hw h hfs hsym hsd
    induction pre generalizing ws with
    | nil =>
      cases g2 with
      | cons _ hr => cases hr; exact ⟨[], _, rfl, .nil⟩
    | cons g pre ih =>
      cases g2 with
      | cons hg hr =>
        obtain ⟨ws1, w, rfl, h⟩ := ih _ hr
        exact ⟨_ :: ws1, w, rfl, .cons hg h⟩
  refine ⟨_, d.serAll (schemaOf (pre ++ [f])) (ws1 ++ [w]), g1, by rw [hw], ?_, fun hsm => ?_⟩
  · unfold serArgs
    rw [g1]
    simp only [hw, Derive.post, Derive.codec]
  · have := one_sided p w h1 h2 h3 hsd hsym g3 slidingBufferSize hsm
    unfold deArgs
    simp only [Derive.post, Derive.codec, postDeserialize, postSerialize, Sch.dec, SVal.enc, this]
    rfl

/-! ## Cases -/

/-- **C90.** The attributes of arguments are moved: the field for an argument has them, and the function that replaces the
target has none. -/
theorem C90_moved (fz : Bool) (im : Option ImplIn) (o : AttrOpts) (f : FnIn) (n n' : Nat) (m : MethodM) (mo : ModuleM)
    (h : mapMethodOrFn fz im o f n = .ok (m, mo, n')) (k : Nat) :
    (∀ at' mu kd, f.inputs[k]? = some (.receiver at' mu kd) → m.inputs[k]? = some (.receiver [] mu kd) ∧
      ∀ fs, mo.fields = some fs → ∃ g, fs[k]? = some g ∧ g.attrs = at') ∧
    (∀ at' p t, f.inputs[k]? = some (.typed at' p t) → m.inputs[k]? = some (.typed [] p t) ∧
      ∀ fs, mo.fields = some fs → ∃ g, fs[k]? = some g ∧ g.attrs = at') ∧
    (f.inputs[k]? = none → m.inputs[k]? = none) := by
  obtain ⟨ra, fs0, ret, ca, -, h2, -, -, rfl, rfl, -⟩ := mapMethodOrFn_ok h
  have key : ∀ a, f.inputs[k]? = some a → ∀ fs, (if o.onlyGenericArgs then none else some fs0) = some fs →
      ∃ g, fs[k]? = some g ∧ g.attrs = a.attrs := by
    intro a ha fs hf
    split at hf
    · cases hf
    cases hf
    obtain ⟨fs1, c', h1, rfl, -⟩ := argsFields_ok h2
    obtain ⟨hF, -⟩ := mapArgs_ok (ofOpts_get_ne_none o.convert) h1
    obtain ⟨g, hg, h3⟩ := forall2_get hF k a ha
    have hlen : k < fs1.length := (List.getElem?_eq_some_iff.mp hg).1
    exact ⟨g, by rw [List.getElem?_append_left hlen, hg], fieldFor_attrs h3⟩
  refine ⟨fun at' mu kd hk => ⟨?_, fun fs hf => ?_⟩, fun at' p t hk => ⟨?_, fun fs hf => ?_⟩, fun hk => ?_⟩
  · simp only [List.getElem?_map, hk]; rfl
  · exact key _ hk fs hf
  · simp only [List.getElem?_map, hk]; rfl
  · exact key _ hk fs hf
  · simp only [List.getElem?_map, hk]; rfl

namespace SkipDemo

open RoundDemo

/-- `fn target(#[serde(skip)] context: Context, x: u8)`, as in README.md:199-223; there is no `Serialize` for `Context`. -/
def x : ArgsIn where
  impl := none
  generics := []
  convert := []
  inputs := [.typed [c%"serde(skip)"] ⟨[c%"context"], true⟩ (.name c%"Context"), .typed [] ⟨[c%"x"], true⟩ u8]

def fields : List FieldM :=
  [⟨[c%"serde(skip)"], c%"context", .name c%"Context", .cloneAs (.name c%"Context") (.var c%"context"), some (.field c%"context")⟩,
   ⟨[], c%"x", u8, .clone (.var c%"x"), some (.field c%"x")⟩]

theorem fields_eq : argsFields x 0 = .ok (fields, 0) := by decide +kernel

def tys : List Ty := [.name c%"Context", u8]

/-- The context has a state, say 5. -/
def vs : List (Val DV) := [.base (.num 5), .base (.num 7)]

def derive : Derive DV where
  sd := sd
  dflt := fun _ => .base (.num 0)

theorem typed (k : Nat) : TypedCall sem has x.impl x.convert x.inputs tys [.base (.num k), .base (.num 7)] := by
  refine .cons (.free _ _ _ (by simp)) (.base ?_ ⟨fun h => (by cases h), fun h => (by cases h), fun h => (by cases h)⟩) ?_
      (by simp [FnArg.attrs]) (fun _ => trivial) (by simp [FnArg.binder]) <|
    .cons (.free _ _ _ (by simp)) (.base ?_ ⟨fun _ => ⟨7, by decide, rfl⟩, fun h => (by cases h), fun h => (by cases h)⟩) ?_ ?_
      (by simp [FnArg.attrs]) (by simp [FnArg.binder]) .nil
  · rintro ⟨l, hl⟩; cases hl
  · rintro ⟨l, hl⟩; cases hl
  · rintro ⟨l, hl⟩; cases hl
  · rintro ⟨l, hl⟩; cases hl
  · rintro _ u s a _ ⟨p, hp, -⟩
    simp [x] at hp

theorem serdeOk : SerdeOk derive.sd has (fields.filter fun f => !skipsDe f.attrs) := by
  rw [show fields.filter (fun f => !skipsDe f.attrs) = [⟨[], c%"x", u8, .clone (.var c%"x"), some (.field c%"x")⟩] from by
    decide +kernel]
  intro f hf w hw
  simp only [List.mem_singleton] at hf
  subst hf
  cases hw with
  | base _ h =>
    obtain ⟨n, hn, rfl⟩ := h.1 rfl
    exact ⟨fun _ => .byte _, by simp [derive, sd, Nat.mod_eq_of_lt hn]⟩

/-- `C90_skip` at work: one byte is written; the call is replayed with a new context. -/
example (p : Policy) (r : Bytes) :
    serArgs sem (derive.post p) x.inputs fields vs = .ok [7] ∧
      deArgs sem (derive.post p) tys fields ([7] ++ r) = some [.base (.num 0), .base (.num 7)] := by
  obtain ⟨args, v, h0, hv, h1, h2, -⟩ := C90_skip sem has lawful derive p x 0 0 fields fields_eq tys vs (typed 5) (by decide)
    (by decide)
    (by
      intro i hi
      simp [x, ownNames] at hi
      rcases hi with rfl | rfl <;> (rintro ⟨n, h⟩; cases h)) (by decide +kernel) serdeOk
  refine ⟨by rfl, ?_⟩
  obtain rfl : _ = args := Option.some.inj h0
  have hv : v = .tuple (.cons (.byte 7) .nil) := hv
  subst hv
  refine h2 ⟨trivial, trivial⟩ ?_ r
  cases p
  · exact fun n hn => by simp [chunks, chunksAll] at hn
  · show List.sum _ ≤ 2048; decide +kernel

/-- `C90_forgotten` at work: the state of the context is not in the file. -/
example (p : Policy) (k : Nat) : serArgs sem (derive.post p) x.inputs fields [.base (.num k), .base (.num 7)] =
    serArgs sem (derive.post p) x.inputs fields vs :=
  C90_forgotten sem has lawful derive _ _ x 0 0 fields fields_eq tys _ _ (typed k) (typed 5) (by decide)
    (.cons (fun h => absurd h (by decide +kernel)) (.cons (fun _ => rfl) .nil))

/-- `fn target(#[serde(skip_serializing)] x: u8)` -/
def x1 : ArgsIn where
  impl := none
  generics := []
  convert := []
  inputs := [.typed [c%"serde(skip_serializing)"] ⟨[c%"x"], true⟩ u8]

def field1 : FieldM := ⟨[c%"serde(skip_serializing)"], c%"x", u8, .cloneAs u8 (.var c%"x"), some (.field c%"x")⟩

theorem typed1 : TypedCall sem has x1.impl x1.convert x1.inputs [u8] [.base (.num 7)] := by
  refine .cons (.free _ _ _ (by simp)) (.base ?_ ⟨fun _ => ⟨7, by decide, rfl⟩, fun h => (by cases h), fun h => (by cases h)⟩) ?_
      (by simp [FnArg.attrs]) (fun _ => trivial) (by simp [FnArg.binder]) .nil
  · rintro ⟨l, hl⟩; cases hl
  · rintro ⟨l, hl⟩; cases hl

/-- `C90_one_sided` at work: an empty file is recorded, and it is not replayed. -/
example (p : Policy) : serArgs sem (derive.post p) x1.inputs [field1] [.base (.num 7)] = .ok [] ∧
    deArgs sem (derive.post p) [u8] [field1] [] = none := by
  obtain ⟨args, vals, h0, h1, -, h2⟩ := C90_one_sided sem has lawful derive p x1 0 0 [] field1 (by decide +kernel) [u8]
    [.base (.num 7)] typed1 (by decide) (by decide +kernel) (by decide +kernel) trivial (by simp) (fun f hf => by simp at hf)
  obtain rfl : _ = args := Option.some.inj h0
  have h1 : vals = .nil := h1
  subst h1
  exact ⟨by rfl, h2 trivial⟩

/-- `fn f(&self, #[serde(skip)] x: u8)`, with an attribute on the receiver, too. -/
def fn2 : FnIn := ⟨[], [], c%"f", [], [.receiver [c%"serde(default)"] false (.reference none false),
  .typed [c%"serde(skip)"] ⟨[c%"x"], true⟩ u8], none, []⟩

example : ∃ m mo n, mapMethodOrFn true (some ⟨[], ⟨none, .name c%"Foo"⟩⟩) {} fn2 0 = .ok (m, mo, n) ∧
    m.inputs = [.receiver [] false (.reference none false), .typed [] ⟨[c%"x"], true⟩ u8] ∧
    mo.fields.map (·.map (·.attrs)) = some [[c%"serde(default)"], [c%"serde(skip)"]] :=
  ⟨_, _, _, rfl, rfl, rfl⟩

end SkipDemo

end TF
