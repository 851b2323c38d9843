import Verif.Spec.DebugText
import Verif.Props.Misc
import Verif.Props.Module
import Verif.Props.Persistent

/-! # The text shown for arguments and results: C77 -/

namespace TF

open Spec

/-! ## Padding -/

/-- Indenting, character by character. -/
def padText (nl : Bool) : Str → Str
  | [] => []
  | c :: s => (if nl then c%"    " else []) ++ c :: padText (c == '\n') s

/-- Whether a line is about to begin after the text. -/
def padEnd (nl : Bool) : Str → Bool
  | [] => nl
  | c :: s => padEnd (c == '\n') s

theorem padText_append (nl : Bool) (a b : Str) : padText nl (a ++ b) = padText nl a ++ padText (padEnd nl a) b := by
  induction a generalizing nl with
  | nil => rfl
  | cons c a ih => simp [padText, padEnd, ih]

theorem padEnd_append (nl : Bool) (a b : Str) : padEnd nl (a ++ b) = padEnd (padEnd nl a) b := by
  induction a generalizing nl with
  | nil => rfl
  | cons c a ih => simp [padEnd, ih]

theorem splitInclusive_ne (s : Str) : ∀ l ∈ splitInclusive s, l ≠ [] := by
  induction s with
  | nil => simp [splitInclusive]
  | cons c s ih =>
    rw [splitInclusive]
    split
    · simpa using ih
    · split
      · simp
      · next l r h =>
        rw [h] at ih
        intro x hx
        rcases List.mem_cons.mp hx with rfl | hx
        · simp
        · exact ih _ (List.mem_cons_of_mem _ hx)

theorem padLines_split (nl : Bool) (s : Str) :
    (padLines nl (splitInclusive s)).1.flatten = padText nl s ∧ (padLines nl (splitInclusive s)).2 = padEnd nl s := by
  induction s generalizing nl with
  | nil => exact ⟨rfl, rfl⟩
  | cons c s ih =>
    rw [splitInclusive]
    split
    · next h =>
      subst h
      obtain ⟨h1, h2⟩ := ih true
      constructor
      · cases nl <;> simp [padLines, padText, h1]
      · simp [padLines, padEnd, h2]
    · next h =>
      have hc : (c == '\n') = false := by simpa using h
      obtain ⟨h1, h2⟩ := ih false
      split
      · next hs =>
        rw [hs] at h1 h2
        simp only [padLines, List.flatten_nil] at h1 h2
        cases nl <;> simp [padLines, padText, padEnd, hc, ← h1, ← h2]
      · next l r hs =>
        have hl : l ≠ [] := splitInclusive_ne s l (by simp [hs])
        rw [hs] at h1 h2
        have hg : (c :: l).getLast? = l.getLast? := by
          cases l with
          | nil => exact absurd rfl hl
          | cons => simp [List.getLast?_cons_cons]
        simp only [padLines, Bool.false_eq_true, if_false] at h1 h2
        refine ⟨?_, ?_⟩
        · rw [padText, hc, ← h1]
          simp only [padLines, hg]
          cases nl <;> simp
        · rw [padEnd, hc, ← h2]
          simp only [padLines, hg]

theorem padPieces_text (nl : Bool) (l : List Str) :
    (padPieces nl l).1.flatten = padText nl l.flatten ∧ (padPieces nl l).2 = padEnd nl l.flatten := by
  induction l generalizing nl with
  | nil => exact ⟨rfl, rfl⟩
  | cons s l ih =>
    obtain ⟨h1, h2⟩ := padLines_split nl s
    obtain ⟨h3, h4⟩ := ih (padLines nl (splitInclusive s)).2
    rw [h2] at h3 h4
    simp [padPieces, h1, h2, h3, h4, padText_append, padEnd_append]

theorem padText_line (l s : Str) (h : '\n' ∉ l) (nl : Bool) :
    padText nl (l ++ '\n' :: s) = (if nl then c%"    " else []) ++ l ++ '\n' :: padText true s := by
  induction l generalizing nl with
  | nil => simp [padText]
  | cons c l ih =>
    have hc : (c == '\n') = false := by
      simp only [List.mem_cons, not_or] at h
      simpa using fun e => h.1 e.symm
    rw [List.cons_append, padText, hc, ih (fun hm => h (List.mem_cons_of_mem _ hm))]
    cases nl <;> simp

theorem Spec.Indented.eq_pad {s t : Str} (h : Indented s t) : t = padText true s := by
  induction h with
  | nil => rfl
  | line hl _ ih => rw [padText_line _ _ hl, ih]; simp

/-- Text that ends with a newline consists of complete lines. -/
theorem indented_pad (s : Str) (h : padEnd true s = true) : Indented s (padText true s) := by
  by_cases hn : '\n' ∈ s
  · obtain ⟨l, r, rfl, hl⟩ := List.eq_append_cons_of_mem hn
    have : (l ++ '\n' :: r).length = l.length + r.length + 1 := by simp; omega
    rw [padText_line _ _ hl]
    refine .line hl (indented_pad r ?_)
    rw [padEnd_append] at h
    simpa [padEnd] using h
  · cases s with
    | nil => exact .nil
    | cons c s =>
      exfalso
      have key : ∀ s : Str, '\n' ∉ s → padEnd false s = false := by
        intro s
        induction s with
        | nil => intro _; rfl
        | cons c s ih =>
          intro h
          simp only [List.mem_cons, not_or] at h
          rw [padEnd, show (c == '\n') = false by simpa using fun e => h.1 e.symm]
          exact ih h.2
      simp only [List.mem_cons, not_or] at hn
      rw [padEnd, show (c == '\n') = false by simpa using fun e => hn.1 e.symm, key s hn.2] at h
      cases h
termination_by s.length

theorem padEnd_nl (nl : Bool) (s : Str) : padEnd nl (s ++ c%",\n") = true := by
  rw [padEnd_append]; rfl

/-- Lines that are indented alike are alike. -/
theorem Spec.Indented.inj {s t : Str} (h : Indented s t) : ∀ {s' : Str}, Indented s' t → s = s' := by
  induction h with
  | nil =>
    intro s' h'
    generalize ht : ([] : Str) = t at h'
    cases h' with
    | nil => rfl
    | line => simp at ht
  | @line l s t hl _ ih =>
    intro s' h'
    generalize ht : c%"    " ++ l ++ '\n' :: t = u at h'
    cases h' with
    | nil => simp at ht
    | @line l' s' t' hl' h' =>
      rw [List.append_assoc, List.append_assoc] at ht
      obtain ⟨rfl, e⟩ := append_sep_inj (List.append_cancel_left ht) hl hl'
      subst e
      rw [ih h']

/-! ## The builders -/

/-- A field with the text of its value. -/
def textField (alt : Bool) (f : Str × Dbg) : Str × Str := (f.1, (f.2 alt).flatten)

/-- The pretty text of fields, before it is indented. -/
def bodyText (fs : List (Str × Str)) : Str := fs.flatMap fun f => fieldText f ++ c%",\n"

theorem bodyText_end (fs : List (Str × Str)) : padEnd true (bodyText fs) = true := by
  induction fs with
  | nil => rfl
  | cons f fs ih => simp only [bodyText, List.flatMap_cons] at ih ⊢; rw [padEnd_append, padEnd_nl, ih]

theorem structFields_pretty (fs : List (Str × Dbg)) :
    (structFields true true fs).flatten = padText true (bodyText (fs.map (textField true))) := by
  induction fs with
  | nil => rfl
  | cons f fs ih =>
    obtain ⟨n, v⟩ := f
    simp only [structFields, if_true, List.nil_append, List.flatten_append, ih, (padPieces_text _ _).1]
    simp only [bodyText, List.map_cons, List.flatMap_cons]
    rw [padText_append true (fieldText _ ++ _), padEnd_nl]
    simp [fieldText, textField]

theorem structFields_plain (fs : List (Str × Dbg)) :
    (structFields false true fs).flatten = (fs.map (textField false)).flatMap fun f => c%", " ++ fieldText f := by
  induction fs with
  | nil => rfl
  | cons f fs ih =>
    obtain ⟨n, v⟩ := f
    simp [structFields, ih, fieldText, textField]

theorem joinWith_cons (sep x : Str) (l : List Str) : joinWith sep (x :: l) = x ++ l.flatMap (sep ++ ·) := by
  induction l generalizing x with
  | nil => simp [joinWith]
  | cons y l ih => rw [joinWith, ih]; simp

theorem debugStruct_plain (name : Str) (f : Str × Dbg) (fs : List (Str × Dbg)) :
    (debugStruct name (f :: fs) false).flatten =
      name ++ c%" { " ++ joinWith c%", " (((f :: fs).map (textField false)).map fieldText) ++ c%" }" := by
  obtain ⟨n, v⟩ := f
  rw [List.map_cons, List.map_cons, joinWith_cons]
  simp [debugStruct, structFields, structFields_plain, fieldText, textField, List.flatMap_map]

theorem debugStruct_pretty (name : Str) (f : Str × Dbg) (fs : List (Str × Dbg)) :
    (debugStruct name (f :: fs) true).flatten =
      name ++ c%" {\n" ++ padText true (bodyText ((f :: fs).map (textField true))) ++ c%"}" := by
  have h := structFields_pretty (f :: fs)
  obtain ⟨n, v⟩ := f
  rw [← h]
  simp [debugStruct, structFields]

theorem debugTuple_one (name : Str) (v : Dbg) :
    (debugTuple name [v] false).flatten = name ++ c%"(" ++ (v false).flatten ++ c%")" ∧
      (debugTuple name [v] true).flatten = name ++ c%"(\n" ++ padText true ((v true).flatten ++ c%",\n") ++ c%")" := by
  constructor
  · simp [debugTuple, tupleFields]
  · simp [debugTuple, tupleFields, (padPieces_text _ _).1]

/-! ## Values -/

theorem Shown.dbg_text (v : Shown) (alt : Bool) : ∃ d, v.dbg = .ok d ∧ TextOf alt v (d alt).flatten := by
  cases v with
  | debug d => exact ⟨d, rfl, .debug d⟩
  | unknown t =>
    refine ⟨fun _ => [c%"<unknown of type " ++ t ++ c%">"], ?_, ?_⟩
    · rw [Shown.dbg, C58_exact]; rfl
    · rw [List.flatten_cons, List.flatten_nil, List.append_nil]
      exact .unknown t

theorem Spec.TextOf.unique {alt : Bool} {v : Shown} {s s' : Str} (h : TextOf alt v s) (h' : TextOf alt v s') : s = s' := by
  cases h <;> cases h' <;> rfl

theorem Shown.dbgs_text (fs : List (Str × Shown)) (alt : Bool) :
    ∃ l, Shown.dbgs fs = .ok l ∧ TextsOf alt fs (l.map (textField alt)) := by
  induction fs with
  | nil => exact ⟨[], rfl, .nil⟩
  | cons f fs ih =>
    obtain ⟨n, v⟩ := f
    obtain ⟨l, h1, h2⟩ := ih
    obtain ⟨d, h3, h4⟩ := v.dbg_text alt
    exact ⟨(n, d) :: l, by rw [Shown.dbgs, h3, Out.ok_bind, h1, Out.ok_bind], .cons ⟨rfl, h4⟩ h2⟩

theorem Spec.TextsOf.unique {alt : Bool} {fs : List (Str × Shown)} {ts ts' : List (Str × Str)} (h : TextsOf alt fs ts)
    (h' : TextsOf alt fs ts') : ts = ts' := by
  unfold TextsOf at h h'
  induction h generalizing ts' with
  | nil => cases h'; rfl
  | cons h _ ih =>
    cases h' with
    | cons k r =>
      rw [ih r]
      congr 1
      exact Prod.ext (h.1.symm.trans k.1) (h.2.unique k.2)

/-! ## C77 -/

/-- **C77.** Showing arguments never fails. The text is that of a struct called `Args`, whose fields appear in order, each
with its name and the text of its value. -/
theorem C77_args (fields : List (Str × Shown)) (pretty : Bool) (texts : List (Str × Str))
    (h : TextsOf pretty fields texts) :
    ∃ d, argsDebug fields = .ok d ∧ ArgsText pretty texts (d pretty).flatten := by
  obtain ⟨l, h1, h2⟩ := Shown.dbgs_text fields pretty
  rw [h.unique h2]
  refine ⟨debugStruct c%"Args" l, by rw [argsDebug, h1, Out.ok_bind], ?_⟩
  cases l with
  | nil => exact .empty pretty
  | cons f l =>
    cases pretty with
    | true =>
      rw [debugStruct_pretty]
      exact .pretty (by simp) (indented_pad _ (bodyText_end _))
    | false =>
      rw [debugStruct_plain]
      exact .plain (by simp)

/-- **C77.** The text of a result is that of a tuple called `Ret`. -/
theorem C77_ret (v : Shown) (pretty : Bool) (text : Str) (h : TextOf pretty v text) :
    ∃ d, retDebug v = .ok d ∧ RetText pretty text (d pretty).flatten := by
  obtain ⟨d, h1, h2⟩ := v.dbg_text pretty
  cases h.unique h2
  refine ⟨debugTuple c%"Ret" [d], by rw [retDebug, h1, Out.ok_bind], ?_⟩
  cases pretty with
  | true =>
    rw [(debugTuple_one _ d).2]
    exact .pretty (indented_pad _ (padEnd_nl _ _))
  | false =>
    rw [(debugTuple_one _ d).1]
    exact .plain

theorem Spec.ArgsText.unique {pretty : Bool} {fs : List (Str × Str)} {s s' : Str} (h : ArgsText pretty fs s)
    (h' : ArgsText pretty fs s') : s = s' := by
  cases h with
  | empty =>
    cases h' with
    | empty => rfl
    | plain h => exact absurd rfl h
    | pretty h => exact absurd rfl h
  | plain h =>
    cases h' with
    | empty => exact absurd rfl h
    | plain h => rfl
  | pretty h k =>
    cases h' with
    | empty => exact absurd rfl h
    | pretty h' k' => rw [k.eq_pad, k'.eq_pad]

theorem Spec.RetText.unique {pretty : Bool} {x s s' : Str} (h : RetText pretty x s) (h' : RetText pretty x s') : s = s' := by
  cases h with
  | plain => cases h'; rfl
  | pretty h =>
    cases h' with
    | pretty h' => rw [h.eq_pad, h'.eq_pad]

/-! ### What can be told from the text -/

theorem rest_head {fs : List (Str × Str)} (h : ∀ f ∈ fs, FieldName f.1) {c : Char} {r : Str} (e : bodyText fs = c :: r) :
    c ∉ [' ', ')', ']', '}'] := by
  cases fs with
  | nil => cases e
  | cons f fs =>
    obtain ⟨n, t⟩ := f
    obtain ⟨-, c', r', rfl, hc⟩ := h _ List.mem_cons_self
    simp only [bodyText, List.flatMap_cons, fieldText, List.cons_append, List.cons.injEq] at e
    exact e.1 ▸ hc

theorem value_end {t t' : Str} {fs fs' : List (Str × Str)} (h : t ++ ',' :: '\n' :: bodyText fs = t' ++ ',' :: '\n' :: bodyText fs')
    (hf : ∀ f ∈ fs, FieldName f.1) (ht : Tidy t') : t'.length ≤ t.length := by
  rcases Nat.lt_or_ge t.length t'.length with hl | hl
  · exfalso
    rcases List.append_eq_append_iff.mp h with ⟨u, rfl, e⟩ | ⟨u, rfl, e⟩
    · cases u with
      | nil => simp at hl
      | cons a u =>
        simp only [List.cons_append, List.cons.injEq] at e
        obtain ⟨rfl, e⟩ := e
        cases u with
        | nil => simp at e
        | cons b u =>
          simp only [List.cons_append, List.cons.injEq] at e
          obtain ⟨rfl, e⟩ := e
          obtain ⟨c, r, rfl, hc⟩ := ht (t ++ [',']) u (by simp)
          exact rest_head hf e hc
    · rw [List.length_append] at hl; omega
  · exact hl

theorem bodyText_inj {fs fs' : List (Str × Str)} (hf : ∀ f ∈ fs, FieldName f.1 ∧ Tidy f.2)
    (hf' : ∀ f ∈ fs', FieldName f.1 ∧ Tidy f.2) (h : bodyText fs = bodyText fs') : fs = fs' := by
  induction fs generalizing fs' with
  | nil =>
    cases fs' with
    | nil => rfl
    | cons f fs' => simp [bodyText] at h
  | cons f fs ih =>
    cases fs' with
    | nil => simp [bodyText] at h
    | cons f' fs' =>
      obtain ⟨n, t⟩ := f
      obtain ⟨n', t'⟩ := f'
      obtain ⟨⟨h1, h2⟩, h3⟩ := List.forall_mem_cons.mp hf
      obtain ⟨⟨h1', h2'⟩, h3'⟩ := List.forall_mem_cons.mp hf'
      have e : n ++ ':' :: ' ' :: (t ++ ',' :: '\n' :: bodyText fs) = n' ++ ':' :: ' ' :: (t' ++ ',' :: '\n' :: bodyText fs') := by
        simpa [bodyText, fieldText] using h
      obtain ⟨rfl, e⟩ := append_sep_inj e h1.1 h1'.1
      have e : t ++ ',' :: '\n' :: bodyText fs = t' ++ ',' :: '\n' :: bodyText fs' := by simpa using e
      have hl : t.length = t'.length :=
        Nat.le_antisymm (value_end e.symm (fun f hf => (h3' f hf).1) h2) (value_end e (fun f hf => (h3 f hf).1) h2')
      obtain ⟨rfl, e⟩ := List.append_inj e hl
      rw [ih h3 h3' (by simpa using e)]

/-- **C77.** From the pretty text of arguments one can tell the names and the text of each value, if the texts of values are
laid out as `Debug` is meant to: further lines begin with a space or a closing bracket. -/
theorem C77_tells_apart (fs fs' : List (Str × Str)) (s : Str) (hf : ∀ f ∈ fs, FieldName f.1 ∧ Tidy f.2)
    (hf' : ∀ f ∈ fs', FieldName f.1 ∧ Tidy f.2) (h : ArgsText true fs s) (h' : ArgsText true fs' s) : fs = fs' := by
  generalize hp : true = p at h h'
  cases h with
  | empty =>
    generalize hq : c%"Args" = q at h'
    cases h' with
    | empty => rfl
    | plain => cases hp
    | pretty => cases hq
  | plain => cases hp
  | pretty h1 h2 =>
    generalize hq : c%"Args {\n" ++ _ ++ c%"}" = q at h'
    cases h' with
    | empty => cases hq
    | pretty h1' h2' =>
      rw [List.append_assoc, List.append_assoc] at hq
      have := List.append_cancel_right (List.append_cancel_left hq)
      subst this
      exact bodyText_inj hf hf' (h2.inj h2')

/-- **C77.** From the text of a result one can tell the text of its value, whatever that is. -/
theorem C77_ret_tells_apart (pretty : Bool) (s s' t : Str) (h : RetText pretty s t) (h' : RetText pretty s' t) : s = s' := by
  cases h with
  | plain =>
    generalize hq : c%"Ret(" ++ s ++ c%")" = q at h'
    cases h' with
    | plain =>
      rw [List.append_assoc, List.append_assoc] at hq
      exact List.append_cancel_right (List.append_cancel_left hq)
  | pretty h =>
    generalize hq : c%"Ret(\n" ++ _ ++ c%")" = q at h'
    cases h' with
    | pretty h' =>
      rw [List.append_assoc, List.append_assoc] at hq
      have := List.append_cancel_right (List.append_cancel_left hq)
      subst this
      exact List.append_cancel_right (h.inj h')

theorem first_line {p t a b : Str} (h : p ++ '\n' :: t = a ++ '\n' :: b) (hp : '\n' ∉ p) :
    b = t ∨ ∃ a', t = a' ++ '\n' :: b := by
  rcases List.append_eq_append_iff.mp h with ⟨u, rfl, e⟩ | ⟨u, rfl, e⟩
  · cases u with
    | nil => exact .inl (List.cons.inj e).2.symm
    | cons c u => exact .inr ⟨u, (List.cons.inj e).2⟩
  · cases u with
    | nil => exact .inl (List.cons.inj e).2
    | cons c u => exact absurd ((List.cons.inj e).1 ▸ by simp) hp

/-- After a newline in indented lines there is a space or the end. -/
theorem indented_next {s t : Str} (h : Indented s t) : ∀ a b, t = a ++ '\n' :: b → b = [] ∨ ∃ r, b = ' ' :: r := by
  induction h with
  | nil => intro a b e; simp at e
  | @line l s t hl h ih =>
    intro a b e
    rcases first_line e (by rw [List.mem_append, not_or]; exact ⟨by decide, hl⟩) with rfl | ⟨a', e⟩
    · cases h with
      | nil => exact .inl rfl
      | line => exact .inr ⟨_, rfl⟩
    · exact ih _ _ e

/-- Text between brackets is laid out as it should be, whatever it is. -/
theorem tidy_block {s t name : Str} {c : Char} (h : Indented s t) (hn : '\n' ∉ name) (hc : c ∈ [')', ']', '}']) :
    Tidy (name ++ '\n' :: t ++ [c]) := by
  intro a b e
  rw [List.append_assoc, List.cons_append] at e
  have hm : c ∈ [' ', ')', ']', '}'] := List.mem_cons_of_mem _ hc
  rcases first_line e hn with rfl | ⟨a', e⟩
  · cases h with
    | nil => exact ⟨c, [], rfl, hm⟩
    | line => exact ⟨' ', _, rfl, by simp⟩
  · rcases List.eq_nil_or_concat b with rfl | ⟨b', c', rfl⟩
    · have : c = '\n' := by
        have := congrArg List.getLast? e
        simpa using this
      subst this
      exact absurd hc (by decide)
    · rw [List.concat_eq_append, ← List.cons_append, ← List.append_assoc] at e
      obtain ⟨e1, e2⟩ := List.append_inj' e rfl
      cases e2
      rcases indented_next h _ _ e1 with rfl | ⟨r, rfl⟩
      · exact ⟨c, [], rfl, hm⟩
      · exact ⟨' ', _, rfl, by simp⟩

/-- **C77.** The layout that `C77_tells_apart` asks for is that of text on one line, and of everything that the builders of
the standard library write, whatever the values inside look like. -/
theorem C77_layout (name : Str) (hn : '\n' ∉ name) (fs : List (Str × Dbg)) (v : Dbg) :
    Tidy name ∧ Tidy (debugStruct name fs true).flatten ∧ Tidy (debugTuple name [v] true).flatten := by
  have h1 : Tidy name := fun a b e => absurd (e ▸ by simp) hn
  refine ⟨h1, ?_, ?_⟩
  · cases fs with
    | nil => simpa [debugStruct, structFields] using h1
    | cons f fs =>
      rw [debugStruct_pretty]
      have := tidy_block (name := name ++ c%" {") (c := '}') (indented_pad _ (bodyText_end ((f :: fs).map (textField true))))
        (by rw [List.mem_append, not_or]; exact ⟨hn, by decide⟩) (by decide)
      simpa using this
  · rw [(debugTuple_one _ v).2]
    have := tidy_block (name := name ++ c%"(") (c := ')') (indented_pad _ (padEnd_nl true (v true).flatten))
      (by rw [List.mem_append, not_or]; exact ⟨hn, by decide⟩) (by decide)
    simpa using this

/-- **C77.** Only what a value writes matters, not in how many pieces. -/
theorem C77_pieces (fs fs' : List (Str × Dbg)) (alt : Bool)
    (h : List.Forall₂ (fun f f' => f.1 = f'.1 ∧ (f.2 alt).flatten = (f'.2 alt).flatten) fs fs') :
    (debugStruct c%"Args" fs alt).flatten = (debugStruct c%"Args" fs' alt).flatten := by
  have he : fs.map (textField alt) = fs'.map (textField alt) := by
    induction h with
    | nil => rfl
    | cons h _ ih =>
      rw [List.map_cons, List.map_cons, ih]
      congr 1
      exact Prod.ext h.1 h.2
  cases h with
  | nil => rfl
  | cons =>
    cases alt with
    | true => rw [debugStruct_pretty, debugStruct_pretty, he]
    | false => rw [debugStruct_plain, debugStruct_plain, he]

/-! ### Names -/

theorem argBasics_name {im : ImplM} {n n' : Nat} {a : FnArg} {i : Str} {e : SerE} {ty : Ty}
    (h : argBasics im n a = .ok (i, e, ty, n')) : NamedAs a (a.shownName i) := by
  cases a with
  | receiver => exact .self
  | typed attrs pat ty' =>
    cases hp : pat.idents with
    | nil =>
      have : i = anonymousIdent n := by
        cases im with
        | none => simp only [argBasics, hp] at h; cases h; rfl
        | some x =>
          simp only [argBasics, hp] at h
          cases h1 : ty'.expandSelf x with
          | ok t => rw [h1, Out.ok_bind] at h; cases h; rfl
          | _ => rw [h1] at h; cases h
      subst this
      exact .anonymous n hp
    | cons i' r =>
      cases r with
      | nil =>
        have : i = i' := by
          cases im with
          | none => simp only [argBasics, hp] at h; cases h; rfl
          | some x =>
            simp only [argBasics, hp] at h
            cases h1 : ty'.expandSelf x with
            | ok t => rw [h1, Out.ok_bind] at h; cases h; rfl
            | _ => rw [h1] at h; cases h
        subst this
        exact .ident hp
      | cons j r => simp only [argBasics, hp] at h; cases h

theorem fmtArgs_names {im : ImplM} : ∀ {l : List FnArg} {c c' : Convs} {n n' : Nat} {fs ps : List FieldM},
    mapArgs im c n l = .ok (fs, c', n') →
      List.Forall₂ NamedAs l ((fmtArgs l (fs ++ ps)).map (·.1)) ∧ (fmtArgs l (fs ++ ps)).map (·.2) = fs.map (·.ident)
  | [], c, c', n, n', fs, ps, h => by cases h; exact ⟨.nil, rfl⟩
  | a :: l, c, c', n, n', fs, ps, h => by
    rw [mapArgs] at h
    cases h1 : mapArg im c n a with
    | ok r =>
      obtain ⟨f, c1, n1⟩ := r
      rw [h1, Out.ok_bind] at h
      simp only at h
      cases h2 : mapArgs im c1 n1 l with
      | ok r =>
        obtain ⟨fs', c2, n2⟩ := r
        rw [h2, Out.ok_bind] at h
        cases h
        obtain ⟨k1, k2⟩ := fmtArgs_names (ps := ps) h2
        have hi : NamedAs a (a.shownName f.ident) := by
          rw [mapArg] at h1
          cases h3 : argBasics im n a with
          | ok r =>
            obtain ⟨i, e, ty, n3⟩ := r
            rw [h3, Out.ok_bind] at h1
            simp only at h1
            split at h1 <;> cases h1 <;> exact argBasics_name h3
          | _ => rw [h3] at h1; cases h1
        exact ⟨.cons hi k1, by simp [fmtArgs, k2]⟩
      | _ => rw [h2] at h; cases h
    | _ => rw [h1] at h; cases h

/-- **C77.** One field is shown for each parameter of the function, in order: under `self` for a receiver, else under the name
in the parameter's pattern, or a made-up name if there is none. The phantom fields are not shown. -/
theorem C77_names (fz : Bool) (im : Option ImplIn) (o : AttrOpts) (f : FnIn) (n n' : Nat) (m : MethodM)
    (mo : ModuleM) (h : mapMethodOrFn fz im o f n = .ok (m, mo, n')) (fs : List FieldM) (hf : mo.fields = some fs) :
    List.Forall₂ NamedAs f.inputs ((fmtArgs f.inputs fs).map (·.1)) ∧
      (fmtArgs f.inputs fs).map (·.2) = (fs.filter (·.de ≠ none)).map (·.ident) := by
  obtain ⟨_, fs', _, _, -, h2, -, -, -, rfl⟩ := mapMethodOrFn_ok h
  simp only at hf
  split at hf
  · cases hf
  cases hf
  obtain ⟨as, c', h3, rfl, -⟩ := argsFields_ok h2
  obtain ⟨k1, k2⟩ := fmtArgs_names (ps := (phantomFields n (argsIn im o f).generics).1) h3
  refine ⟨k1, k2.trans ?_⟩
  have hp : ∀ (g : List GParam) (n : Nat), (phantomFields n g).1.filter (fun f : FieldM => decide (f.de ≠ none)) = [] := by
    intro g
    induction g with
    | nil => intro n; rfl
    | cons x g ih => intro n; cases x <;> simpa [phantomFields] using ih _
  rw [List.filter_append, hp, List.append_nil, List.filter_eq_self.mpr]
  intro a ha
  simpa using ((mapArgs_fields h3).2 a ha).1

/-! ### What a harness prints -/

variable {V R : Type}

theorem eval_pretty {e : Env} : prettyPrintEnabled e = true ↔ On e c%"TEST_FUZZ_PRETTY_PRINT"  :=
  (C09_switches e).2.2.2.1

theorem shownText_append (args : V → List (Str × Shown)) (ret : R → Shown) (l l' : List (Ev V R)) (s s' : Str)
    (h : shownText args ret l = .ok s) (h' : shownText args ret l' = .ok s') : shownText args ret (l ++ l') = .ok (s ++ s') := by
  induction l generalizing s with
  | nil => cases h; exact h'
  | cons a l ih =>
    cases a with
    | showArgs v p =>
      rw [shownText] at h
      rw [List.cons_append, shownText]
      cases h1 : outputOpt p (v.map fun v => argsDebug (args v)) with
      | ok x =>
        rw [h1, Out.ok_bind] at h
        cases h2 : shownText args ret l with
        | ok y => rw [h2, Out.ok_bind] at h; cases h; rw [Out.ok_bind, ih _ h2, Out.ok_bind, List.append_assoc]
        | _ => rw [h2] at h; cases h
      | _ => rw [h1] at h; cases h
    | showRet v p =>
      rw [shownText] at h
      rw [List.cons_append, shownText]
      cases h1 : outputOpt p (v.map fun v => retDebug (ret v)) with
      | ok x =>
        rw [h1, Out.ok_bind] at h
        cases h2 : shownText args ret l with
        | ok y => rw [h2, Out.ok_bind] at h; cases h; rw [Out.ok_bind, ih _ h2, Out.ok_bind, List.append_assoc]
        | _ => rw [h2] at h; cases h
      | _ => rw [h1] at h; cases h
    | _ => exact ih s h

theorem shownText_silent (args : V → List (Str × Shown)) (ret : R → Shown) (l : List (Ev V R)) (h : ∀ a ∈ l, ¬ Shows a) :
    shownText args ret l = .ok [] := by
  induction l with
  | nil => rfl
  | cons a l ih =>
    obtain ⟨h1, h2⟩ := List.forall_mem_cons.mp h
    cases a with
    | showArgs => exact absurd trivial h1
    | showRet => exact absurd trivial h1
    | _ => exact ih h2

theorem shownText_args (args : V → List (Str × Shown)) (ret : R → Shown) (v : V) (pretty : Bool) (texts : List (Str × Str))
    (ht : TextsOf pretty (args v) texts) (s : Str) (hs : ArgsText pretty texts s) :
    shownText args ret [.showArgs (some v) pretty] = .ok (s ++ c%"\n") := by
  obtain ⟨d, h1, h2⟩ := C77_args (args v) pretty texts ht
  rw [shownText, Option.map_some, outputOpt]
  simp only [h1, Out.ok_bind]
  rw [h2.unique hs, shownText, Out.ok_bind, List.append_nil]

theorem shownText_ret (args : V → List (Str × Shown)) (ret : R → Shown) (r : R) (pretty : Bool) (text : Str)
    (ht : TextOf pretty (ret r) text) (s : Str) (hs : RetText pretty text s) :
    shownText args ret [.showRet (some r) pretty] = .ok (s ++ c%"\n") := by
  obtain ⟨d, h1, h2⟩ := C77_ret (ret r) pretty text ht
  rw [shownText, Option.map_some, outputOpt]
  simp only [h1, Out.ok_bind]
  rw [h2.unique hs, shownText, Out.ok_bind, List.append_nil]

theorem opening_silent (c : Setting) (t : Target V) (h : displayEnabled c.ctx.env = false) :
    ∀ a ∈ (opening c t : List (Ev V R)), ¬ Shows a := by
  intro a ha
  simp only [opening, h, Bool.false_eq_true, if_false, List.append_nil, List.mem_append] at ha
  rcases ha with ha | ha
  · split at ha
    · split at ha
      · simp only [List.mem_singleton] at ha; subst ha; exact id
      · simp at ha
    · simp at ha
  · simp only [List.mem_singleton] at ha; subst ha; exact id

/-- The text printed before the call. -/
theorem opening_text (c : Setting) (t : Target V) (args : V → List (Str × Shown)) (ret : R → Shown) (x : Str)
    (hx : outputOpt (prettyPrintEnabled c.ctx.env) ((t.de c.stdin).map fun v => argsDebug (args v)) = .ok x) :
    shownText args ret (opening c t) = .ok (if displayEnabled c.ctx.env then x else []) := by
  cases h : displayEnabled c.ctx.env with
  | false => exact shownText_silent args ret _ (opening_silent c t h)
  | true =>
    have h0 : ∀ a ∈ ((if coverageEnabled c.ctx.env then (if t.macro_.numStmts ≥ 2 then [.warnNontrivial] else []) else []) ++
        [.readStdin] : List (Ev V R)), ¬ Shows a := by
      intro a ha
      rcases List.mem_append.mp ha with ha | ha
      · split at ha
        · split at ha
          · simp only [List.mem_singleton] at ha; subst ha; exact id
          · simp at ha
        · simp at ha
      · simp only [List.mem_singleton] at ha; subst ha; exact id
    have h1 : shownText args ret [.showArgs (t.de c.stdin) (prettyPrintEnabled c.ctx.env)] = .ok x := by
      rw [shownText, hx, Out.ok_bind, shownText, Out.ok_bind, List.append_nil]
    have := shownText_append args ret _ _ _ _ (shownText_silent args ret _ h0) h1
    simpa [opening, h] using this

/-- **C77.** A harness that only displays prints the text of the arguments that its input decodes to, and a newline. If the
input does not decode, it prints an empty line. -/
theorem C77_display (c : Setting) (t : Target V) (body : V → Prog V R) (s : Proc V R) (ht : hasEntry t.macro_ = true)
    (h : Displaying c.ctx.env) (args : V → List (Str × Shown)) (ret : R → Shown) (pretty : Bool)
    (hp : pretty = true ↔ On c.ctx.env c%"TEST_FUZZ_PRETTY_PRINT") :
    ∃ evs, (runHarness c t body s).2.log = s.log ++ evs ∧
      (t.de c.stdin = none → shownText args ret evs = .ok c%"\n") ∧
      ∀ v texts text, t.de c.stdin = some v → TextsOf pretty (args v) texts → ArgsText pretty texts text →
        shownText args ret evs = .ok (text ++ c%"\n") := by
  obtain ⟨h1, h2, h3, h4⟩ := h
  have hpp : prettyPrintEnabled c.ctx.env = pretty := Bool.eq_iff_iff.mpr (eval_pretty.trans hp.symm)
  have hd : displayEnabled c.ctx.env = true := (eval_display _).mpr h2
  rw [harness_other c t body s ht h1 (.inr (.inl h2)), if_neg (by rw [not_enabled_of_displaying h3 h4]; decide)]
  refine ⟨_, rfl, ?_, ?_⟩
  · intro hn
    rw [opening_text c t args ret c%"\n" (by rw [hn]; rfl), hd]; rfl
  · intro v texts text hv hT hA
    obtain ⟨d, k1, k2⟩ := C77_args (args v) pretty texts hT
    rw [opening_text c t args ret (text ++ c%"\n") ?_, hd]; rfl
    rw [hv, hpp, Option.map_some, outputOpt]
    simp only [k1, Out.ok_bind]
    rw [k2.unique hA]

/-- **C77.** A harness that replays prints the text of the arguments first, if it displays them, too; then, once the target
has returned, the text of the result, each with a newline. -/
theorem C77_replay (c : Setting) (t : Target V) (body : V → Prog V R) (s : Proc V R) (ht : hasEntry t.macro_ = true)
    (hc : c.test = true) (h : On c.ctx.env c%"TEST_FUZZ") (hr : On c.ctx.env c%"TEST_FUZZ_REPLAY") (hs : s.hook = .standard)
    (args : V → List (Str × Shown)) (ret : R → Shown) (pretty : Bool)
    (hp : pretty = true ↔ On c.ctx.env c%"TEST_FUZZ_PRETTY_PRINT") (v : V) (hv : t.de c.stdin = some v) (r : R)
    (hb : plain (body v) = .ok r) (texts : List (Str × Str)) (text rtext rs : Str) (hT : TextsOf pretty (args v) texts)
    (hA : ArgsText pretty texts text) (hR : TextOf pretty (ret r) rtext) (hS : RetText pretty rtext rs) :
    ∃ evs, (runHarness c t body s).2.log = s.log ++ evs ∧
      (On c.ctx.env c%"TEST_FUZZ_DISPLAY" → shownText args ret evs = .ok (text ++ c%"\n" ++ rs ++ c%"\n")) ∧
      (¬ On c.ctx.env c%"TEST_FUZZ_DISPLAY" → shownText args ret evs = .ok (rs ++ c%"\n")) := by
  have hpp : prettyPrintEnabled c.ctx.env = pretty := Bool.eq_iff_iff.mpr (eval_pretty.trans hp.symm)
  have hre : replayEnabled c.ctx.env = true := (eval_replay _).mpr hr
  rw [harness_other c t body s ht h (.inr (.inr hr)), if_pos (enabled_of_replaying (.inr hr)), hv]
  simp only
  obtain ⟨l, h1, h2, -⟩ := harness_call c t v (body v) { s with warned := true, log := s.log ++ (opening c t ++ [.call v]) } hc h
  have h2 : (callInstrumented c t v ((body v).run c)
      { s with warned := true, log := s.log ++ (opening c t ++ [.call v]) }).1 = .ok r := by
    rw [h2, outcome, if_neg (by rw [hs]; rintro ⟨h, -⟩; cases h), hb]
  have h3 : ∀ a ∈ l, ¬ Shows a := by
    rw [C07_not_due c t v _ _ (not_due c hc h _)] at h1
    obtain ⟨l', k1, k2⟩ := run_silent c hc h (body v)
      { s with warned := true, log := s.log ++ (opening c t ++ [.call v]) ++ [.body v] }
    rw [k1] at h1
    have : l' = l := by simpa using h1
    exact this ▸ k2
  generalize callInstrumented c t v ((body v).run c)
    { s with warned := true, log := s.log ++ (opening c t ++ [.call v]) } = x at h1 h2
  obtain ⟨o, s'⟩ := x
  simp only at h1 h2
  subst h2
  refine ⟨opening c t ++ ((.call v :: .body v :: l) ++ closing_ c (some r)), ?_, ?_⟩
  · simp [afterCall, Proc.note, h1]
  · have e1 : shownText args ret (.call v :: .body v :: l) = .ok [] :=
      shownText_silent args ret _ (by
        intro a ha
        simp only [List.mem_cons] at ha
        rcases ha with rfl | rfl | ha
        · exact id
        · exact id
        · exact h3 a ha)
    have e2 : shownText args ret (closing_ c (some r)) = .ok (rs ++ c%"\n") := by
      rw [closing_, if_pos hre, hpp]
      exact shownText_ret args ret r pretty rtext hR rs hS
    obtain ⟨d, k1, k2⟩ := C77_args (args v) pretty texts hT
    have e0 := opening_text c t args ret (text ++ c%"\n") (by
      rw [hv, hpp, Option.map_some, outputOpt]
      simp only [k1, Out.ok_bind]
      rw [k2.unique hA])
    have e := shownText_append args ret _ _ _ _ e0 (shownText_append args ret _ _ _ _ e1 e2)
    rw [e]
    constructor
    · intro hd
      rw [if_pos ((C09_switches _).2.2.1.mpr hd)]
      simp
    · intro hd
      rw [if_neg fun h => hd ((C09_switches _).2.2.1.mp h)]
      simp

/-! ### Examples -/

/-- `Point { x: 1, y: 2 }`. -/
def point : Shown := .debug (debugStruct c%"Point" [(c%"x", fun _ => [c%"1"]), (c%"y", fun _ => [c%"2"])])

example : outputOpt false (some (argsDebug [(c%"p", point), (c%"q", .unknown c%"F")])) =
    .ok c%"Args { p: Point { x: 1, y: 2 }, q: <unknown of type F> }\n" := by decide +kernel

example : outputOpt true (some (argsDebug [(c%"p", point), (c%"q", .unknown c%"F")])) =
    .ok c%"Args {\n    p: Point {\n        x: 1,\n        y: 2,\n    },\n    q: <unknown of type F>,\n}\n" := by decide +kernel

example : outputOpt true (some (retDebug point)) =
    .ok c%"Ret(\n    Point {\n        x: 1,\n        y: 2,\n    },\n)\n" := by decide +kernel

example : TextsOf true [(c%"p", .unknown c%"F")] [(c%"p", c%"<unknown of type F>")] := .cons ⟨rfl, .unknown _⟩ .nil

example : FieldName c%"self" ∧ Tidy c%"3" := by
  refine ⟨⟨by decide, 's', _, rfl, by decide⟩, ?_⟩
  intro a b e
  have : '\n' ∈ c%"3" := e ▸ by simp
  exact absurd this (by decide)

/-- The function `f` of Props/Module: its parameter is shown, the phantoms are not. -/
example : ∃ m mo, mapMethodOrFn true none ModuleDemo.opts1 ModuleDemo.fn1 0 = .ok (m, mo, 2) ∧
    mo.fields.map (fmtArgs ModuleDemo.fn1.inputs) = some [(c%"v", c%"v")] := ⟨_, _, rfl, rfl⟩

section
open HarnessDemo

def shownByte (v : UInt8) : List (Str × Shown) := [(c%"v", .debug fun _ => [natStr v.toNat])]

/-- Displaying and replaying. -/
example : shownText shownByte (fun n : Nat => .debug fun _ => [natStr n])
      (runHarness (setting [c%"TEST_FUZZ", c%"TEST_FUZZ_DISPLAY", c%"TEST_FUZZ_REPLAY"] [1]) target body
        { start with hook := .standard }).2.log =
    .ok c%"Args { v: 1 }\nRet(5)\n" := by decide +kernel

example : plain (body 1) = .ok 5 ∧ target.de [1] = some 1 := ⟨rfl, rfl⟩

/-- Input that does not decode. -/
example : shownText shownByte (fun n : Nat => .debug fun _ => [natStr n])
      (runHarness (setting [c%"TEST_FUZZ", c%"TEST_FUZZ_DISPLAY"] []) target body start).2.log = .ok c%"\n" := by
  decide +kernel

end

/-- On one line the same text can be that of different arguments; and on several lines, too, if the text of a value is
unusual. -/
theorem C77_ambiguous : ∃ fs fs' fs2 fs2' : List (Str × Str), ∃ s t, fs ≠ fs' ∧ fs2 ≠ fs2' ∧
    (∀ f ∈ fs ++ fs', FieldName f.1 ∧ Tidy f.2) ∧ ArgsText false fs s ∧ ArgsText false fs' s ∧
    (∀ f ∈ fs2 ++ fs2', FieldName f.1) ∧ ArgsText true fs2 t ∧ ArgsText true fs2' t := by
  have ha : FieldName c%"a" := ⟨by decide, 'a', _, rfl, by decide⟩
  have hb : FieldName c%"b" := ⟨by decide, 'b', _, rfl, by decide⟩
  have tidy : ∀ s : Str, '\n' ∉ s → Tidy s := fun s h a b e => absurd (e ▸ by simp) h
  refine ⟨[(c%"a", c%"1"), (c%"b", c%"2")], [(c%"a", c%"1, b: 2")], [(c%"a", c%"1"), (c%"b", c%"2")],
    [(c%"a", c%"1,\nb: 2")], _, _, by decide, by decide, ?_, .plain (by decide), .plain (by decide), ?_,
    .pretty (by decide) (indented_pad _ (bodyText_end _)), .pretty (by decide) (indented_pad _ (bodyText_end _))⟩
  · intro f hf
    simp only [List.cons_append, List.nil_append, List.mem_cons, List.not_mem_nil, or_false] at hf
    rcases hf with rfl | rfl | rfl
    · exact ⟨ha, tidy _ (by decide)⟩
    · exact ⟨hb, tidy _ (by decide)⟩
    · exact ⟨ha, tidy _ (by decide)⟩
  · intro f hf
    simp only [List.cons_append, List.nil_append, List.mem_cons, List.not_mem_nil, or_false] at hf
    rcases hf with rfl | rfl | rfl
    · exact ha
    · exact hb
    · exact ha

theorem tupleFields_more (vs : List Dbg) :
    (tupleFields false false vs).flatten = (vs.map fun v => c%", " ++ (v false).flatten).flatten := by
  induction vs with
  | nil => rfl
  | cons v r ih => simp [tupleFields, ih]

/-- **C77 (tuples).** On one line, the values of a tuple are separated by commas, whatever their number. -/
theorem C77_tuple (name : Str) (v : Dbg) (vs : List Dbg) :
    (debugTuple name (v :: vs) false).flatten =
      name ++ c%"(" ++ (v false).flatten ++ (vs.map fun v => c%", " ++ (v false).flatten).flatten ++ c%")" := by
  simp [debugTuple, tupleFields, tupleFields_more]

/-- C77_tuple: three values. -/
example : (debugTuple c%"T" [fun _ => [c%"1"], fun _ => [c%"2", c%"3"], fun _ => []] false).flatten = c%"T(1, 23, )" := by
  decide +kernel

end TF
