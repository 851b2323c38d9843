import Verif.Spec.ListText
import Verif.Model.ListText
import Verif.Props.DebugText
import Verif.Props.Recording
import Verif.Props.RunCases
import Verif.Props.Selection
import Mathlib.Data.List.Count

/-! # The text of `--list`: C102 -/

namespace TF

open Spec

/-! ## Quoted text -/

theorem hexText_inj {n m : Nat} (hn : n ≠ 0) (hm : m ≠ 0) (h : hexText n = hexText m) : n = m := by
  unfold hexText at h
  rw [if_neg hn, if_neg hm] at h
  have key : ∀ a b : List Nat, (∀ d ∈ a, d < 16) → (∀ d ∈ b, d < 16) → a.map Sha1.hexDigit = b.map Sha1.hexDigit → a = b := by
    intro a
    induction a with
    | nil => intro b _ _ h; cases b with | nil => rfl | cons => cases h
    | cons x a ih =>
      intro b ha hb h
      cases b with
      | nil => cases h
      | cons y b =>
        simp only [List.map_cons, List.cons.injEq] at h
        have h1 := hexVal_hexDigit x (ha x (by simp))
        have h2 := hexVal_hexDigit y (hb y (by simp))
        rw [h.1, h2] at h1
        rw [Option.some.inj h1, ih b (fun d hd => ha d (by simp [hd])) (fun d hd => hb d (by simp [hd])) h.2]
  have := key _ _ (fun d hd => Nat.digits_lt_base (by decide) (List.mem_reverse.mp hd))
    (fun d hd => Nat.digits_lt_base (by decide) (List.mem_reverse.mp hd)) h
  exact Nat.digits_inj_iff.mp (List.reverse_injective this)

theorem hexText_no (n : Nat) (c : Char) (hc : hexVal c = none) : c ∉ hexText n := by
  unfold hexText
  split
  · intro h
    cases List.mem_singleton.mp h
    exact absurd hc (by decide)
  · intro h
    obtain ⟨d, hd, rfl⟩ := List.mem_map.mp h
    rw [hexVal_hexDigit d (Nat.digits_lt_base (by decide) (List.mem_reverse.mp hd))] at hc
    cases hc

/-- Characters with a short escape. -/
def shortEscapes : List (Char × Char) :=
  [('\x00', '0'), ('\t', 't'), ('\r', 'r'), ('\n', 'n'), ('\\', '\\'), ('"', '"'), ('\'', '\'')]

theorem escapeDebug_cases (pr : Char → Bool) (single : Bool) (c : Char) :
    (∃ k, (c, k) ∈ shortEscapes ∧ escapeDebug pr single c = ['\\', k]) ∨
      (escapeDebug pr single c = [c] ∧ c ≠ '\n' ∧ c ≠ '\\' ∧ c ≠ '"') ∨
      (c.toNat ≠ 0 ∧ escapeDebug pr single c = '\\' :: 'u' :: '{' :: (hexText c.toNat ++ ['}'])) := by
  unfold escapeDebug
  split
  · next h => subst h; exact .inl ⟨'0', by decide, rfl⟩
  next h0 =>
  split
  · next h => subst h; exact .inl ⟨'t', by decide, rfl⟩
  split
  · next h => subst h; exact .inl ⟨'r', by decide, rfl⟩
  split
  · next h => subst h; exact .inl ⟨'n', by decide, rfl⟩
  split
  · next h => subst h; exact .inl ⟨'\\', by decide, rfl⟩
  split
  · next h => subst h; exact .inl ⟨'"', by decide, rfl⟩
  split
  · next h => obtain ⟨rfl, -⟩ := h; exact .inl ⟨'\'', by decide, rfl⟩
  split
  · next h1 h2 h3 _ _ => exact .inr (.inl ⟨rfl, h1, h2, h3⟩)
  · refine .inr (.inr ⟨fun h => h0 ?_, rfl⟩)
    exact Char.toNat_inj.mp (h.trans (by decide))

theorem shortEscapes_inj : ∀ x ∈ shortEscapes, ∀ y ∈ shortEscapes, x.2 = y.2 → x = y := by decide

theorem shortEscapes_u : ∀ x ∈ shortEscapes, x.2 ≠ 'u' ∧ x.2 ≠ '\n' := by decide

/-- Escaped characters can be told apart, whatever follows. -/
theorem escapeDebug_inj (pr : Char → Bool) (single : Bool) (c c' : Char) (r r' : Str)
    (h : escapeDebug pr single c ++ r = escapeDebug pr single c' ++ r') : c = c' ∧ r = r' := by
  rcases escapeDebug_cases pr single c with ⟨k, hk, e⟩ | ⟨e, e1, e2, e3⟩ | ⟨e1, e⟩ <;>
    rcases escapeDebug_cases pr single c' with ⟨k', hk', e'⟩ | ⟨e', e1', e2', e3'⟩ | ⟨e1', e'⟩ <;>
    rw [e, e'] at h <;> simp only [List.cons_append, List.nil_append, List.cons.injEq, true_and] at h
  · obtain ⟨rfl, rfl⟩ := h
    exact ⟨congrArg Prod.fst (shortEscapes_inj _ hk _ hk' rfl), rfl⟩
  · exact absurd h.1.symm e2'
  · exact absurd h.1 (shortEscapes_u _ hk).1
  · exact absurd h.1 e2
  · exact h
  · exact absurd h.1 e2
  · exact absurd h.1.symm (shortEscapes_u _ hk').1
  · exact absurd h.1.symm e2'
  · rw [List.append_assoc, List.append_assoc] at h
    obtain ⟨h1, rfl⟩ := append_sep_inj (sep := '}') (by simpa using h) (hexText_no _ _ (by decide)) (hexText_no _ _ (by decide))
    exact ⟨Char.toNat_inj.mp (hexText_inj e1 e1' h1), rfl⟩

theorem escapeDebug_head (pr : Char → Bool) (single : Bool) (c : Char) (r : Str) :
    escapeDebug pr single c ++ r ≠ ['"'] := by
  intro h
  rcases escapeDebug_cases pr single c with ⟨k, hk, e⟩ | ⟨e, e1, e2, e3⟩ | ⟨e1, e⟩ <;> rw [e] at h <;> simp at h
  exact e3 h.1

theorem escapeDebug_line (pr : Char → Bool) (single : Bool) (c : Char) : '\n' ∉ escapeDebug pr single c := by
  rcases escapeDebug_cases pr single c with ⟨k, hk, e⟩ | ⟨e, e1, e2, e3⟩ | ⟨e1, e⟩ <;> rw [e]
  · have := (shortEscapes_u _ hk).2
    simp only [List.mem_cons, List.not_mem_nil, or_false, not_or]
    exact ⟨by decide, fun h => this h.symm⟩
  · simpa using fun h => e1 h.symm
  · simp only [List.mem_cons, List.mem_append, List.not_mem_nil, or_false, not_or]
    exact ⟨by decide, by decide, by decide, hexText_no _ _ (by decide), by decide⟩

/-- **C102 (quotes).** Names and paths are put into quotes, on one line, such that they can be told apart, whatever characters
they have. -/
theorem C102_quoting (pr : Char → Bool) (single : Bool) : Quoting (quoted pr single) := by
  refine ⟨fun s => ⟨_, rfl⟩, fun s h => ?_, fun s s' h => ?_⟩
  · unfold quoted at h
    rcases List.mem_append.mp h with h | h
    · rcases List.mem_append.mp h with h | h
      · exact absurd h (by decide)
      · obtain ⟨c, -, hc⟩ := List.mem_flatMap.mp h
        exact escapeDebug_line pr single c hc
    · exact absurd h (by decide)
  · unfold quoted at h
    rw [List.append_assoc, List.append_assoc] at h
    replace h := List.append_cancel_left h
    induction s generalizing s' with
    | nil =>
      cases s' with
      | nil => rfl
      | cons c s' =>
        rw [List.flatMap_cons, List.append_assoc] at h
        exact absurd h.symm (escapeDebug_head _ _ _ _)
    | cons c s ih =>
      cases s' with
      | nil =>
        rw [List.flatMap_cons, List.append_assoc] at h
        exact absurd h (escapeDebug_head _ _ _ _)
      | cons c' s' =>
        rw [List.flatMap_cons, List.flatMap_cons, List.append_assoc, List.append_assoc] at h
        obtain ⟨rfl, h'⟩ := escapeDebug_inj _ _ _ _ _ _ h
        rw [ih s' h']

/-- **C102 (plain names).** Text of printable characters without double quotes and backslashes is shown as it is; in paths, which
are shown with apostrophes escaped, also without those. -/
theorem C102_plain (pr : Char → Bool) (single : Bool) (s : Str)
    (h : ∀ c ∈ s, pr c = true ∧ c ∉ ['\x00', '\t', '\r', '\n', '\\', '"'] ∧ (c = '\'' → single = false)) :
    quoted pr single s = c%"\"" ++ s ++ c%"\"" := by
  have : s.flatMap (escapeDebug pr single) = s := by
    induction s with
    | nil => rfl
    | cons c s ih =>
      obtain ⟨h1, h2, h3⟩ := h c (by simp)
      simp only [List.mem_cons, List.not_mem_nil, or_false, not_or] at h2
      rw [List.flatMap_cons, ih fun c hc => h c (by simp [hc])]
      unfold escapeDebug
      have h3 : ¬ (c = '\'' ∧ single = true) := fun h => by rw [h3 h.1] at h; exact absurd h.2 (by decide)
      simp [h1, h2, h3]
  rw [quoted, this]

/-! ## Lines -/

theorem unlines_append (a b : List Str) : unlines (a ++ b) = unlines a ++ unlines b := by
  simp [unlines]

theorem unlines_inj {a b : List Str} (ha : ∀ x ∈ a, '\n' ∉ x) (hb : ∀ x ∈ b, '\n' ∉ x) (h : unlines a = unlines b) : a = b := by
  induction a generalizing b with
  | nil =>
    cases b with
    | nil => rfl
    | cons x b => simp [unlines] at h
  | cons x a ih =>
    cases b with
    | nil => simp [unlines] at h
    | cons y b =>
      simp only [unlines, List.flatMap_cons, List.append_assoc] at h
      obtain ⟨rfl, h'⟩ := append_sep_inj (sep := '\n') (by simpa using h) (ha x (by simp)) (hb y (by simp))
      rw [ih (b := b) (fun z hz => ha z (by simp [hz])) (fun z hz => hb z (by simp [hz])) (by simpa [unlines] using h')]

theorem padText_unlines (l : List Str) (h : ∀ x ∈ l, '\n' ∉ x) :
    padText true (unlines l) = unlines (l.map (c%"    " ++ ·)) := by
  induction l with
  | nil => rfl
  | cons x l ih =>
    have := padText_line x (unlines l) (h x (by simp)) true
    simp only [unlines, List.flatMap_cons, List.map_cons] at this ⊢
    rw [List.append_assoc]
    refine Eq.trans this ?_
    have ih := ih fun z hz => h z (by simp [hz])
    simp only [unlines] at ih
    rw [ih]
    simp

/-- The text of a value: complete lines and one more. -/
def Blk (d : Dbg) (l : List Str) (z : Str) : Prop :=
  (d true).flatten = unlines l ++ z ∧ (∀ x ∈ l, '\n' ∉ x) ∧ '\n' ∉ z

/-- The lines of the value with a comma. -/
def withComma (l : List Str) (z : Str) : List Str := l ++ [z ++ c%","]

theorem Blk.comma {d : Dbg} {l : List Str} {z : Str} (h : Blk d l z) :
    ((d true) ++ [c%",\n"]).flatten = unlines (withComma l z) ∧ ∀ x ∈ withComma l z, '\n' ∉ x := by
  obtain ⟨h1, h2, h3⟩ := h
  constructor
  · simp [withComma, unlines, h1]
  · intro x hx
    rcases List.mem_append.mp hx with hx | hx
    · exact h2 x hx
    · cases List.mem_singleton.mp hx
      rw [List.mem_append, not_or]
      exact ⟨h3, by decide⟩

theorem Blk.padded {d : Dbg} {l : List Str} {z : Str} (h : Blk d l z) :
    (padPieces true (d true ++ [c%",\n"])).1.flatten = unlines ((withComma l z).map (c%"    " ++ ·)) := by
  rw [(padPieces_text _ _).1, h.comma.1, padText_unlines _ h.comma.2]

theorem blk_str (pr : Char → Bool) (s : Str) : Blk (strDebug pr s) [] (quoted pr false s) :=
  ⟨by simp [strDebug, unlines], by simp, (C102_quoting pr false).line s⟩

theorem blk_path (pr : Char → Bool) (s : Str) : Blk (pathDebug pr s) [] (quoted pr true s) :=
  ⟨by simp [pathDebug, unlines], by simp, (C102_quoting pr true).line s⟩

theorem indent_line {l : List Str} (h : ∀ x ∈ l, '\n' ∉ x) : ∀ x ∈ l.map (c%"    " ++ ·), '\n' ∉ x := by
  intro x hx
  obtain ⟨y, hy, rfl⟩ := List.mem_map.mp hx
  rw [List.mem_append, not_or]
  exact ⟨by decide, h y hy⟩

theorem listEntries_pretty {α : Type} (f : α → Dbg) (l : α → List Str) (z : α → Str) (h : ∀ x, Blk (f x) (l x) (z x)) :
    ∀ xs : List α, (listEntries true true (xs.map f)).flatten =
      unlines (xs.flatMap fun x => (withComma (l x) (z x)).map (c%"    " ++ ·))
  | [] => rfl
  | x :: xs => by
    rw [List.map_cons, listEntries, List.flatten_append, listEntries_pretty f l z h xs, List.flatMap_cons, unlines_append]
    simp only [if_true, List.nil_append, (h x).padded]

theorem blk_list {α : Type} (f : α → Dbg) (l : α → List Str) (z : α → Str) (h : ∀ x, Blk (f x) (l x) (z x)) (xs : List α)
    (hne : xs ≠ []) : Blk (debugList (xs.map f))
      ([c%"["] ++ xs.flatMap fun x => (withComma (l x) (z x)).map (c%"    " ++ ·)) c%"]" := by
  refine ⟨?_, ?_, by decide⟩
  · cases xs with
    | nil => exact absurd rfl hne
    | cons x xs =>
      unfold debugList
      rw [List.map_cons, listEntries]
      simp only [if_true, Bool.false_eq_true, if_false, List.flatten_append, listEntries_pretty f l z h xs, (h x).padded,
        unlines_append, List.flatMap_cons]
      simp [unlines]
  · intro x hx
    rcases List.mem_append.mp hx with hx | hx
    · cases List.mem_singleton.mp hx; decide
    · obtain ⟨a, -, ha⟩ := List.mem_flatMap.mp hx
      exact indent_line (h a).comma.2 x ha

theorem blk_empty : Blk (debugList []) [] c%"[]" := ⟨rfl, by simp, by decide⟩

theorem blk_pair {d e : Dbg} {l m : List Str} {y z : Str} (hd : Blk d l y) (he : Blk e m z) :
    Blk (debugTuple [] [d, e]) ([c%"("] ++ (withComma l y).map (c%"    " ++ ·) ++ (withComma m z).map (c%"    " ++ ·)) c%")" := by
  refine ⟨?_, ?_, by decide⟩
  · unfold debugTuple
    simp only [tupleFields, if_true, Bool.false_eq_true, if_false, List.flatten_append, hd.padded, he.padded, unlines_append]
    simp [unlines]
  · intro x hx
    rcases List.mem_append.mp hx with hx | hx
    · rcases List.mem_append.mp hx with hx | hx
      · cases List.mem_singleton.mp hx; decide
      · exact indent_line hd.comma.2 x hx
    · exact indent_line he.comma.2 x hx

theorem field_padded {n : Str} (hn : '\n' ∉ n) {d : Dbg} {z : Str} (h : Blk d [] z) :
    (padPieces true ([n, c%": "] ++ d true ++ [c%",\n"])).1.flatten = unlines [c%"    " ++ (n ++ c%": " ++ z ++ c%",")] := by
  have he : ([n, c%": "] ++ d true ++ [c%",\n"]).flatten = unlines [n ++ c%": " ++ z ++ c%","] := by
    have := h.1
    simp only [unlines, List.flatMap_nil, List.nil_append] at this
    simp [this, unlines]
  rw [(padPieces_text _ _).1, he, padText_unlines]
  · rfl
  · intro x hx
    cases List.mem_singleton.mp hx
    simp only [List.mem_append, not_or]
    exact ⟨⟨⟨hn, by decide⟩, h.2.2⟩, by decide⟩

theorem blk_exe (pr : Char → Bool) (e : Exe) : Blk (exeDebug pr e)
    [c%"Executable {", c%"    path: " ++ quoted pr true e.path ++ c%",", c%"    name: " ++ quoted pr false e.name ++ c%",",
      c%"    test_fuzz_version: " ++ quoted pr false ((e.versions.testFuzzVersion.map Version.text).getD []) ++ c%",",
      c%"    afl_version: " ++ quoted pr false ((e.versions.aflVersion.map Version.text).getD []) ++ c%","] c%"}" := by
  refine ⟨?_, ?_, by decide⟩
  · unfold exeDebug debugStruct
    simp only [structFields, if_true, Bool.false_eq_true, if_false, List.flatten_append, List.nil_append, List.isEmpty_cons,
      List.append_nil]
    rw [field_padded (by decide) (blk_path pr e.path), field_padded (by decide) (blk_str pr e.name),
      field_padded (by decide) (blk_str pr _), field_padded (by decide) (blk_str pr _)]
    simp [unlines]
  · intro x hx
    simp only [List.mem_cons, List.not_mem_nil, or_false] at hx
    rcases hx with rfl | rfl | rfl | rfl | rfl
    · decide
    all_goals
      simp only [List.mem_append, not_or]
      refine ⟨⟨by decide, ?_⟩, by decide⟩
      exact (C102_quoting pr _).line _

/-! ## C102 -/

/-- What is shown of an executable and its targets. -/
def entryOf (x : Exe × List Str) : Entry :=
  ⟨x.1.path, x.1.name, (x.1.versions.testFuzzVersion.map Version.text).getD [],
    (x.1.versions.aflVersion.map Version.text).getD [], x.2⟩

theorem blk_targets (pr : Char → Bool) (ts : List Str) : ∃ l z, Blk (debugList (ts.map (strDebug pr))) l z ∧
    ((withComma l z).map (c%"    " ++ ·)).map (c%"    " ++ ·) = targetLines (quoted pr false) ts := by
  unfold targetLines
  split
  · next h => subst h; exact ⟨_, _, blk_empty, rfl⟩
  · next h =>
    refine ⟨_, _, blk_list (strDebug pr) _ _ (blk_str pr) ts h, ?_⟩
    have : (ts.flatMap fun x => (withComma [] (quoted pr false x)).map (c%"    " ++ ·)) =
        ts.map fun x => c%"    " ++ (quoted pr false x ++ c%",") := by
      clear h
      induction ts with
      | nil => rfl
      | cons t ts ih => rw [List.flatMap_cons, ih]; rfl
    rw [this]
    simp [withComma]

theorem entries_lines (pr : Char → Bool) (x : Exe × List Str) : ∃ l z,
    Blk (debugTuple [] [exeDebug pr x.1, debugList (x.2.map (strDebug pr))]) l z ∧
      (withComma l z).map (c%"    " ++ ·) = entryLines (quoted pr true) (quoted pr false) (entryOf x) := by
  obtain ⟨l, z, h1, h2⟩ := blk_targets pr x.2
  refine ⟨_, _, blk_pair (blk_exe pr x.1) h1, ?_⟩
  unfold entryLines
  rw [show (entryOf x).targets = x.2 from rfl, ← h2]
  simp [withComma, entryOf]

/-- **C102 (layout).** What `--list` prints, line by line. -/
theorem C102_layout (pr : Char → Bool) (ets : List (Exe × List Str)) :
    listText pr ets = unlines (listingLines (quoted pr true) (quoted pr false) (ets.map entryOf)) := by
  unfold listText listingLines
  by_cases h : ets = []
  · subst h; rfl
  · rw [if_neg (by simpa using h)]
    choose l z h1 h2 using entries_lines pr
    have hb := blk_list _ l z h1 ets h
    rw [hb.1, unlines_append, unlines_append, unlines_append]
    simp only [h2, List.flatMap_map]
    simp [unlines]


theorem sep_inj {α : Type} {a a' b b' : List α} {sep : α} (h : a ++ sep :: b = a' ++ sep :: b') (ha : sep ∉ a) (ha' : sep ∉ a') :
    a = a' ∧ b = b' := by
  induction a generalizing a' with
  | nil =>
    cases a' with
    | nil => simpa using h
    | cons x a' => simp only [List.nil_append, List.cons_append, List.cons.injEq] at h; exact absurd (by simp [h.1]) ha'
  | cons x a ih =>
    cases a' with
    | nil => simp only [List.nil_append, List.cons_append, List.cons.injEq] at h; exact absurd (by simp [h.1]) ha
    | cons y a' =>
      simp only [List.cons_append, List.cons.injEq] at h
      obtain ⟨rfl, rfl⟩ := ih h.2 (fun hm => ha (by simp [hm])) (fun hm => ha' (by simp [hm]))
      exact ⟨by rw [h.1], rfl⟩

/-- The line of a target. -/
def targetLine (q : Str → Str) (t : Str) : Str := c%"            " ++ q t ++ c%","

theorem targetLine_inj {q : Str → Str} (hq : Quoting q) {t t' : Str} (h : targetLine q t = targetLine q t') : t = t' := by
  unfold targetLine at h
  rw [List.append_assoc, List.append_assoc] at h
  exact hq.inj _ _ (List.append_cancel_right (List.append_cancel_left h))

theorem targetLine_eq {q : Str → Str} (hq : Quoting q) (t : Str) : ∃ r, targetLine q t = c%"            \"" ++ r := by
  obtain ⟨m, h⟩ := hq.quotes t
  exact ⟨m ++ c%"\"" ++ c%",", by simp [targetLine, h]⟩

theorem targetLines_inj {q : Str → Str} (hq : Quoting q) {ts ts' : List Str} {r r' : List Str}
    (h : targetLines q ts ++ r = targetLines q ts' ++ r') : ts = ts' ∧ r = r' := by
  have hm : ∀ ts : List Str, c%"        ]," ∉ ts.map (targetLine q) := by
    intro ts hm
    obtain ⟨t, -, ht⟩ := List.mem_map.mp hm
    obtain ⟨m, e⟩ := targetLine_eq hq t
    rw [e] at ht
    simp at ht
  unfold targetLines at h
  split at h <;> split at h
  · next h1 h2 => subst h1; subst h2; exact ⟨rfl, by simpa using h⟩
  · simp at h
  · simp at h
  · change ([c%"        ["] ++ ts.map (targetLine q) ++ [c%"        ],"]) ++ r =
      ([c%"        ["] ++ ts'.map (targetLine q) ++ [c%"        ],"]) ++ r' at h
    simp only [List.append_assoc, List.cons_append, List.nil_append, List.cons.injEq, true_and] at h
    obtain ⟨h1, h2⟩ := sep_inj h (hm ts) (hm ts')
    exact ⟨List.map_injective_iff.mpr (fun _ _ => targetLine_inj hq) h1, h2⟩

theorem entryLines_inj {qp q : Str → Str} (hp : Quoting qp) (hq : Quoting q) {x y : Entry} {r r' : List Str}
    (h : entryLines qp q x ++ r = entryLines qp q y ++ r') : x = y ∧ r = r' := by
  obtain ⟨p, n, t, a, ts⟩ := x
  obtain ⟨p', n', t', a', ts'⟩ := y
  unfold entryLines at h
  simp only [List.append_assoc, List.cons_append, List.nil_append, List.cons.injEq, true_and] at h
  obtain ⟨h1, h2, h3, h4, h5⟩ := h
  cases hp.inj _ _ (List.append_cancel_right h1)
  cases hq.inj _ _ (List.append_cancel_right h2)
  cases hq.inj _ _ (List.append_cancel_right h3)
  cases hq.inj _ _ (List.append_cancel_right h4)
  obtain ⟨rfl, h6⟩ := targetLines_inj hq h5
  exact ⟨rfl, by simpa using h6⟩

theorem entries_inj {qp q : Str → Str} (hp : Quoting qp) (hq : Quoting q) : ∀ {l l' : List Entry},
    l.flatMap (entryLines qp q) ++ [c%"]"] = l'.flatMap (entryLines qp q) ++ [c%"]"] → l = l'
  | [], [], _ => rfl
  | [], y :: l', h => by simp [entryLines] at h
  | x :: l, [], h => by simp [entryLines] at h
  | x :: l, y :: l', h => by
    rw [List.flatMap_cons, List.flatMap_cons, List.append_assoc, List.append_assoc] at h
    obtain ⟨rfl, h'⟩ := entryLines_inj hp hq h
    rw [entries_inj hp hq h']

theorem listingLines_inj {qp q : Str → Str} (hp : Quoting qp) (hq : Quoting q) {l l' : List Entry}
    (h : listingLines qp q l = listingLines qp q l') : l = l' := by
  unfold listingLines at h
  split at h <;> split at h
  · next h1 h2 => rw [h1, h2]
  · simp at h
  · simp at h
  · rw [List.append_assoc, List.append_assoc] at h
    exact entries_inj hp hq (List.append_cancel_left h)

theorem targetLines_line {q : Str → Str} (hq : Quoting q) (ts : List Str) : ∀ x ∈ targetLines q ts, '\n' ∉ x := by
  intro x hx
  unfold targetLines at hx
  split at hx
  · cases List.mem_singleton.mp hx; decide
  · simp only [List.mem_append, List.mem_singleton, List.mem_map] at hx
    rcases hx with (rfl | ⟨t, -, rfl⟩) | rfl
    · decide
    · simp only [List.mem_append, not_or]
      exact ⟨⟨by decide, hq.line t⟩, by decide⟩
    · decide

theorem listingLines_line {qp q : Str → Str} (hp : Quoting qp) (hq : Quoting q) (l : List Entry) :
    ∀ x ∈ listingLines qp q l, '\n' ∉ x := by
  intro x hx
  unfold listingLines at hx
  split at hx
  · cases List.mem_singleton.mp hx; decide
  · simp only [List.mem_append, List.mem_singleton, List.mem_flatMap] at hx
    rcases hx with (rfl | ⟨e, -, hx⟩) | rfl
    · decide
    · unfold entryLines at hx
      rcases List.mem_append.mp hx with hx | hx
      · rcases List.mem_append.mp hx with hx | hx
        · simp only [List.mem_cons, List.not_mem_nil, or_false] at hx
          rcases hx with rfl | rfl | rfl | rfl | rfl | rfl | rfl
          · decide
          · decide
          · simp only [List.mem_append, not_or]; exact ⟨⟨by decide, hp.line _⟩, by decide⟩
          · simp only [List.mem_append, not_or]; exact ⟨⟨by decide, hq.line _⟩, by decide⟩
          · simp only [List.mem_append, not_or]; exact ⟨⟨by decide, hq.line _⟩, by decide⟩
          · simp only [List.mem_append, not_or]; exact ⟨⟨by decide, hq.line _⟩, by decide⟩
          · decide
        · exact targetLines_line hq _ x hx
      · cases List.mem_singleton.mp hx; decide
    · decide

/-- **C102 (told apart).** If two listings print the same text, they show the same executables – paths, names and versions – in
the same order, each with the same targets in the same order. -/
theorem C102_tells_apart (pr : Char → Bool) (ets ets' : List (Exe × List Str)) (h : listText pr ets = listText pr ets') :
    ets.map entryOf = ets'.map entryOf := by
  rw [C102_layout, C102_layout] at h
  exact listingLines_inj (C102_quoting pr true) (C102_quoting pr false)
    (unlines_inj (listingLines_line (C102_quoting pr true) (C102_quoting pr false) _)
      (listingLines_line (C102_quoting pr true) (C102_quoting pr false) _) h)

theorem count_other {q : Str → Str} (hq : Quoting q) (t : Str) (l : List Str) (h : ∀ r, c%"            \"" ++ r ∉ l) :
    l.count (targetLine q t) = 0 := by
  obtain ⟨r, e⟩ := targetLine_eq hq t
  rw [e]
  exact List.count_eq_zero.mpr (h r)

theorem count_targetLines {q : Str → Str} (hq : Quoting q) (ts : List Str) (t : Str) :
    (targetLines q ts).count (targetLine q t) = ts.count t := by
  unfold targetLines
  split
  · next h =>
    subst h
    exact count_other hq t _ (by simp)
  · change ([c%"        ["] ++ ts.map (targetLine q) ++ [c%"        ],"]).count (targetLine q t) = _
    rw [List.count_append, List.count_append, List.count_map_of_injective _ _ (fun _ _ => targetLine_inj hq),
      count_other hq t [c%"        ["] (by simp), count_other hq t [c%"        ],"] (by simp)]
    simp

theorem count_entryLines (qp : Str → Str) {q : Str → Str} (hq : Quoting q) (x : Entry) (t : Str) :
    (entryLines qp q x).count (targetLine q t) = x.targets.count t := by
  unfold entryLines
  rw [List.count_append, List.count_append, count_targetLines hq, count_other hq t [c%"    ),"] (by simp)]
  rw [Nat.add_zero, count_other hq t _ (by simp), Nat.zero_add]

theorem count_listingLines (qp : Str → Str) {q : Str → Str} (hq : Quoting q) (l : List Entry) (t : Str) :
    (listingLines qp q l).count (targetLine q t) = (l.flatMap Entry.targets).count t := by
  unfold listingLines
  split
  · next h =>
    subst h
    exact count_other hq t _ (by simp)
  · rw [List.count_append, List.count_append, count_other hq t [c%"["] (by simp), count_other hq t [c%"]"] (by simp),
      Nat.zero_add, Nat.add_zero]
    clear * - hq
    induction l with
    | nil => rfl
    | cons x l ih => rw [List.flatMap_cons, List.flatMap_cons, List.count_append, List.count_append, ih, count_entryLines qp hq]

/-- **C102 (each target).** Among the lines printed there is one for each target listed, no more and no less: twelve spaces, the
name in quotes, and a comma. -/
theorem C102_lines (pr : Char → Bool) (ets : List (Exe × List Str)) (ls : List Str) (hls : ∀ x ∈ ls, '\n' ∉ x)
    (h : listText pr ets = unlines ls) (t : Str) :
    ls.count (c%"            " ++ quoted pr false t ++ c%",") = (ets.flatMap (·.2)).count t := by
  rw [C102_layout] at h
  rw [← unlines_inj (listingLines_line (C102_quoting pr true) (C102_quoting pr false) _) hls h]
  refine (count_listingLines _ (C102_quoting pr false) _ t).trans ?_
  rw [List.flatMap_map]
  rfl

/-- **C102 (the command).** With `--list`, and if the command succeeds, the text printed has a line for a name exactly if one of
the executables built lists the test of the name's harness, and the name contains the pattern – equals it with `--exact` – if one
is given. -/
theorem C102_run (pr : Char → Bool) (o : Opts) (y : Sys) (s : RSt) (lines : Exe → List Str) (exes : List Exe)
    (hl : o.list = true) (hok : (run o y s).1 = .ok ()) (hb : buildResult y.metadata (y.build s.world.fs).1 = .ok exes)
    (hlist : ∀ e ∈ exes, y.listing e = some (printed (lines e)) ∧ ∀ l ∈ lines e, IsLine l) :
    ∃ l ets, (run o y s).2.acts = s.acts ++ l ++ [.printTargets ets] ∧ ∃ ls, (∀ x ∈ ls, '\n' ∉ x) ∧ listText pr ets = unlines ls ∧
      ∀ t, c%"            " ++ quoted pr false t ++ c%"," ∈ ls ↔
        (∃ e ∈ exes, t ++ c%"_fuzz__::entry: test" ∈ lines e) ∧
          ∀ pat, o.ztarget = some pat → if o.exact then t = pat else pat <:+: t := by
  obtain ⟨exes', ets, l, h1, h2, h3⟩ := C27_list_prints o y s hl hok
  cases hb.symm.trans h1
  refine ⟨l, _, h3, _, listingLines_line (C102_quoting pr true) (C102_quoting pr false) _, C102_layout pr _, fun t => ?_⟩
  have hc := C102_lines pr (selectTargets o ets) _ (listingLines_line (C102_quoting pr true) (C102_quoting pr false) _)
    (C102_layout pr _) t
  rw [← List.count_pos_iff, hc, List.count_pos_iff]
  have hpairs : ∀ ets : List (Exe × List Str), t ∈ ets.flatMap (·.2) ↔ ∃ e, (e, t) ∈ pairs ets := by
    intro ets
    simp only [pairs, List.mem_flatMap, List.mem_map, Prod.mk.injEq]
    constructor
    · rintro ⟨x, hx, ht⟩; exact ⟨x.1, x, hx, t, ht, rfl, rfl⟩
    · rintro ⟨e, x, hx, t', ht, -, rfl⟩; exact ⟨x, hx, ht⟩
  have hsel : (∃ e, (e, t) ∈ pairs (selectTargets o ets)) ↔
      (∃ e, (e, t) ∈ pairs ets) ∧ ∀ pat, o.ztarget = some pat → if o.exact then t = pat else pat <:+: t := by
    rw [C24_selection]
    cases o.ztarget with
    | none => simp
    | some pat =>
      cases o.exact <;> simp
  rw [hpairs, hsel]
  refine and_congr_left' ?_
  have hts : ∀ e : Exe, ∃ ts, e ∈ exes → targets (y.listing e) = .ok ts ∧
      ts.map (· ++ c%"_fuzz__::entry: test") = (lines e).filter listsHarness := by
    intro e
    by_cases he : e ∈ exes
    · obtain ⟨ts, h⟩ := C22_discovery_exact (lines e) (hlist e he).2
      exact ⟨ts, fun _ => by rw [(hlist e he).1]; exact h⟩
    · exact ⟨[], fun h => absurd h he⟩
  choose ts hts using hts
  have := C22_executables y.listing ts exes fun e he => (hts e he).1
  cases h2.symm.trans this
  have hmem : ∀ e ∈ exes, t ∈ ts e ↔ t ++ c%"_fuzz__::entry: test" ∈ lines e := by
    intro e he
    have h4 := (hts e he).2
    constructor
    · intro ht
      have : t ++ c%"_fuzz__::entry: test" ∈ (ts e).map (· ++ c%"_fuzz__::entry: test") := List.mem_map.mpr ⟨t, ht, rfl⟩
      rw [h4] at this
      exact (List.mem_filter.mp this).1
    · intro ht
      have : t ++ c%"_fuzz__::entry: test" ∈ (lines e).filter listsHarness :=
        List.mem_filter.mpr ⟨ht, by simp [listsHarness]⟩
      rw [← h4] at this
      obtain ⟨t', ht', e'⟩ := List.mem_map.mp this
      rwa [← List.append_cancel_right e']
  constructor
  · rintro ⟨e, he⟩
    simp only [pairs, List.mem_flatMap, List.mem_map, Prod.mk.injEq, List.mem_filter] at he
    obtain ⟨x, ⟨e', ⟨he', -⟩, rfl⟩, t', ht', rfl, rfl⟩ := he
    exact ⟨e', he', (hmem e' he').mp ht'⟩
  · rintro ⟨e, he, ht⟩
    have ht' := (hmem e he).mpr ht
    refine ⟨e, ?_⟩
    simp only [pairs, List.mem_flatMap, List.mem_map, Prod.mk.injEq, List.mem_filter]
    refine ⟨_, ⟨e, ⟨he, ?_⟩, rfl⟩, t, ht', rfl, rfl⟩
    cases h : ts e with
    | nil => rw [h] at ht'; cases ht'
    | cons => rfl

/-! ## Concrete cases -/

namespace ListDemo

open Demo

/-- All but control characters. -/
def pr (c : Char) : Bool := 32 ≤ c.toNat && c.toNat != 127

/-- C102_layout, C102_plain: what is printed for one executable and two targets. -/
example : listText pr [(exe, [c%"m::a", c%"b"])] = unlines
    [c%"[", c%"    (", c%"        Executable {", c%"            path: \"/t/p\",", c%"            name: \"p\",",
      c%"            test_fuzz_version: \"1.0.0\",", c%"            afl_version: \"1.0.0\",", c%"        },", c%"        [",
      c%"            \"m::a\",", c%"            \"b\",", c%"        ],", c%"    ),", c%"]"] := by decide +kernel

/-- Quotes, backslashes, newlines and other control characters; `'` is escaped in paths only. -/
example : quoted pr false c%"a\"b\\c'\n\x01" = c%"\"a\\\"b\\\\c'\\n\\u{1}\"" ∧
    quoted pr true c%"it's" = c%"\"it\\'s\"" ∧ listText pr [] = c%"[]\n" := by decide +kernel

/-- C102_plain: the name of a target in a module. -/
example : ∀ c ∈ c%"m::a_1", pr c = true ∧ c ∉ ['\x00', '\t', '\r', '\n', '\\', '"', '\''] := by decide +kernel

/-- C102_tells_apart, C102_lines: the targets of two executables; a name that is listed twice. -/
example : listText pr [(exe, [c%"a"]), (exe, [c%"a", c%"b"])] ≠ listText pr [(exe, [c%"a", c%"a"]), (exe, [c%"b"])] ∧
    ([(exe, [c%"a"]), (exe, [c%"a", c%"b"])].flatMap (·.2)).count c%"a" = 2 := by decide +kernel

/-- C102_run: all hypotheses, for two targets of which one is asked for. -/
example : let o := { opts with list := true, ztarget := some c%"a", exact := true }
    let lines : Exe → List Str := fun _ => [c%"a_fuzz__::entry: test", c%"b_fuzz__::entry: test", c%"other: test"]
    o.list = true ∧ (run o sys start).1 = .ok () ∧ buildResult sys.metadata (sys.build start.world.fs).1 = .ok [exe] ∧
      (∀ e ∈ [exe], sys.listing e = some (printed (lines e)) ∧ ∀ l ∈ lines e, IsLine l) ∧
      (run o sys start).2.acts.getLast? = some (.printTargets [(exe, [c%"a"])]) := by
  refine ⟨rfl, by decide +kernel, by decide +kernel, ?_, by decide +kernel⟩
  intro e he
  cases List.mem_singleton.mp he
  refine ⟨by decide +kernel, ?_⟩
  unfold IsLine
  decide +kernel

end ListDemo

end TF
