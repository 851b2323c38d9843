import Verif.Model.Report
import Verif.Spec.Report
import Verif.Lemmas.Lossy
import Verif.Props.Modes
import Verif.Props.Exact

/-!
# C85: what displaying and replaying print
-/

namespace TF

open Spec

/-! ## `String::from_utf8_lossy` -/

/-- Text shown for bytes is what the Unicode Standard recommends, and there is only one such text. -/
theorem C85_lossy (b : Bytes) (s : Str) : ShownAs b s ↔ lossy b = s :=
  ⟨fun h => shownAs_unique (lossyFuel_shown _ b (Nat.le_refl _)) h, fun h => h ▸ lossyFuel_shown _ b (Nat.le_refl _)⟩

theorem shownAs_valid (s : Str) : ShownAs (utf8Encode s) s := by
  induction s with
  | nil => exact .nil
  | cons c s ih =>
    have : utf8Encode (c :: s) = encodeChar c ++ utf8Encode s := by simp [utf8Encode]
    rw [this]
    exact .char c ih

/-- Text is shown as it is. -/
theorem C85_valid (s : Str) : lossy (utf8Encode s) = s := (C85_lossy _ _).mp (shownAs_valid s)

/-- There is no ASCII in what is ill-formed. -/
theorem bad_not_ascii {p b : Bytes} (h1 : ∀ c, ¬ encodeChar c <+: p ++ b) (h2 : MaximalSubpart (p ++ b) p) {x : UInt8}
    (hx : x ∈ p) : ¬ x.toNat < 128 := by
  intro hlt
  have hp : p = [x] := by
    rcases h2.2.2.1 with h | ⟨c, hc⟩
    · obtain ⟨y, rfl⟩ := List.length_eq_one_iff.mp h
      rw [List.mem_singleton.mp hx]
    · have := (mem_encodeChar_ascii (hc.subset hx) hlt).1
      rw [this] at hc
      have hl := hc.length_le
      have := List.length_pos_of_mem hx
      obtain ⟨y, rfl⟩ := List.length_eq_one_iff.mp (show p.length = 1 by simp at hl; omega)
      rw [List.mem_singleton.mp hx]
  obtain ⟨c, hc⟩ := exists_char1 hlt
  exact h1 c (by rw [hc, hp]; exact ⟨b, rfl⟩)

theorem asciiBytes_append (a b : Bytes) : asciiBytes (a ++ b) = asciiBytes a ++ asciiBytes b := by
  simp [asciiBytes]

theorem asciiBytes_char (c : Char) : asciiBytes (encodeChar c) = asciiOf [c] := by
  by_cases h : ∃ x ∈ encodeChar c, x.toNat < 128
  · obtain ⟨x, hx, hlt⟩ := h
    obtain ⟨h1, h2⟩ := mem_encodeChar_ascii hx hlt
    rw [h1]
    simp [asciiBytes, asciiOf, h2, hlt]
  · push Not at h
    have h1 : asciiBytes (encodeChar c) = [] := by
      unfold asciiBytes
      rw [List.filter_eq_nil_iff]
      intro x hx
      have := h x hx
      simp only [decide_eq_true_eq]
      omega
    have h2 : ¬ c.toNat < 128 := by
      intro hc
      have : encodeChar c = [UInt8.ofNat c.toNat] := by unfold encodeChar; simp [hc]
      have := h (UInt8.ofNat c.toNat) (by rw [this]; simp)
      rw [toNat_ofNat_lt (by omega)] at this
      omega
    rw [h1]
    simp [asciiOf, h2]

/-- ASCII is kept, whatever is around it: no byte of it is lost or added. -/
theorem C85_ascii (b : Bytes) : asciiOf (lossy b) = asciiBytes b := by
  have : ∀ s, ShownAs b s → asciiOf s = asciiBytes b := by
    intro s h
    induction h with
    | nil => rfl
    | char c _ ih =>
      rw [asciiBytes_append, asciiBytes_char, ← ih]
      simp only [asciiOf, List.filter_cons]
      split <;> simp
    | @bad p b s h1 h2 _ ih =>
      have : asciiBytes p = [] := by
        unfold asciiBytes
        rw [List.filter_eq_nil_iff]
        intro x hx
        simpa using bad_not_ascii h1 h2 hx
      rw [asciiBytes_append, this, ← ih]
      simp [asciiOf, List.filter_cons]
  exact this _ ((C85_lossy _ _).mpr rfl)

theorem newline_char (c : Char) : (encodeChar c).getLast? = some 10 ↔ c = '\n' := by
  constructor
  · intro h
    obtain ⟨-, h2⟩ := mem_encodeChar_ascii (List.mem_of_getLast? h) (by decide)
    exact Char.toNat_inj.mp (by rw [h2]; rfl)
  · rintro rfl; decide +kernel

theorem shownAs_eq_nil {b : Bytes} {s : Str} (h : ShownAs b s) : s = [] ↔ b = [] := by
  cases h with
  | nil => simp
  | char c h => simp [encodeChar_ne_nil]
  | bad h1 h2 h => simp [h2.2.1]

theorem shownAs_newline {b : Bytes} {s : Str} (h : ShownAs b s) : s.getLast? = some '\n' ↔ b.getLast? = some 10 := by
  induction h with
  | nil => simp
  | char c h ih =>
    rename_i b s
    by_cases hb : b = []
    · have := (shownAs_eq_nil h).mpr hb
      subst this hb
      simp [newline_char]
    · have hs := fun hs => hb ((shownAs_eq_nil h).mp hs)
      rw [List.getLast?_append_of_ne_nil _ hb, ← ih, ← List.singleton_append, List.getLast?_append_of_ne_nil _ hs]
  | bad h1 h2 h ih =>
    rename_i p b s
    by_cases hb : b = []
    · have := (shownAs_eq_nil h).mpr hb
      subst this hb
      simp only [List.append_nil] at *
      constructor
      · intro h; simp only [List.getLast?_singleton, Option.some.injEq] at h; exact absurd h (by decide)
      · intro h
        exact absurd (by decide) (bad_not_ascii (b := []) (by simpa using h1) (by simpa using h2) (List.mem_of_getLast? h))
    · have hs := fun hs => hb ((shownAs_eq_nil h).mp hs)
      rw [List.getLast?_append_of_ne_nil _ hb, ← ih, ← List.singleton_append, List.getLast?_append_of_ne_nil _ hs]

/-- The code looks at the last byte of the output; the text shown ends with a newline exactly if that byte is one. -/
theorem C85_newline (b : Bytes) : (lossy b).getLast? = some '\n' ↔ b.getLast? = some 10 :=
  shownAs_newline ((C85_lossy _ _).mpr rfl)

/-! ## The entries -/

/-- What is printed for an input: its name, what the harness wrote, as text and with a newline at the end, and the result if
there is more to say. -/
theorem C85_entry (status : Str) (r : Report) (s : Str) (h : ShownAs r.buffer s) :
    ∃ t u, Completed s t ∧ Result status r u ∧ reportText status r = r.name ++ c%": " ++ t ++ u := by
  have hl := (C85_lossy _ _).mp h
  have hu : ∃ u, Result status r u ∧ u = resultText status r.buffer r.verdict := by
    cases hv : r.verdict with
    | raw => exact ⟨_, .raw hv, rfl⟩
    | timeout => exact ⟨_, .timeout hv, rfl⟩
    | status ok =>
      simp only [resultText]
      split
      · next he => exact ⟨_, .silent ok hv (List.isEmpty_iff.mp he), rfl⟩
      · next he => exact ⟨_, .spoke ok hv (fun e => he (List.isEmpty_iff.mpr e)), rfl⟩
  obtain ⟨u, hu1, hu2⟩ := hu
  unfold reportText outputText
  rw [← hu2]
  cases hb : r.buffer.getLast? with
  | none =>
    have : s = [] := (shownAs_eq_nil h).mpr (List.getLast?_eq_none_iff.mp hb)
    subst this
    exact ⟨[], u, .nil, hu1, rfl⟩
  | some x =>
    dsimp only
    rw [hl]
    have hne : s ≠ [] := fun e => by rw [(shownAs_eq_nil h).mp e] at hb; simp at hb
    obtain ⟨s', c, rfl⟩ : ∃ s' c, s = s' ++ [c] := ⟨_, _, (List.dropLast_append_getLast hne).symm⟩
    have hn := shownAs_newline h
    rw [hb] at hn
    simp only [List.getLast?_append, List.getLast?_singleton, Option.some_or, Option.some.injEq] at hn
    by_cases hx : x = 10
    · have hc := hn.mpr hx
      subst hc
      exact ⟨_, u, .newline s', hu1, by simp [hx]⟩
    · exact ⟨_, u, .other s' c (fun e => hx (hn.mp e)), hu1, by simp [hx]⟩

theorem completed_ends {s t : Str} (h : Completed s t) : t = [] ∧ s = [] ∨ ∃ t', t = t' ++ ['\n'] := by
  cases h with
  | nil => exact .inl ⟨rfl, rfl⟩
  | newline s => exact .inr ⟨_, rfl⟩
  | other s c _ => exact .inr ⟨_, rfl⟩

/-- The text for an input ends with a newline, unless it is a list of types, and empty. -/
theorem C85_ends (status : Str) (r : Report) :
    (∃ t, reportText status r = t ++ ['\n']) ↔ ¬ (r.verdict = .raw ∧ r.buffer = []) := by
  have hs := (C85_lossy r.buffer _).mpr rfl
  obtain ⟨t, u, ht, hu, he⟩ := C85_entry status r _ hs
  rw [he]
  constructor
  · rintro ⟨t', h⟩ ⟨hv, hb⟩
    have hu : u = [] := by cases hu <;> simp_all
    have ht : t = [] := by
      rcases completed_ends ht with h | ⟨t'', h⟩
      · exact h.1
      · rw [(shownAs_eq_nil hs).mpr hb] at ht
        generalize hz : ([] : Str) = z at ht
        cases ht with
        | nil => rfl
        | newline s => simp at hz
        | other s c => simp at hz
    subst hu ht
    have := congrArg List.getLast? h
    simp at this
  · intro hn
    have : (∃ u', u = u' ++ ['\n']) ∨ (u = [] ∧ ∃ t', t = t' ++ ['\n']) := by
      have hb : r.buffer ≠ [] → ∃ t', t = t' ++ ['\n'] := fun hb =>
        (completed_ends ht).resolve_left fun h => hb ((shownAs_eq_nil hs).mp h.2)
      cases hu with
      | raw hv => exact .inr ⟨rfl, hb fun h => hn ⟨hv, h⟩⟩
      | timeout hv => exact .inl ⟨c%"Timeout", rfl⟩
      | silent ok hv h => exact .inl ⟨_, rfl⟩
      | spoke ok hv h => exact .inr ⟨rfl, hb h⟩
    rcases this with ⟨u', rfl⟩ | ⟨rfl, t', rfl⟩
    · exact ⟨r.name ++ c%": " ++ t ++ u', by simp⟩
    · exact ⟨r.name ++ c%": " ++ t', by simp⟩

/-! ## All that is printed -/

/-- Not the report of a list of types. -/
def NotRaw : Act → Prop
  | .report r => r.verdict ≠ .raw
  | _ => True

theorem stdoutOf_ends (status : Report → Str) (a : Act) (h : NotRaw a) : stdoutOf status a = [] ∨ ∃ b, stdoutOf status a = b ++ [10] := by
  cases a with
  | report r =>
    obtain ⟨t, ht⟩ := (C85_ends (status r) r).mpr fun hr => h hr.1
    refine .inr ⟨utf8Encode t, ?_⟩
    simp only [stdoutOf]
    rw [ht, utf8Encode_append]
    congr 1
  | heading t d => exact .inr ⟨d, rfl⟩
  | _ => exact .inl rfl

theorem stdoutOfAll_lines (status : Report → Str) (l : List Act) (h : ∀ a ∈ l, NotRaw a) :
    AtLineStart (stdoutOfAll status l) := by
  induction l with
  | nil => exact .inl rfl
  | cons a l ih =>
    have hc : stdoutOfAll status (a :: l) = stdoutOf status a ++ stdoutOfAll status l := by simp [stdoutOfAll]
    rw [hc]
    rcases ih fun a ha => h a (List.mem_cons_of_mem _ ha) with hl | ⟨b, hl⟩
    · rw [hl, List.append_nil]
      exact stdoutOf_ends status a (h a List.mem_cons_self)
    · exact .inr ⟨stdoutOf status a ++ b, by rw [hl, List.append_assoc]⟩

theorem entriesLoop_notRaw (lim : Nat) (y : Sys) (f : Flags) (hf : f.raw = false) (a e d ns se) :
    Does NotRaw (entriesLoop lim y f a e d ns se) := by
  induction ns generalizing se with
  | nil => exact .pure _
  | cons n ns ih =>
    unfold entriesLoop
    refine .bind (.io _ _) fun _ _ => ?_
    split
    · exact ih _
    · refine .bind (.plain (runEntry_plain (P := NotRaw) _ _ _ _ _ _ _ trivial trivial trivial) fun _ h => h)
        fun z _ => ?_
      refine .bind ?_ fun _ _ => ih _
      unfold reportEntry
      refine .bind (.act ?_) fun _ _ => .pure _
      rw [hf]
      simp only [NotRaw, Bool.false_eq_true, if_false]
      split <;> exact fun h => nomatch h

theorem chooseFlags_raw {o : Opts} {ob : Object} (ho : Chosen o ob) (hn : ¬ TypeNames ob) {c : Ctx} {k t : Str} {f : Flags}
    {d : Path} (h : chooseFlagsAndDir o c k t = .ok (f, d)) : f.raw = false := by
  have h : flagsAndDir c ob k t = .ok (f, d) := by
    rw [← h]
    unfold chooseFlagsAndDir
    rcases ho with h | ⟨h, h'⟩ | ⟨h, h', h''⟩
    · rw [h]
    · rw [h, h']
    · rw [h, h', h'']
  have := (C32_objects _ _ _ _ _ _ h).2
  cases hr : f.raw with
  | false => rfl
  | true => exact absurd (this.mp hr) hn

theorem replayLoop_notRaw {o : Opts} {ob : Object} (ho : Chosen o ob) (hn : ¬ TypeNames ob) (y : Sys) (m l) :
    Does NotRaw (replayLoop o y m l) := by
  induction l with
  | nil => exact .pure _
  | cons x l ih =>
    obtain ⟨exe, target⟩ := x
    unfold replayLoop printHeading forEachEntry
    refine .bind (.when (.bind (.lift _) fun _ _ => .act trivial)) fun _ _ => .bind (.lift _) fun x hx => ?_
    have hf := chooseFlags_raw ho hn (lift_result hx)
    exact .bind (.bind (.io _ _) fun _ _ => .bind (.lift _) fun _ _ => .bind (.io _ _) fun _ _ =>
        .bind (entriesLoop_notRaw _ _ _ hf _ _ _ _ _) fun _ _ =>
          .plain (closing_plain (P := NotRaw) _ _ fun _ => trivial) fun _ h => h) fun _ _ => ih

theorem replayAll_notRaw {o : Opts} {ob : Object} (ho : Chosen o ob) (hn : ¬ TypeNames ob) (y : Sys) (llvm ets) :
    Does NotRaw (replayAll o y llvm ets) := by
  unfold replayAll
  refine .bind (.when ?_) fun _ _ => .bind (.lift _) fun flat _ => .bind (replayLoop_notRaw ho hn _ _ _) fun _ _ => .when ?_
  · unfold coverageClean
    exact .bind (.lift _) fun c hcm => .plain (mustSucceed_plain _ _ (P := NotRaw) trivial) fun _ h => h
  · unfold coverageReport
    refine .bind ?_ fun _ _ => .bind (.lift _) fun c hcm => .plain (mustSucceed_plain _ _ (P := NotRaw) trivial) fun _ h => h
    unfold coverageWarning
    split
    · exact .lift _
    · exact .when (.act trivial)

theorem belongs_notRaw {o : Opts} {m : Mode} {a : Act} (h : Belongs o m a) (hm : m ≠ .replaying) : NotRaw a := by
  cases h <;> trivial

/-- Whatever is displayed or replayed but lists of types, and wherever it stops: everything printed begins at the start of a line
and ends with a newline, also if what harnesses write does not. -/
theorem C85_lines (o : Opts) (ob : Object) (ho : Chosen o ob) (hn : ¬ TypeNames ob) (y : Sys) (s : RSt) :
    ∃ l, (run o y s).2.acts = s.acts ++ l ∧ ∀ status l1 l2, l = l1 ++ l2 → AtLineStart (stdoutOfAll status l1) := by
  have H : Does NotRaw (runWithoutExitCode (effectiveOpts o) y) := by
    obtain ⟨m, hm⟩ := wants_exists o
    have hm := wants_effective.mpr hm
    have ho := chosen_effective.mpr ho
    generalize effectiveOpts o = o at hm ho
    unfold runWithoutExitCode
    refine .bind ?_ fun x hx => ?_
    · intro s
      obtain ⟨l, h1, h2⟩ := build_belongs o .building y s
      exact ⟨l, h1, fun a ha => belongs_notRaw (h2 a ha) (by decide)⟩
    obtain ⟨llvm, ets⟩ := x
    dsimp only
    rw [dispatch_eq hm]
    cases m with
    | listing => exact .act trivial
    | building => exact .pure _
    | storing =>
      unfold storageAll
      exact .bind (.when (.act trivial)) fun _ _ => .bind (.act trivial) fun _ _ => .io _ _
    | replaying => exact replayAll_notRaw ho hn y llvm ets
    | fuzzing =>
      refine .bind (.lift _) fun flat hflat => ?_
      intro s
      obtain ⟨l, h1, h2⟩ := fuzz_belongs o o y llvm flat s
      exact ⟨l, h1, fun a ha => belongs_notRaw (h2 a ha) (by decide)⟩
  obtain ⟨l, h1, h2⟩ := H s
  refine ⟨l, by rw [run_state, h1], fun status l1 l2 hl => stdoutOfAll_lines status l1 fun a ha => h2 a ?_⟩
  rw [hl]
  exact List.mem_append_left _ ha

/-! ## The headings -/

/-- Without a terminal the heading of a target is its name and three dashes. -/
theorem C85_heading_plain (y : Sys) (hy : y.columns = none) (target : Str) :
    headingText y target = .ok (utf8Encode (target ++ c%" ---")) := by
  unfold headingText dividerWithWidth
  rw [hy, utf8Encode_append]
  simp only [Option.getD_none, List.length_append, List.length_singleton]
  rw [if_neg (by omega)]
  have : (utf8Encode target).length + 4 - ((utf8Encode target).length + 1) = 3 := by omega
  rw [this, List.append_assoc]
  rfl

/-- On a terminal it fills the line, if the name is ordinary. -/
theorem C85_heading (y : Sys) (hm : VisMono y.vis) (hp : VisPlain y.vis) (w : Nat) (hy : y.columns = some w) (target : Str)
    (ht : ∀ x ∈ utf8Encode target, 32 ≤ x.toNat ∧ x.toNat < 127) :
    ∃ d, headingText y target = .ok d ∧ d.length = w ∧ y.vis d = w ∧ (utf8Encode target).take w <+: d := by
  unfold headingText
  rw [hy]
  exact C45_divider_ascii y.vis hm hp _ ht w

/-- For other names there is a width of the terminal at which the command panics, before that target's inputs are looked at. -/
theorem C85_heading_panics (y : Sys) (hm : VisMono y.vis) (target : Str)
    (hl : ∀ b, b <+: utf8Encode target → y.vis b ≤ b.length) (ha : ¬ Ascii (utf8Encode target)) (hs : AllShow y.vis (utf8Encode (target ++ c%" "))) :
    ∃ w, w ≤ (utf8Encode target).length ∧
      ∀ (o : Opts) (e : Exe) (r : List (Exe × Str)) (s : RSt), replayLoop o { y with columns := some w } true ((e, target) :: r) s = (.panic, s) := by
  have he : utf8Encode (target ++ c%" ") = utf8Encode target ++ [32] := by rw [utf8Encode_append]; rfl
  rw [he] at hs
  obtain ⟨m, h1⟩ := inside_of_not_ascii target ha
  obtain ⟨m, h1, h2⟩ := last_inside h1
  have hlt : m < (utf8Encode target).length := by
    obtain ⟨x, hx, -⟩ := h1
    exact (List.getElem?_eq_some_iff.mp hx).1
  have h1' : Inside (utf8Encode target ++ [32]) m := by
    obtain ⟨x, hx, hx'⟩ := h1
    exact ⟨x, by rw [List.getElem?_append_left hlt]; exact hx, hx'⟩
  have h2' : ¬ Inside (utf8Encode target ++ [32]) (m + 1) := by
    rintro ⟨x, hx, hx', hx''⟩
    by_cases hm1 : m + 1 < (utf8Encode target).length
    · rw [List.getElem?_append_left hm1] at hx
      exact h2 ⟨x, hx, hx', hx''⟩
    · have : m + 1 = (utf8Encode target).length := by omega
      rw [this, List.getElem?_append_right (Nat.le_refl _)] at hx
      simp at hx
      subst hx
      exact absurd hx' (by decide)
  have hp := C45_panics y.vis hm _ m h1' (hs m (by simp; omega) h2')
  have hw : y.vis ((utf8Encode target ++ [32]).take (m + 1)) ≤ (utf8Encode target).length := by
    rw [List.take_append_of_le_length (by omega)]
    refine Nat.le_trans (hl _ (List.take_prefix _ _)) ?_
    simp only [List.length_take]
    omega
  refine ⟨_, hw, fun o e r s => ?_⟩
  unfold replayLoop
  rw [Rm.bind_def]
  have : headingText { y with columns := some (y.vis ((utf8Encode target ++ [32]).take (m + 1))) } target = .panic := by
    unfold headingText dividerWithWidth
    simp only [Option.getD_some, List.length_append, List.length_singleton]
    rw [if_pos (by omega)]
    exact hp
  simp only [Rm.when, if_true, printHeading, Rm.bind_def, this, Rm.lift]

/-! ## Non-vacuity -/

/-- A harness that wrote a valid line and then, after half a character, nothing more; one that was silent; one that was killed. -/
example :
    reportText c%"Exited(0)" ⟨c%"a1", [104, 10, 0xE2, 0x82], .status false⟩ = c%"a1: h\n�\n" ∧
    reportText c%"Exited(0)" ⟨c%"a2", [], .status true⟩ = c%"a2: Exited(0)\n" ∧
    reportText c%"Exited(0)" ⟨c%"a3", [104, 10], .timeout⟩ = c%"a3: h\nTimeout\n" ∧
    reportText c%"Exited(0)" ⟨c%"a4", [], .raw⟩ = c%"a4: " := by decide +kernel

/-- Half a character followed by another one; an overlong sequence; a surrogate; text. -/
example : lossy [0xE2, 0x82, 0x41] = c%"�A" ∧ lossy [0xC0, 0xAF] = c%"��" ∧ lossy [0xED, 0xA0, 0x80] = c%"���" ∧
    lossy [0xF0, 0x9F, 0x98, 0x80, 0xC3, 0xA9] = c%"😀é" := by decide +kernel

/-- A name with an accent on a terminal of two columns. -/
example : VisMono List.length ∧ (∀ b : Bytes, b <+: utf8Encode c%"aé" → b.length ≤ b.length) ∧ ¬ Ascii (utf8Encode c%"aé") ∧
    AllShow List.length (utf8Encode (c%"aé" ++ c%" ")) := by
  have he : utf8Encode c%"aé" = [0x61, 0xC3, 0xA9] := by decide +kernel
  refine ⟨visMono_length, fun _ _ => Nat.le_refl _, ?_, ?_⟩
  · rw [he]; exact fun h => absurd (h 0xC3 (by simp)) (by decide)
  · intro m hm _
    simp only [List.length_take]
    omega

end TF
