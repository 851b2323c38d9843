import Verif.Spec.AttrOptions
import Verif.Lemmas.Str
import Verif.Props.Expand
import Mathlib.Data.List.Infix

/-! # Options of the attributes: C79 -/

namespace TF

open Spec

theorem toText_iff {v : ValM} {s : Str} : v.toText = some s ↔ IsText v s := by
  constructor
  · intro h
    induction v with
    | str t =>
      rw [ValM.toText, Option.some.injEq] at h
      exact h ▸ .str t
    | group v ih => exact .group (ih h)
    | _ => cases h
  · intro h
    induction h with
    | str s => rfl
    | group _ ih => exact ih

theorem toBool_iff {v : ValM} {b : Bool} : v.toBool = some b ↔ IsTruth v b := by
  constructor
  · intro h
    induction v with
    | str t =>
      rw [ValM.toBool] at h
      split at h
      · rename_i ht
        cases h
        exact ht ▸ .true
      · split at h
        · rename_i ht
          cases h
          exact ht ▸ .false
        · cases h
    | bool c => cases h; exact .bool _
    | group v ih => exact .group (ih h)
    | _ => cases h
  · intro h
    induction h with
    | group _ ih => exact ih
    | _ => rfl

theorem toIdent_iff {x : OptSyntax} {v : ValM} {s : Str} : v.toIdent x = some s ↔ IsIdentifier x v s := by
  constructor
  · intro h
    induction v with
    | str t =>
      rw [ValM.toIdent] at h
      split at h
      · rename_i ht
        cases h
        exact .str ht
      · cases h
    | ident t =>
      rw [ValM.toIdent] at h
      split at h
      · rename_i ht
        cases h
        exact .bare ht
      · cases h
    | group v ih => exact .group (ih h)
    | _ => cases h
  · intro h
    induction h with
    | str h => exact if_pos h
    | bare h => exact if_pos h
    | group _ ih => exact ih

/-! ## Names -/

theorem optKey_text (o : TextOpt) : optKey (textName o) = some (.text o) := by cases o <;> rfl

theorem optKey_flag (o : FlagOpt) : optKey (flagName o) = some (.flag o) := by cases o <;> rfl

theorem optKey_convert : optKey c%"convert" = some .convert := rfl

theorem name_of_key {n : Str} {k : OptKey} (h : optKey n = some k) :
    n = keyName k := by
  unfold optKey at h
  repeat' split at h
  all_goals first | cases h; assumption | cases h

theorem optKey_inj {n n' : Str} {k : OptKey} (h : optKey n = some k) (h' : optKey n' = some k) : n = n' :=
  (name_of_key h).trans (name_of_key h').symm

/-! ## Items -/

theorem saysText_iff {x : OptSyntax} {o : TextOpt} {m : MetaM} {s : Str} :
    SaysText x o (.item m) s ↔ optKey m.name = some (.text o) ∧ readText x o m = some s := by
  constructor
  · intro h
    cases h with
    | text ho hv =>
      refine ⟨optKey_text _, ?_⟩
      cases o <;> first | exact absurd rfl ho | exact toText_iff.mpr hv
    | rename hv => exact ⟨optKey_text .rename, toIdent_iff.mpr hv⟩
  · rintro ⟨h1, h2⟩
    have hn := name_of_key h1
    cases m with
    | value n v =>
      have hn : n = textName o := hn
      subst hn
      cases o with
      | rename => exact .rename (toIdent_iff.mp h2)
      | _ => exact .text (by decide) (toText_iff.mp h2)
    | _ => cases h2

theorem saysFlag_iff {o : FlagOpt} {m : MetaM} {b : Bool} :
    SaysFlag o (.item m) b ↔ optKey m.name = some (.flag o) ∧ readFlag m = some b := by
  constructor
  · intro h
    cases h with
    | word => exact ⟨optKey_flag _, rfl⟩
    | value hv => exact ⟨optKey_flag _, toBool_iff.mpr hv⟩
  · rintro ⟨h1, h2⟩
    have hn := name_of_key h1
    cases m with
    | value n v =>
      have hn : n = flagName o := hn
      subst hn
      exact .value o (toBool_iff.mp h2)
    | word n =>
      have hn : n = flagName o := hn
      subst hn
      cases h2
      exact .word o
    | list n => cases h2

theorem saysConvert_iff {x : OptSyntax} {m : MetaM} {s : Str} :
    SaysConvert (.item m) s ↔ optKey m.name = some .convert ∧ readText x .bounds m = some s := by
  constructor
  · intro h
    cases h with
    | value hv => exact ⟨rfl, toText_iff.mpr hv⟩
  · rintro ⟨h1, h2⟩
    have hn := name_of_key h1
    cases m with
    | value n v =>
      have hn : n = c%"convert" := hn
      subst hn
      exact .value (toText_iff.mp h2)
    | _ => cases h2

theorem saysText_lit {x : OptSyntax} {o : TextOpt} {s : Str} : ¬ SaysText x o .lit s := nofun
theorem saysFlag_lit {o : FlagOpt} {b : Bool} : ¬ SaysFlag o .lit b := nofun
theorem saysConvert_lit {s : Str} : ¬ SaysConvert .lit s := nofun

/-! ## The loop -/

/-- What is known after some items. -/
structure OptInv (x : OptSyntax) (items : List NestedM) (s : OptState) : Prop where
  text_seen : ∀ o, (s.texts o).seen = true ↔ ∃ m, .item m ∈ items ∧ optKey m.name = some (.text o)
  flag_seen : ∀ o, (s.flags o).seen = true ↔ ∃ m, .item m ∈ items ∧ optKey m.name = some (.flag o)
  text_val : s.errs = 0 → ∀ o t, (s.texts o).val = some t ↔ ∃ i ∈ items, SaysText x o i t
  flag_val : s.errs = 0 → ∀ o b, (s.flags o).val = some b ↔ ∃ i ∈ items, SaysFlag o i b
  convert : s.errs = 0 → ConvertTexts items s.convert
  errs : s.errs = 0 ↔ (∀ i ∈ items, IsOption x i) ∧ items.Pairwise OptsApart

theorem convertTexts_take {items : List NestedM} {ss : List Str} {i : NestedM} {s : Str} (h : ConvertTexts items ss)
    (hi : SaysConvert i s) : ConvertTexts (items ++ [i]) (ss ++ [s]) := by
  induction h with
  | nil => exact .take hi .nil
  | take h1 _ ih => exact .take h1 ih
  | skip h1 _ ih => exact .skip h1 ih

theorem convertTexts_skip {items : List NestedM} {ss : List Str} {i : NestedM} (h : ConvertTexts items ss)
    (hi : ∀ s, ¬ SaysConvert i s) : ConvertTexts (items ++ [i]) ss := by
  induction h with
  | nil => exact .skip hi .nil
  | take h1 _ ih => exact .take h1 ih
  | skip h1 _ ih => exact .skip h1 ih

theorem isOption_iff {x : OptSyntax} {m : MetaM} : IsOption x (.item m) ↔
    match optKey m.name with
    | none => False
    | some (.text o) => (readText x o m).isSome
    | some (.flag _) => (readFlag m).isSome
    | some .convert => (readText x .bounds m).isSome := by
  unfold IsOption
  simp only [saysText_iff, saysFlag_iff, saysConvert_iff (x := x)]
  cases hk : optKey m.name with
  | none => simp
  | some k =>
    cases k <;> simp [Option.isSome_iff_exists]

theorem pairwise_snoc {l : List NestedM} {i : NestedM} :
    (l ++ [i]).Pairwise OptsApart ↔ l.Pairwise OptsApart ∧ ∀ j ∈ l, OptsApart j i := by
  rw [List.pairwise_append]
  simp

theorem apart_of_none {l : List NestedM} {m : MetaM} {k : OptKey} (hk : optKey m.name = some k)
    (h : ∀ m', NestedM.item m' ∈ l → optKey m'.name ≠ some k) : ∀ j ∈ l, OptsApart j (.item m) := by
  intro j hj
  cases j with
  | lit => trivial
  | item m' =>
    intro e
    exact absurd (by rw [e]; exact hk) (h m' hj)

theorem exists_snoc {l : List NestedM} {i : NestedM} {P : NestedM → Prop} :
    (∃ j ∈ l ++ [i], P j) ↔ (∃ j ∈ l, P j) ∨ P i := by
  simp [or_and_right, exists_or]

theorem key_snoc {l : List NestedM} {m : MetaM} {k k' : OptKey} (hk : optKey m.name = some k) :
    (∃ m', NestedM.item m' ∈ l ++ [.item m] ∧ optKey m'.name = some k') ↔
      (∃ m', NestedM.item m' ∈ l ∧ optKey m'.name = some k') ∨ k = k' := by
  simp only [List.mem_append, List.mem_singleton, NestedM.item.injEq, or_and_right, exists_or, exists_eq_left, hk,
    Option.some.injEq]

theorem key_snoc_none {l : List NestedM} {i : NestedM} {k' : OptKey} (hk : ∀ m, i = .item m → optKey m.name = none) :
    (∃ m', NestedM.item m' ∈ l ++ [i] ∧ optKey m'.name = some k') ↔ ∃ m', NestedM.item m' ∈ l ∧ optKey m'.name = some k' := by
  constructor
  · rintro ⟨m', h1, h2⟩
    rcases List.mem_append.mp h1 with h1 | h1
    · exact ⟨m', h1, h2⟩
    · rw [hk m' (List.mem_singleton.mp h1).symm] at h2
      cases h2
  · rintro ⟨m', h1, h2⟩
    exact ⟨m', List.mem_append_left _ h1, h2⟩

/-- An item that is not an option. -/
theorem optInv_error {x : OptSyntax} {items : List NestedM} {s : OptState} (h : OptInv x items s) {i : NestedM}
    (hk : ∀ m, i = .item m → optKey m.name = none) : OptInv x (items ++ [i]) { s with errs := s.errs + 1 } := by
  refine ⟨fun o => by rw [key_snoc_none hk]; exact h.text_seen o, fun o => by rw [key_snoc_none hk]; exact h.flag_seen o,
    nofun, nofun, nofun, ⟨nofun, fun ⟨h1, _⟩ => ?_⟩⟩
  have h2 := h1 i (by simp)
  cases i with
  | lit => rcases h2 with ⟨_, _, h⟩ | ⟨_, _, h⟩ | ⟨_, h⟩ <;> cases h
  | item m => rw [isOption_iff, hk m rfl] at h2; exact h2.elim

theorem all_snoc {l : List NestedM} {i : NestedM} {P : NestedM → Prop} :
    (∀ j ∈ l ++ [i], P j) ↔ (∀ j ∈ l, P j) ∧ P i := by
  simp [or_imp, forall_and]

/-- An item whose name was there before, or was not. -/
theorem apart_iff {x : OptSyntax} {items : List NestedM} {m : MetaM} {k : OptKey} (hk : optKey m.name = some k)
    (hc : k ≠ .convert) :
    (∀ j ∈ items, OptsApart j (.item m)) ↔ ¬ ∃ m', NestedM.item m' ∈ items ∧ optKey m'.name = some k := by
  constructor
  · rintro h ⟨m', h1, h2⟩
    have h3 := h _ h1 (optKey_inj h2 hk)
    rw [h3] at h2
    cases h2
    exact hc rfl
  · intro h
    exact apart_of_none hk fun m' h1 h2 => h ⟨m', h1, h2⟩

theorem slot_errs {α : Type} (s : Slot α) (v : Option α) : s.errs v = 0 ↔ s.seen = false ∧ v.isSome := by
  unfold Slot.errs
  cases s.seen <;> cases v <;> simp

theorem optInv_step {x : OptSyntax} {items : List NestedM} {s : OptState} (h : OptInv x items s) (i : NestedM) :
    OptInv x (items ++ [i]) (s.step x i) := by
  cases i with
  | lit => exact optInv_error h nofun
  | item m =>
    unfold OptState.step
    simp only
    cases hk : optKey m.name with
    | none => exact optInv_error h fun m' e => by cases e; exact hk
    | some k =>
      cases k with
      | text o =>
        simp only
        have hflag : ∀ p b, ¬ SaysFlag p (.item m) b := by
          intro p b
          rw [saysFlag_iff, hk]
          rintro ⟨h, -⟩
          cases h
        have hconv : ∀ t, ¬ SaysConvert (.item m) t := by
          intro t
          rw [saysConvert_iff (x := x), hk]
          rintro ⟨h, -⟩
          cases h
        have he : s.errs + (s.texts o).errs (readText x o m) = 0 ↔
            s.errs = 0 ∧ (s.texts o).seen = false ∧ (readText x o m).isSome := by
          rw [Nat.add_eq_zero_iff, slot_errs]
        refine ⟨?_, ?_, ?_, ?_, ?_, ?_⟩
        · intro p
          rw [key_snoc hk]
          by_cases hp : p = o
          · subst hp
            simp only [if_true, or_true, iff_true]
            unfold Slot.put
            split <;> first | assumption | rfl
          · simp only [if_neg hp]
            rw [h.text_seen p]
            have : ¬ OptKey.text o = .text p := fun e => hp (by cases e; rfl)
            simp [this]
        · intro p
          rw [key_snoc hk]
          simpa using h.flag_seen p
        · intro h0 p t
          obtain ⟨h1, h2, h3⟩ := he.mp h0
          rw [exists_snoc]
          by_cases hp : p = o
          · subst hp
            simp only [if_true]
            unfold Slot.put
            rw [h2]
            simp only [Bool.false_eq_true, if_false]
            rw [saysText_iff, hk]
            constructor
            · exact fun h => .inr ⟨rfl, h⟩
            · rintro (⟨j, hj, hs⟩ | ⟨-, h⟩)
              · exfalso
                have := (h.text_seen p).not.mp (by rw [h2]; exact Bool.false_ne_true)
                cases j with
                | lit => cases hs
                | item m' => exact this ⟨m', hj, (saysText_iff.mp hs).1⟩
              · exact h
          · simp only [if_neg hp]
            rw [h.text_val h1 p t, saysText_iff, hk]
            have : ¬ OptKey.text o = .text p := fun e => hp (by cases e; rfl)
            simp [this]
        · intro h0 p b
          rw [exists_snoc]
          simpa [hflag] using h.flag_val (he.mp h0).1 p b
        · intro h0
          exact convertTexts_skip (h.convert (he.mp h0).1) hconv
        · rw [he, h.errs, all_snoc, pairwise_snoc, isOption_iff, hk, apart_iff (x := x) hk nofun, ← h.text_seen o,
            Bool.not_eq_true]
          tauto
      | flag o =>
        simp only
        have htext : ∀ p t, ¬ SaysText x p (.item m) t := by
          intro p b
          rw [saysText_iff, hk]
          rintro ⟨h, -⟩
          cases h
        have hconv : ∀ t, ¬ SaysConvert (.item m) t := by
          intro t
          rw [saysConvert_iff (x := x), hk]
          rintro ⟨h, -⟩
          cases h
        have he : s.errs + (s.flags o).errs (readFlag m) = 0 ↔
            s.errs = 0 ∧ (s.flags o).seen = false ∧ (readFlag m).isSome := by
          rw [Nat.add_eq_zero_iff, slot_errs]
        refine ⟨?_, ?_, ?_, ?_, ?_, ?_⟩
        · intro p
          rw [key_snoc hk]
          simpa using h.text_seen p
        · intro p
          rw [key_snoc hk]
          by_cases hp : p = o
          · subst hp
            simp only [if_true, or_true, iff_true]
            unfold Slot.put
            split <;> first | assumption | rfl
          · simp only [if_neg hp]
            rw [h.flag_seen p]
            have : ¬ OptKey.flag o = .flag p := fun e => hp (by cases e; rfl)
            simp [this]
        · intro h0 p t
          rw [exists_snoc]
          simpa [htext] using h.text_val (he.mp h0).1 p t
        · intro h0 p t
          obtain ⟨h1, h2, h3⟩ := he.mp h0
          rw [exists_snoc]
          by_cases hp : p = o
          · subst hp
            simp only [if_true]
            unfold Slot.put
            rw [h2]
            simp only [Bool.false_eq_true, if_false]
            rw [saysFlag_iff, hk]
            constructor
            · exact fun h => .inr ⟨rfl, h⟩
            · rintro (⟨j, hj, hs⟩ | ⟨-, h⟩)
              · exfalso
                have := (h.flag_seen p).not.mp (by rw [h2]; exact Bool.false_ne_true)
                cases j with
                | lit => cases hs
                | item m' => exact this ⟨m', hj, (saysFlag_iff.mp hs).1⟩
              · exact h
          · simp only [if_neg hp]
            rw [h.flag_val h1 p t, saysFlag_iff, hk]
            have : ¬ OptKey.flag o = .flag p := fun e => hp (by cases e; rfl)
            simp [this]
        · intro h0
          exact convertTexts_skip (h.convert (he.mp h0).1) hconv
        · rw [he, h.errs, all_snoc, pairwise_snoc, isOption_iff, hk, apart_iff (x := x) hk nofun, ← h.flag_seen o,
            Bool.not_eq_true]
          tauto
      | convert =>
        simp only
        have htext : ∀ p t, ¬ SaysText x p (.item m) t := by
          intro p b
          rw [saysText_iff, hk]
          rintro ⟨h, -⟩
          cases h
        have hflag : ∀ p b, ¬ SaysFlag p (.item m) b := by
          intro p b
          rw [saysFlag_iff, hk]
          rintro ⟨h, -⟩
          cases h
        have hap : ∀ j ∈ items, OptsApart j (.item m) := by
          intro j _
          cases j with
          | lit => trivial
          | item m' => exact fun e => e.trans (name_of_key hk)
        cases hr : readText x .bounds m with
        | none =>
          refine ⟨fun o => ?_, fun o => ?_, nofun, nofun, nofun, ⟨nofun, fun ⟨h1, _⟩ => ?_⟩⟩
          · rw [key_snoc hk]; simpa using h.text_seen o
          · rw [key_snoc hk]; simpa using h.flag_seen o
          · have := (all_snoc.mp h1).2
            rw [isOption_iff, hk, hr] at this
            cases this
        | some t =>
          refine ⟨fun o => ?_, fun o => ?_, fun h0 p t => ?_, fun h0 p b => ?_, fun h0 => ?_, ?_⟩
          · rw [key_snoc hk]; simpa using h.text_seen o
          · rw [key_snoc hk]; simpa using h.flag_seen o
          · rw [exists_snoc]; simpa [htext] using h.text_val h0 p t
          · rw [exists_snoc]; simpa [hflag] using h.flag_val h0 p b
          · exact convertTexts_take (h.convert h0) (saysConvert_iff.mpr ⟨hk, hr⟩)
          · simp only
            rw [h.errs, all_snoc, pairwise_snoc, isOption_iff, hk, hr]
            simp only [Option.isSome_some]
            tauto

theorem optInv (x : OptSyntax) (items : List NestedM) : OptInv x items (items.foldl (OptState.step x) {}) := by
  induction items using List.reverseRecOn with
  | nil =>
    exact ⟨fun o => ⟨nofun, fun ⟨_, h, _⟩ => (by cases h)⟩, fun o => ⟨nofun, fun ⟨_, h, _⟩ => (by cases h)⟩,
      fun _ o t => ⟨nofun, fun ⟨_, h, _⟩ => (by cases h)⟩, fun _ o t => ⟨nofun, fun ⟨_, h, _⟩ => (by cases h)⟩,
      fun _ => .nil, ⟨fun _ => ⟨fun _ h => (by cases h), .nil⟩, fun _ => rfl⟩⟩
  | append_singleton l i ih =>
    rw [List.foldl_append]
    exact optInv_step ih i

/-! ## Claims -/

/-- **C79.** A list of options is accepted if and only if each item is an option with a value of the right kind, and none but
`convert` is there twice. -/
theorem C79_accepted (x : OptSyntax) (items : List NestedM) :
    (∃ r, optsFromList x items = some r) ↔ (∀ i ∈ items, IsOption x i) ∧ items.Pairwise OptsApart := by
  rw [← (optInv x items).errs]
  unfold optsFromList
  simp only
  split <;> rename_i h
  · simp [h]
  · simp [h]

/-- **C79.** The options mean what they say: each text is the one given, flags are set just if asked for, and the conversions
are those given, in order. -/
theorem C79_meaning (x : OptSyntax) (items : List NestedM) (r : RawOpts) (h : optsFromList x items = some r) :
    (∀ o s, r.text o = some s ↔ ∃ i ∈ items, SaysText x o i s) ∧
      (∀ o, r.flag o = true ↔ ∃ i ∈ items, SaysFlag o i true) ∧ ConvertTexts items r.convert := by
  have hi := optInv x items
  unfold optsFromList at h
  simp only at h
  split at h
  · rename_i h0
    cases h
    refine ⟨hi.text_val h0, fun o => ?_, hi.convert h0⟩
    rw [← hi.flag_val h0 o true]
    simp only
    generalize ((items.foldl (OptState.step x) {}).flags o).val = w
    cases w with
    | none => simp
    | some b => cases b <;> simp
  · cases h

theorem convertTexts_unique {items : List NestedM} {ss ss' : List Str} (h : ConvertTexts items ss)
    (h' : ConvertTexts items ss') : ss = ss' := by
  induction h generalizing ss' with
  | nil => cases h'; rfl
  | take h1 _ ih =>
    cases h' with
    | take h2 h3 =>
      rw [ih h3]
      cases h1 with
      | value h1 =>
        cases h2 with
        | value h2 =>
          have := (toText_iff.mpr h1).symm.trans (toText_iff.mpr h2)
          cases this
          rfl
    | skip h2 _ => exact absurd h1 (h2 _)
  | skip h1 _ ih =>
    cases h' with
    | take h2 _ => exact absurd h2 (h1 _)
    | skip _ h3 => exact ih h3

theorem optsApart_symm {i j : NestedM} (h : OptsApart i j) : OptsApart j i := by
  cases i with
  | lit => cases j <;> trivial
  | item m =>
    cases j with
    | lit => trivial
    | item m' => exact fun e => e.trans (h e.symm)

/-- **C79.** The order of the options does not matter, except for that of the conversions. -/
theorem C79_order (x : OptSyntax) (items items' : List NestedM) (hp : items.Perm items') (ss : List Str)
    (h : ConvertTexts items ss) (h' : ConvertTexts items' ss) : optsFromList x items = optsFromList x items' := by
  have ha : (∃ r, optsFromList x items = some r) ↔ ∃ r, optsFromList x items' = some r := by
    rw [C79_accepted, C79_accepted, hp.pairwise_iff optsApart_symm]
    exact and_congr ⟨fun h i hi => h i (hp.mem_iff.mpr hi), fun h i hi => h i (hp.mem_iff.mp hi)⟩ Iff.rfl
  cases e : optsFromList x items with
  | none =>
    cases e' : optsFromList x items' with
    | none => rfl
    | some r =>
      obtain ⟨r', hr⟩ := ha.mpr ⟨r, e'⟩
      rw [e] at hr
      cases hr
  | some r =>
    obtain ⟨r', e'⟩ := ha.mp ⟨r, e⟩
    rw [e']
    obtain ⟨h1, h2, h3⟩ := C79_meaning x _ _ e
    obtain ⟨h1', h2', h3'⟩ := C79_meaning x _ _ e'
    have hm : ∀ P : NestedM → Prop, (∃ i ∈ items, P i) ↔ ∃ i ∈ items', P i := fun P =>
      ⟨fun ⟨i, hi, h⟩ => ⟨i, hp.mem_iff.mp hi, h⟩, fun ⟨i, hi, h⟩ => ⟨i, hp.mem_iff.mpr hi, h⟩⟩
    obtain ⟨t, f, c⟩ := r
    obtain ⟨t', f', c'⟩ := r'
    have et : t = t' := by
      funext o
      apply Option.ext
      intro s
      rw [h1 o s, h1' o s]
      exact hm _
    have ef : f = f' := by
      funext o
      rw [Bool.eq_iff_iff, h2 o, h2' o]
      exact hm _
    have ec : c = ss := convertTexts_unique h3 h
    have ec' : c' = ss := convertTexts_unique h3' h'
    rw [et, ef, ec, ec']

/-- The item for an option, if it is to be given. -/
def RawOpts.item (r : RawOpts) : OptKey → Option NestedM
  | .text o => (r.text o).map fun s => .item (.value (textName o) (.str s))
  | .flag o => if r.flag o then some (.item (.word (flagName o))) else none
  | .convert => none

def allKeys : List OptKey := [.text .bounds, .text .executeWith, .text .genericArgs, .text .implGenericArgs, .text .rename,
  .flag .enableInProduction, .flag .noAutoGenerate, .flag .onlyGenericArgs]

theorem item_name {r : RawOpts} {k : OptKey} {i : NestedM} (h : r.item k = some i) :
    ∃ m, i = .item m ∧ m.name = keyName k := by
  cases k with
  | text o =>
    rw [RawOpts.item, Option.map_eq_some_iff] at h
    obtain ⟨s, -, rfl⟩ := h
    exact ⟨_, rfl, rfl⟩
  | flag o =>
    rw [RawOpts.item] at h
    split at h
    · cases h
      exact ⟨_, rfl, rfl⟩
    · cases h
  | convert => cases h

theorem optKey_keyName (k : OptKey) : optKey (keyName k) = some k := by
  cases k with
  | text o => exact optKey_text o
  | flag o => exact optKey_flag o
  | convert => rfl

def RawOpts.items (r : RawOpts) : List NestedM :=
  allKeys.filterMap r.item ++ r.convert.map fun s => .item (.value c%"convert" (.str s))

theorem mem_items {r : RawOpts} {i : NestedM} :
    i ∈ r.items ↔ (∃ k, r.item k = some i) ∨ ∃ s ∈ r.convert, i = .item (.value c%"convert" (.str s)) := by
  unfold RawOpts.items
  rw [List.mem_append, List.mem_filterMap, List.mem_map]
  refine or_congr ⟨fun ⟨k, _, h⟩ => ⟨k, h⟩, fun ⟨k, h⟩ => ⟨k, ?_, h⟩⟩ ⟨fun ⟨s, h, e⟩ => ⟨s, h, e.symm⟩, fun ⟨s, h, e⟩ => ⟨s, h, e.symm⟩⟩
  cases k with
  | text o => cases o <;> decide
  | flag o => cases o <;> decide
  | convert => cases h

theorem convertTexts_filterMap (r : RawOpts) (l : List OptKey) (l' : List NestedM) (ss : List Str) (h : ConvertTexts l' ss) :
    ConvertTexts (l.filterMap r.item ++ l') ss := by
  induction l with
  | nil => exact h
  | cons k l ih =>
    cases hk : r.item k with
    | none => rw [List.filterMap_cons_none hk]; exact ih
    | some i =>
      rw [List.filterMap_cons_some hk]
      refine .skip ?_ ih
      intro s hs
      cases k with
      | text o =>
        rw [RawOpts.item, Option.map_eq_some_iff] at hk
        obtain ⟨t, -, rfl⟩ := hk
        cases o <;> cases hs
      | flag o =>
        rw [RawOpts.item] at hk
        split at hk
        · cases hk
          cases hs
        · cases hk
      | convert => cases hk

theorem convertTexts_map (ss : List Str) :
    ConvertTexts (ss.map fun s => .item (.value c%"convert" (.str s))) ss := by
  induction ss with
  | nil => exact .nil
  | cons s ss ih => exact .take (.value (.str s)) ih

/-- **C79.** All combinations of options can be asked for. -/
theorem C79_every (x : OptSyntax) (r : RawOpts) (hr : ∀ s, r.text .rename = some s → x.ident s = true) :
    ∃ items, optsFromList x items = some r := by
  refine ⟨r.items, ?_⟩
  have htext : ∀ o s, r.text o = some s → SaysText x o (.item (.value (textName o) (.str s))) s := by
    intro o s h
    cases o with
    | rename => exact .rename (.str (hr s h))
    | _ => exact .text (by decide) (.str s)
  obtain ⟨r', h⟩ := (C79_accepted x r.items).mpr (by
    constructor
    · intro i hi
      rcases mem_items.mp hi with ⟨k, hk⟩ | ⟨s, _, rfl⟩
      · cases k with
        | text o =>
          rw [RawOpts.item, Option.map_eq_some_iff] at hk
          obtain ⟨s, hs, rfl⟩ := hk
          exact .inl ⟨o, s, htext o s hs⟩
        | flag o =>
          rw [RawOpts.item] at hk
          split at hk
          · cases hk
            exact .inr (.inl ⟨o, true, .word o⟩)
          · cases hk
        | convert => cases hk
      · exact .inr (.inr ⟨s, .value (.str s)⟩)
    · unfold RawOpts.items
      rw [List.pairwise_append]
      refine ⟨?_, ?_, ?_⟩
      · have hn : allKeys.Pairwise (· ≠ ·) := by decide
        refine hn.filterMap r.item fun k k' hkk i hi j hj => ?_
        obtain ⟨m, rfl, e⟩ := item_name hi
        obtain ⟨m', rfl, e'⟩ := item_name hj
        intro e2
        rw [e, e'] at e2
        have := (optKey_keyName k).symm.trans ((congrArg optKey e2).trans (optKey_keyName k'))
        exact absurd (Option.some.inj this) hkk
      · rw [List.pairwise_map]
        exact List.Pairwise.imp (R := fun _ _ => True) (fun _ _ => rfl) (List.pairwise_of_forall fun _ _ => trivial)
      · intro i hi j hj
        obtain ⟨s, _, rfl⟩ := List.mem_map.mp hj
        obtain ⟨k, _, hk⟩ := List.mem_filterMap.mp hi
        obtain ⟨m, rfl, e⟩ := item_name hk
        exact fun e2 => e2)
  rw [h]
  obtain ⟨h1, h2, h3⟩ := C79_meaning x _ _ h
  obtain ⟨t, f, c⟩ := r
  obtain ⟨t', f', c'⟩ := r'
  have et : t' = t := by
    funext o
    apply Option.ext
    intro s
    rw [h1 o s]
    constructor
    · rintro ⟨i, hi, hs⟩
      rcases mem_items.mp hi with ⟨k, hk⟩ | ⟨s', _, rfl⟩
      · obtain ⟨m, rfl, e⟩ := item_name hk
        obtain ⟨h4, h5⟩ := saysText_iff.mp hs
        rw [e, optKey_keyName] at h4
        cases h4
        rw [RawOpts.item, Option.map_eq_some_iff] at hk
        obtain ⟨s'', hs'', e'⟩ := hk
        cases e'
        obtain ⟨-, h6⟩ := saysText_iff.mp (htext o s'' hs'')
        rw [h5] at h6
        cases h6
        exact hs''
      · obtain ⟨h4, _⟩ := saysText_iff.mp hs
        cases h4
    · intro hs
      exact ⟨_, mem_items.mpr (.inl ⟨.text o, by
        have hs : RawOpts.text ⟨t, f, c⟩ o = some s := hs
        rw [RawOpts.item, hs]
        rfl⟩), htext o s hs⟩
  have ef : f' = f := by
    funext o
    rw [Bool.eq_iff_iff, h2 o]
    constructor
    · rintro ⟨i, hi, hs⟩
      rcases mem_items.mp hi with ⟨k, hk⟩ | ⟨s', _, rfl⟩
      · obtain ⟨m, rfl, e⟩ := item_name hk
        obtain ⟨h4, h5⟩ := saysFlag_iff.mp hs
        rw [e, optKey_keyName] at h4
        cases h4
        rw [RawOpts.item] at hk
        split at hk
        · assumption
        · cases hk
      · obtain ⟨h4, _⟩ := saysFlag_iff.mp hs
        cases h4
    · intro hs
      exact ⟨_, mem_items.mpr (.inl ⟨.flag o, by rw [RawOpts.item]; exact if_pos hs⟩), .word o⟩
  have ec : c' = c := convertTexts_unique h3 (convertTexts_filterMap _ _ _ _ (convertTexts_map c))
  rw [et, ef, ec]

theorem readConverts_iff {x : OptSyntax} {l : List Str} {cv : List (Ty × Ty)} :
    readConverts x l = .ok cv ↔ List.Forall₂ (fun s p => x.types s = some [p.1, p.2]) l cv := by
  induction l generalizing cv with
  | nil =>
    constructor
    · intro h; cases h; exact .nil
    · intro h; cases h; rfl
  | cons s l ih =>
    unfold readConverts
    constructor
    · intro h
      split at h
      · rename_i k v hs
        cases hr : readConverts x l with
        | ok r =>
          rw [hr, Out.ok_bind] at h
          cases h
          exact .cons hs (ih.mp hr)
        | _ => rw [hr] at h; cases h
      · cases h
    · intro h
      cases h with
      | @cons _ p _ r h1 h2 =>
        simp only [h1]
        rw [ih.mpr h2, Out.ok_bind]

theorem readConverts_panics (x : OptSyntax) (l : List Str) : (∃ cv, readConverts x l = .ok cv) ∨ readConverts x l = .panic := by
  induction l with
  | nil => exact .inl ⟨[], rfl⟩
  | cons s l ih =>
    unfold readConverts
    split
    · rcases ih with ⟨r, hr⟩ | hr
      · rw [hr]; exact .inl ⟨_, rfl⟩
      · rw [hr]; exact .inr rfl
    · exact .inr rfl

theorem readGenericArgs_iff {x : OptSyntax} {t : Option Str} {a : Option (List GArg)} :
    readGenericArgs x t = .ok a ↔ t.map x.args = a.map some := by
  cases t with
  | none =>
    rw [readGenericArgs]
    cases a <;> simp
  | some s =>
    rw [readGenericArgs]
    cases h : x.args s <;> cases a <;> simp [h]

theorem readGenericArgs_panics (x : OptSyntax) (t : Option Str) :
    (∃ a, readGenericArgs x t = .ok a) ∨ readGenericArgs x t = .panic := by
  cases t with
  | none => exact .inl ⟨_, rfl⟩
  | some s =>
    rw [readGenericArgs]
    cases x.args s with
    | none => exact .inr rfl
    | some l => exact .inl ⟨_, rfl⟩

/-- **C79.** The texts are understood if and only if each conversion is of two types, the generic arguments are generic
arguments, the bounds are predicates and `execute_with` is an expression; they mean just that. -/
theorem C79_texts (x : OptSyntax) (r : RawOpts) (o : AttrOpts) :
    r.resolve x = .ok o ↔
      List.Forall₂ (fun s p => x.types s = some [p.1, p.2]) r.convert o.convert ∧
      (r.text .implGenericArgs).map x.args = o.implGenericArgs.map some ∧
      (r.text .genericArgs).map x.args = o.genericArgs.map some ∧
      (∀ s, r.text .bounds = some s → x.predicates s = true) ∧ (∀ s, r.text .executeWith = some s → x.expr s = true) ∧
      o.enableInProduction = r.flag .enableInProduction ∧ o.noAutoGenerate = r.flag .noAutoGenerate ∧
      o.onlyGenericArgs = r.flag .onlyGenericArgs ∧ o.rename = r.text .rename := by
  rw [← readConverts_iff, ← readGenericArgs_iff, ← readGenericArgs_iff]
  unfold RawOpts.resolve
  cases readConverts x r.convert with
  | ok cv =>
    rw [Out.ok_bind]
    cases readGenericArgs x (r.text .implGenericArgs) with
    | ok ia =>
      rw [Out.ok_bind]
      cases readGenericArgs x (r.text .genericArgs) with
      | ok ga =>
        rw [Out.ok_bind]
        obtain ⟨a1, a2, a3, a4, a5, a6, a7⟩ := o
        have hb : (∀ s, r.text .bounds = some s → x.predicates s = true) ↔ (r.text .bounds).all x.predicates = true := by
          cases r.text .bounds <;> simp
        have he : (∀ s, r.text .executeWith = some s → x.expr s = true) ↔ (r.text .executeWith).all x.expr = true := by
          cases r.text .executeWith <;> simp
        rw [hb, he]
        cases (r.text .bounds).all x.predicates <;> cases (r.text .executeWith).all x.expr <;>
          simp [assert, eq_comm]
        tauto
      | _ => simp [Bind.bind, Out.bind]
    | _ => simp [Bind.bind, Out.bind]
  | _ => simp [Bind.bind, Out.bind]

/-- **C79.** If not, the macro panics. -/
theorem C79_or_panics (x : OptSyntax) (t : AttrToks) : (∃ o, attrOptsOf x t = .ok o) ∨ attrOptsOf x t = .panic := by
  have h : ∀ r : RawOpts, (∃ o, r.resolve x = .ok o) ∨ r.resolve x = .panic := by
    intro r
    unfold RawOpts.resolve
    rcases readConverts_panics x r.convert with ⟨cv, h⟩ | h <;> rw [h]
    · rw [Out.ok_bind]
      rcases readGenericArgs_panics x (r.text .implGenericArgs) with ⟨ia, h⟩ | h <;> rw [h]
      · rw [Out.ok_bind]
        rcases readGenericArgs_panics x (r.text .genericArgs) with ⟨ga, h⟩ | h <;> rw [h]
        · rw [Out.ok_bind]
          unfold assert
          split
          · split
            · exact .inl ⟨_, rfl⟩
            · exact .inr rfl
          · exact .inr rfl
        · exact .inr rfl
      · exact .inr rfl
    · exact .inr rfl
  cases t with
  | nothing => exact h _
  | value => exact h _
  | list items =>
    cases items with
    | none => exact .inr rfl
    | some items =>
      rw [attrOptsOf]
      cases optsFromList x items with
      | none => exact .inr rfl
      | some r => exact h r

/-- **C79.** An attribute without parentheses has no options: neither `#[test_fuzz]` nor, in an impl, `#[test_fuzz = ..]`. -/
theorem C79_without_parentheses (x : OptSyntax) :
    attrOptsOf x .nothing = .ok {} ∧ attrOptsOf x .value = .ok {} ∧ attrOptsOf x (.list (some [])) = .ok {} :=
  ⟨rfl, rfl, rfl⟩

/-- **C79.** `test_fuzz_impl` takes no options. -/
theorem C79_impl (items : List NestedM) : implOptsFromList items = some () ↔ items = [] := by
  unfold implOptsFromList
  have h : ∀ (l : List NestedM) n, l.foldl (fun n _ => n + 1) n = n + l.length := by
    intro l
    induction l with
    | nil => intro n; rfl
    | cons i l ih => intro n; rw [List.foldl_cons, ih, List.length_cons]; omega
  simp only [h, Nat.zero_add, List.length_eq_zero_iff]
  by_cases hi : items = [] <;> simp [hi]

/-- An attribute as the macros see it. -/
def attrArgsOf (x : OptSyntax) : AttrToks → AttrArgs
  | .list none => .bad
  | .list (some items) =>
    match optsFromList x items with
    | none => .bad
    | some r => match r.resolve x with | .ok o => .opts o | _ => .bad
  | _ => .absent

/-- **C79.** What the macros are given in the other claims is what the attribute says. -/
theorem C79_as_parsed (x : OptSyntax) (path : List Str) (text : Str) (t : AttrToks) :
    AttrM.testFuzzOpts ⟨path, text, attrArgsOf x t⟩ = attrOptsOf x t := by
  cases t with
  | nothing => rfl
  | value => rfl
  | list items =>
    cases items with
    | none => rfl
    | some items =>
      have hp := C79_or_panics x (.list (some items))
      unfold attrArgsOf AttrM.testFuzzOpts attrOptsOf at *
      simp only at hp ⊢
      cases h : optsFromList x items with
      | none => rfl
      | some r =>
        rw [h] at hp
        simp only at hp ⊢
        rcases hp with ⟨o, ho⟩ | ho <;> rw [ho]

/-! ## Cases -/

namespace AttrOptionsDemo

def idents (s : Str) : Bool := !s.isEmpty && s.all fun c => c.isAlpha || c = '_'

def u8u16 : List Ty := [.name c%"u8", .name c%"u16"]

/-- A syntax that knows a few texts. -/
def syn : OptSyntax where
  ident := idents
  bareIdents := false
  types s := if s = c%"u8, u16" then some u8u16 else if s = c%"u8" then some [.name c%"u8"] else none
  args s := if s = c%"u8" then some [.ty (.name c%"u8")] else none
  predicates s := s = c%"T: Clone"
  expr s := s = c%"with"

/-- `convert = "u8, u16", only_generic_args, convert = "u8, u16", rename = "name", no_auto_generate = "false"` -/
def items : List NestedM := [.item (.value c%"convert" (.str c%"u8, u16")), .item (.word c%"only_generic_args"),
  .item (.value c%"convert" (.str c%"u8, u16")), .item (.value c%"rename" (.group (.str c%"name"))),
  .item (.value c%"no_auto_generate" (.str c%"false"))]

example : attrOptsOf syn (.list (some items)) = .ok {
    convert := [(.name c%"u8", .name c%"u16"), (.name c%"u8", .name c%"u16")]
    onlyGenericArgs := true
    rename := some c%"name" } := by rfl

example : (∀ i ∈ items, IsOption syn i) ∧ items.Pairwise OptsApart := (C79_accepted syn items).mp ⟨_, rfl⟩

/-- The same option twice, a name that is not known, a flag with a list, a literal, a conversion of one type. -/
example : optsFromList syn [.item (.word c%"only_generic_args"), .item (.value c%"only_generic_args" (.bool false))] = none ∧
    optsFromList syn [.item (.word c%"only_generic")] = none ∧ optsFromList syn [.item (.list c%"no_auto_generate")] = none ∧
    optsFromList syn [.lit] = none ∧
    attrOptsOf syn (.list (some [.item (.value c%"convert" (.str c%"u8"))])) = .panic := by
  exact ⟨rfl, rfl, rfl, rfl, rfl⟩

end AttrOptionsDemo

end TF
