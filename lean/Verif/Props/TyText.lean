import Verif.Spec.TyText
import Mathlib.Tactic.Common

/-!
# The tokens of a type tell which type it is
-/

namespace TF

open Spec

/-! ## Token trees -/

/-- Texts of token trees. -/
inductive WTok : Str → Prop
  | leaf {s : Str} : s ≠ [] → (∀ c ∈ s, c ∉ c%" ()[]") → WTok s
  | group {o c : Char} {ts : List Str} : (o, c) ∈ [('(', ')'), ('[', ']')] → (∀ s ∈ ts, WTok s) → WTok (groupText [o] [c] ts)

/-- What follows a token in a group: a space or the end of the group. -/
def Gap (x : Str) : Prop := ∃ c r, x = c :: r ∧ c ∈ c%" )]"

theorem leaf_prefix {s t x y : Str} (hs : ∀ c ∈ s, c ∉ c%" ()[]") (ht : ∀ c ∈ t, c ∉ c%" ()[]") (hx : Gap x) (hy : Gap y)
    (h : s ++ x = t ++ y) : s = t ∧ x = y := by
  induction s generalizing t with
  | nil =>
    cases t with
    | nil => exact ⟨rfl, h⟩
    | cons d t =>
      obtain ⟨c, r, rfl, hc⟩ := hx
      simp only [List.nil_append, List.cons_append, List.cons.injEq] at h
      obtain ⟨rfl, -⟩ := h
      have := ht c (by simp)
      simp only [List.mem_cons, List.not_mem_nil, or_false, not_or] at this hc
      rcases hc with rfl | rfl | rfl <;> simp at this
  | cons c s ih =>
    cases t with
    | nil =>
      obtain ⟨d, r, rfl, hd⟩ := hy
      simp only [List.nil_append, List.cons_append, List.cons.injEq] at h
      obtain ⟨rfl, -⟩ := h
      have := hs c (by simp)
      simp only [List.mem_cons, List.not_mem_nil, or_false, not_or] at this hd
      rcases hd with rfl | rfl | rfl <;> simp at this
    | cons d t =>
      simp only [List.cons_append, List.cons.injEq] at h
      obtain ⟨rfl, h⟩ := h
      obtain ⟨rfl, g⟩ := ih (fun c hc => hs c (by simp [hc])) (fun c hc => ht c (by simp [hc])) h
      exact ⟨rfl, g⟩

theorem gap_texts (ts : List Str) (c : Char) (x : Str) (hc : c ∈ c%")]") : Gap (ts.flatMap (' ' :: ·) ++ [c] ++ x) := by
  cases ts with
  | nil =>
    refine ⟨c, x, rfl, ?_⟩
    simp only [List.mem_cons, List.not_mem_nil, or_false] at hc ⊢
    exact .inr hc
  | cons t ts => exact ⟨' ', t ++ ts.flatMap (' ' :: ·) ++ [c] ++ x, by simp, by simp⟩

theorem groups_prefix {ts us : List Str} {c d : Char} {x y : Str} (hc : c ∈ c%")]") (hd : d ∈ c%")]")
    (ih : ∀ s ∈ ts, ∀ (t x y : Str), WTok t → Gap x → Gap y → s ++ x = t ++ y → s = t ∧ x = y) (hu : ∀ s ∈ us, WTok s)
    (h : ts.flatMap (' ' :: ·) ++ [c] ++ x = us.flatMap (' ' :: ·) ++ [d] ++ y) : ts = us ∧ c = d ∧ x = y := by
  induction ts generalizing us with
  | nil =>
    cases us with
    | nil =>
      simp only [List.flatMap_nil, List.nil_append, List.cons_append, List.cons.injEq] at h
      exact ⟨rfl, h⟩
    | cons u us =>
      simp only [List.flatMap_nil, List.nil_append, List.flatMap_cons, List.cons_append, List.cons.injEq] at h
      rw [h.1] at hc
      simp at hc
  | cons t ts ih' =>
    cases us with
    | nil =>
      simp only [List.flatMap_nil, List.nil_append, List.flatMap_cons, List.cons_append, List.cons.injEq] at h
      rw [← h.1] at hd
      simp at hd
    | cons u us =>
      simp only [List.flatMap_cons, List.cons_append, List.append_assoc, List.cons.injEq, true_and] at h
      have g := ih t (by simp) u _ _ (hu u (by simp)) (gap_texts ts c x hc) (gap_texts us d y hd) (by simpa using h)
      obtain ⟨rfl, g⟩ := g
      obtain ⟨rfl, g'⟩ := ih' (fun s hs => ih s (by simp [hs])) (fun s hs => hu s (by simp [hs])) g
      exact ⟨rfl, g'⟩

theorem groupText_cons (o c : Char) (ts : List Str) : groupText [o] [c] ts = o :: (ts.flatMap (' ' :: ·) ++ [c]) := rfl

theorem bracket_mem {o c : Char} (h : (o, c) ∈ [('(', ')'), ('[', ']')]) : o ∈ c%"([" ∧ c ∈ c%")]" := by
  simp only [List.mem_cons, Prod.mk.injEq, List.not_mem_nil, or_false] at h
  rcases h with ⟨rfl, rfl⟩ | ⟨rfl, rfl⟩ <;> simp

theorem tok_prefix {s : Str} (hs : WTok s) : ∀ (t x y : Str), WTok t → Gap x → Gap y → s ++ x = t ++ y → s = t ∧ x = y := by
  have clash : ∀ {s : Str} {o c : Char} {ts : List Str} {x y : Str}, s ≠ [] → (∀ c ∈ s, c ∉ c%" ()[]") →
      (o, c) ∈ [('(', ')'), ('[', ']')] → s ++ x ≠ groupText [o] [c] ts ++ y := by
    intro s o c ts x y hne hs hoc h
    cases s with
    | nil => exact hne rfl
    | cons d s =>
      rw [groupText_cons] at h
      simp only [List.cons_append, List.cons.injEq] at h
      obtain ⟨rfl, -⟩ := h
      have := hs d (by simp)
      have h2 := (bracket_mem hoc).1
      simp only [List.mem_cons, List.not_mem_nil, or_false, not_or] at this h2
      rcases h2 with rfl | rfl <;> simp at this
  induction hs with
  | leaf hne hs =>
    intro t x y ht hx hy h
    cases ht with
    | leaf _ ht => exact leaf_prefix hs ht hx hy h
    | group hoc _ => exact absurd h (clash hne hs hoc)
  | group hoc hts ih =>
    intro t x y ht hx hy h
    cases ht with
    | leaf hne ht => exact absurd h.symm (clash hne ht hoc)
    | group hoc' hus =>
      rw [groupText_cons, groupText_cons] at h
      simp only [List.cons_append, List.cons.injEq] at h
      obtain ⟨rfl, h⟩ := h
      obtain ⟨rfl, rfl, rfl⟩ := groups_prefix (bracket_mem hoc).2 (bracket_mem hoc').2 ih hus h
      exact ⟨rfl, rfl⟩

/-- Groups with the same text have the same tokens. -/
theorem groupText_inj {o c o' c' : Char} {ts us : List Str} (ho : (o, c) ∈ [('(', ')'), ('[', ']')])
    (ho' : (o', c') ∈ [('(', ')'), ('[', ']')]) (ht : ∀ s ∈ ts, WTok s) (hu : ∀ s ∈ us, WTok s)
    (h : groupText [o] [c] ts = groupText [o'] [c'] us) : o = o' ∧ ts = us := by
  rw [groupText_cons, groupText_cons, List.cons.injEq] at h
  obtain ⟨rfl, h⟩ := h
  exact ⟨rfl, (groups_prefix (x := []) (y := []) (bracket_mem ho).2 (bracket_mem ho').2 (fun s hs => tok_prefix (ht s hs)) hu
    (by simpa using h)).1⟩

/-! ## The tokens of types are token trees -/

theorem Spec.IsWord.tok {s : Str} (h : IsWord s) : WTok s := by
  refine .leaf h.1 fun c hc hm => h.2 c hc ?_
  simp only [List.mem_cons, List.not_mem_nil, or_false] at hm
  rcases hm with rfl | rfl | rfl | rfl | rfl <;> decide

theorem punct_tok {s : Str} (h : s ∈ [c%":", c%"<", c%">", c%"&", c%"'", c%"mut", c%"as", c%",", c%";", c%"*", c%"const",
    c%"!", c%"_", c%"dyn", c%"impl", c%"+"]) : WTok s := by
  simp only [List.mem_cons, List.not_mem_nil, or_false] at h
  rcases h with rfl | rfl | rfl | rfl | rfl | rfl | rfl | rfl | rfl | rfl | rfl | rfl | rfl | rfl | rfl | rfl <;>
    exact .leaf (by decide) (by decide)

theorem colon2_tok : ∀ s ∈ colon2, WTok s := by
  intro s hs
  refine punct_tok ?_
  simp only [colon2, List.mem_cons, List.not_mem_nil, or_false, or_self] at hs
  subst hs
  decide

theorem flat_tok {L : List (List Str)} (h : ∀ l ∈ L, ∀ s ∈ l, WTok s) : ∀ s ∈ L.flatMap (colon2 ++ ·), WTok s := by
  intro s hs
  rw [List.mem_flatMap] at hs
  obtain ⟨l, hl, hs⟩ := hs
  rcases List.mem_append.mp hs with hs | hs
  · exact colon2_tok s hs
  · exact h l hl s hs

theorem join_tok {L : List (List Str)} (h : ∀ l ∈ L, ∀ s ∈ l, WTok s) : ∀ s ∈ joinToks L, WTok s := by
  cases L with
  | nil => simp [joinToks]
  | cons l L =>
    intro s hs
    rcases List.mem_append.mp hs with hs | hs
    · exact h l (by simp) s hs
    · exact flat_tok (fun l hl => h l (by simp [hl])) s hs

theorem ifColon_tok (b : Bool) : ∀ s ∈ (if b then colon2 else []), WTok s := by
  cases b
  · simp
  · exact colon2_tok

theorem forall_append {α : Type} {P : α → Prop} {l m : List α} (h : ∀ a ∈ l, P a) (h' : ∀ a ∈ m, P a) : ∀ a ∈ l ++ m, P a :=
  fun a ha => (List.mem_append.mp ha).elim (h a) (h' a)

theorem one_tok {s : Str} (h : s ∈ [c%":", c%"<", c%">", c%"&", c%"'", c%"mut", c%"as", c%",", c%";", c%"*", c%"const",
    c%"!", c%"_", c%"dyn", c%"impl", c%"+"]) : ∀ t ∈ [s], WTok t := by
  intro t ht
  rw [List.mem_singleton] at ht
  exact ht ▸ punct_tok h

mutual

theorem ty_tok : ∀ {t : Ty}, WTy t → ∀ s ∈ t.toks, WTok s
  | _, .path h => by
    rw [Ty.toks, QSelf.toks, pathToks]
    exact forall_append (ifColon_tok _) (join_tok (segs_tok h))
  | _, .assoc ht h => by
    rw [Ty.toks, QSelf.toks, pathToks]
    exact forall_append (forall_append (forall_append (one_tok (by decide)) (ty_tok ht)) (one_tok (by decide)))
      (flat_tok (segs_tok h))
  | _, .qualified ht hn h => by
    rw [Ty.toks, QSelf.toks, pathToks]
    · exact forall_append (forall_append (forall_append (forall_append (forall_append (forall_append (one_tok (by decide))
        (ty_tok ht)) (one_tok (by decide))) (ifColon_tok _)) (join_tok fun l hl => segs_tok h l (List.mem_of_mem_take hl)))
        (one_tok (by decide))) (flat_tok fun l hl => segs_tok h l (List.mem_of_mem_drop hl))
    · simp
  | _, .ref (lt := lt) (m := m) hl ht => by
    rw [Ty.toks]
    refine forall_append (forall_append (forall_append (one_tok (by decide)) ?_) ?_) (ty_tok ht)
    · cases lt with
      | none => simp [lifetimeToks]
      | some l =>
        intro s hs
        simp only [lifetimeToks, List.mem_cons, List.not_mem_nil, or_false] at hs
        rcases hs with rfl | rfl
        · exact punct_tok (by decide)
        · exact (hl _ rfl).1.tok
    · cases m
      · simp
      · exact one_tok (by decide)
  | _, .slice h => by
    rw [Ty.toks]
    intro s hs
    rw [List.mem_singleton] at hs
    exact hs ▸ .group (by decide) (ty_tok h)
  | _, .tuple h => by
    rw [Ty.toks, Pieces.toks, Pieces.toks]
    intro s hs
    rw [List.mem_singleton] at hs
    exact hs ▸ .group (by decide) (list_tok h)
  | _, .array (t := t) (n := n) h hn => by
    rw [Ty.toks, Pieces.toks, Pieces.toks]
    intro s hs
    rw [List.mem_singleton] at hs
    refine hs ▸ .group (by decide) ?_
    rw [Pieces.toks, Pieces.toks, Pieces.toks, Pieces.toks]
    refine forall_append (ty_tok h) ?_
    intro s hs
    simp only [List.mem_cons, List.not_mem_nil, or_false] at hs
    rcases hs with rfl | rfl
    · exact punct_tok (by decide)
    · exact hn.tok
  | _, .pointer (m := m) h hm => by
    rw [Ty.toks, Pieces.toks, Pieces.toks, Pieces.toks, Pieces.toks, List.append_nil]
    intro s hs
    rw [List.mem_cons, List.mem_cons] at hs
    rcases hs with rfl | rfl | hs
    · exact punct_tok (by decide)
    · refine punct_tok ?_
      simp only [List.mem_cons, List.not_mem_nil, or_false] at hm
      rcases hm with rfl | rfl <;> decide
    · exact ty_tok h s hs
  | _, .never => by
    rw [Ty.toks, Pieces.toks, Pieces.toks]
    exact one_tok (by decide)
  | _, .infer => by
    rw [Ty.toks, Pieces.toks, Pieces.toks]
    exact one_tok (by decide)
  | _, .bounds hk h => by
    rw [Ty.toks, Pieces.toks]
    intro s hs
    rw [List.mem_cons] at hs
    rcases hs with rfl | hs
    · refine punct_tok ?_
      simp only [List.mem_cons, List.not_mem_nil, or_false] at hk
      rcases hk with rfl | rfl <;> decide
    · exact bounds_tok h s hs

theorem segs_tok : ∀ {g : Segs}, WSegs g → ∀ l ∈ g.toks, ∀ s ∈ l, WTok s
  | _, .one hi ha => by
    rw [Segs.toks, Segs.toks]
    intro l hl s hs
    rw [List.mem_singleton] at hl
    subst hl
    rw [List.mem_cons] at hs
    rcases hs with rfl | hs
    · exact hi.1.tok
    · exact args_tok ha s hs
  | _, .more hi ha hr => by
    rw [Segs.toks]
    intro l hl s hs
    rw [List.mem_cons] at hl
    rcases hl with rfl | hl
    · rw [List.mem_cons] at hs
      rcases hs with rfl | hs
      · exact hi.1.tok
      · exact args_tok ha s hs
    · exact segs_tok hr l hl s hs

theorem args_tok : ∀ {a : Args}, WArgs a → ∀ s ∈ a.toks, WTok s
  | _, .none => by simp [Args.toks]
  | _, .angle h => by
    rw [Args.toks]
    exact forall_append (forall_append (forall_append (ifColon_tok _) (one_tok (by decide))) (list_tok h)) (one_tok (by decide))

theorem list_tok : ∀ {ps : Pieces}, WList ps → ∀ s ∈ ps.toks, WTok s
  | _, .nil => by simp [Pieces.toks]
  | _, .ty ht hr => by
    rw [Pieces.toks]
    exact forall_append (ty_tok ht) (rest_tok hr)
  | _, .lifetime hl hr => by
    rw [Pieces.toks, Pieces.toks]
    intro s hs
    rw [List.mem_cons, List.mem_cons] at hs
    rcases hs with rfl | rfl | hs
    · exact punct_tok (by decide)
    · exact hl.1.tok
    · exact rest_tok hr s hs
  | _, .literal hl hr => by
    rw [Pieces.toks]
    intro s hs
    rw [List.mem_cons] at hs
    rcases hs with rfl | hs
    · exact hl.1.tok
    · exact rest_tok hr s hs

theorem rest_tok : ∀ {ps : Pieces}, WRest ps → ∀ s ∈ ps.toks, WTok s
  | _, .nil => by simp [Pieces.toks]
  | _, .comma h => by
    rw [Pieces.toks]
    intro s hs
    rw [List.mem_cons] at hs
    rcases hs with rfl | hs
    · exact punct_tok (by decide)
    · exact list_tok h s hs

theorem bounds_tok : ∀ {ps : Pieces}, WBounds ps → ∀ s ∈ ps.toks, WTok s
  | _, .trait h hr => by
    rw [Pieces.toks, pathToks]
    exact forall_append (forall_append (ifColon_tok _) (join_tok (segs_tok h))) (more_tok hr)
  | _, .lifetime hl hr => by
    rw [Pieces.toks, Pieces.toks]
    intro s hs
    rw [List.mem_cons, List.mem_cons] at hs
    rcases hs with rfl | rfl | hs
    · exact punct_tok (by decide)
    · exact hl.1.tok
    · exact more_tok hr s hs

theorem more_tok : ∀ {ps : Pieces}, WMore ps → ∀ s ∈ ps.toks, WTok s
  | _, .nil => by simp [Pieces.toks]
  | _, .plus h => by
    rw [Pieces.toks]
    intro s hs
    rw [List.mem_cons] at hs
    rcases hs with rfl | hs
    · exact punct_tok (by decide)
    · exact bounds_tok h s hs

end

/-! ## What the first token tells -/

/-- The kinds of first tokens. -/
def kind : List Str → Nat
  | [] => 0
  | s :: _ =>
    if s = c%">" then 0 else if s = c%":" then 1 else if s = c%"<" then 2 else if s = c%"&" then 3
    else if s.head? = some '[' then 4 else if s.head? = some '(' then 5 else if s = c%"*" then 6 else if s = c%"!" then 7
    else if s = c%"_" then 8 else if s = c%"'" then 10 else if s = c%"dyn" ∨ s = c%"impl" then 12
    else if (s.head?.map Char.isDigit) = some true then 11 else 9

def Ty.kind : Ty → Nat
  | .path .none true _ => 1
  | .path .none false _ => 9
  | .path (.some _ _) _ _ => 2
  | .ref _ _ _ => 3
  | .slice _ => 4
  | .other (.group o _ _ _) => if o = c%"[" then 4 else 5
  | .other (.tok s _) => if s = c%"*" then 6 else if s = c%"!" then 7 else if s = c%"_" then 8 else 12
  | .other _ => 0

theorem Spec.IsWord.ne {s : Str} (h : IsWord s) {c : Char} (hc : c ∈ c%" ()[]{}<>&*!:;,'") : s.head? ≠ some c := by
  intro e
  cases s with
  | nil => cases e
  | cons d s =>
    simp only [List.head?_cons, Option.some.injEq] at e
    exact h.2 d (by simp) (e ▸ hc)

theorem Spec.IsWord.kind {s : Str} (h : IsWord s) (hu : s ≠ c%"_") (hd : ¬ (s = c%"dyn" ∨ s = c%"impl")) (r : List Str) :
    kind (s :: r) = if (s.head?.map Char.isDigit) = some true then 11 else 9 := by
  have n : ∀ c ∈ c%" ()[]{}<>&*!:;,'", s ≠ [c] := fun c hc e => h.ne hc (by rw [e]; rfl)
  rw [TF.kind, if_neg (n '>' (by decide)), if_neg (n ':' (by decide)), if_neg (n '<' (by decide)), if_neg (n '&' (by decide)),
    if_neg (h.ne (by decide)), if_neg (h.ne (by decide)), if_neg (n '*' (by decide)), if_neg (n '!' (by decide)), if_neg hu,
    if_neg (n '\'' (by decide)), if_neg hd]

theorem Spec.IsName.kind {s : Str} (h : IsName s) (r : List Str) : kind (s :: r) = 9 := by
  rw [h.1.kind (fun e => h.2.2 (by rw [e]; decide)) (fun e => h.2.2 (by rcases e with e | e <;> rw [e] <;> decide))]
  refine if_neg ?_
  cases s with
  | nil => simp
  | cons c s => simp [h.2.1 c rfl]

theorem Spec.IsLiteral.kind {s : Str} (h : IsLiteral s) (r : List Str) : kind (s :: r) = 11 := by
  obtain ⟨hw, c, hc, hd⟩ := h
  rw [hw.kind]
  · rw [hc]
    simp [hd]
  · rintro rfl
    cases hc
    exact absurd hd (by decide)
  · rintro (rfl | rfl) <;> cases hc <;> exact absurd hd (by decide)

theorem Spec.IsName.ne {s : Str} (h : IsName s) {c : Char} (hc : c ∈ c%" ()[]{}<>&*!:;,'") : s ≠ [c] :=
  fun e => h.1.ne hc (by rw [e]; rfl)

/-- The first segment of a path. -/
theorem Spec.WSegs.first {g : Segs} (h : WSegs g) : ∃ i l L, IsName i ∧ g.toks = (i :: l) :: L := by
  cases h with
  | one hi ha => exact ⟨_, _, _, hi, by rw [Segs.toks]⟩
  | more hi ha hr => exact ⟨_, _, _, hi, by rw [Segs.toks]⟩

theorem ty_kind {t : Ty} (h : WTy t) (r : List Str) : kind (t.toks ++ r) = t.kind := by
  cases h with
  | @path lead segs h =>
    obtain ⟨i, l, L, hi, e⟩ := h.first
    rw [Ty.toks, QSelf.toks, pathToks, e]
    cases lead
    · exact hi.kind _
    · rfl
  | assoc ht h => rw [Ty.toks, QSelf.toks, pathToks]; rfl
  | qualified ht hn h => rw [Ty.toks, QSelf.toks, pathToks] <;> first | rfl | simp
  | ref hl ht => rw [Ty.toks]; rfl
  | slice h => rw [Ty.toks]; rfl
  | tuple h => rw [Ty.toks, Pieces.toks]; rfl
  | array h hn => rw [Ty.toks, Pieces.toks]; rfl
  | pointer h hm => rw [Ty.toks, Pieces.toks]; rfl
  | never => rw [Ty.toks, Pieces.toks]; rfl
  | infer => rw [Ty.toks, Pieces.toks]; rfl
  | bounds hk h =>
    rw [Ty.toks, Pieces.toks]
    simp only [List.mem_cons, List.not_mem_nil, or_false] at hk
    rcases hk with rfl | rfl <;> rfl

/-! ## One reading -/

/-- What follows a path: not its continuation. -/
def TyEnds (r : List Str) : Prop := r.head? ≠ some c%":" ∧ r.head? ≠ some c%"<"

/-- What follows a type: not the continuation of a path or of a list of bounds. -/
def OpenEnds (r : List Str) : Prop := TyEnds r ∧ r.head? ≠ some c%"+"

/-- What follows a segment of a path: not its arguments. -/
def SegEnds (r : List Str) : Prop := r.head? ≠ some c%"<" ∧ ∀ q, r ≠ c%":" :: c%":" :: c%"<" :: q

/-- What follows a list. -/
def ListEnds (r : List Str) : Prop := r.head? = none ∨ r.head? = some c%">"

theorem TyEnds.seg {r : List Str} (h : TyEnds r) : SegEnds r := ⟨h.2, fun q e => h.1 (by rw [e]; rfl)⟩

theorem ListEnds.ends {r : List Str} (h : ListEnds r) : OpenEnds r := by
  rcases h with h | h <;> rw [OpenEnds, TyEnds, h] <;> decide

theorem ListEnds.kind {r : List Str} (h : ListEnds r) : kind r = 0 := by
  cases r with
  | nil => rfl
  | cons s r =>
    rcases h with h | h
    · cases h
    · simp only [List.head?_cons, Option.some.injEq] at h
      subst h
      rfl

def TyU (t : Ty) : Prop := ∀ u r r', WTy u → OpenEnds r → OpenEnds r' → t.toks ++ r = u.toks ++ r' → t = u ∧ r = r'

def ArgsU (a : Args) : Prop := ∀ b r r', WArgs b → SegEnds r → SegEnds r' → a.toks ++ r = b.toks ++ r' → a = b ∧ r = r'

def ListU (p : Pieces) : Prop := ∀ q r r', WList q → ListEnds r → ListEnds r' → p.toks ++ r = q.toks ++ r' → p = q ∧ r = r'

def RestU (p : Pieces) : Prop := ∀ q r r', WRest q → ListEnds r → ListEnds r' → p.toks ++ r = q.toks ++ r' → p = q ∧ r = r'

def BoundsU (p : Pieces) : Prop := ∀ q r r', WBounds q → OpenEnds r → OpenEnds r' → p.toks ++ r = q.toks ++ r' → p = q ∧ r = r'

def MoreU (p : Pieces) : Prop := ∀ q r r', WMore q → OpenEnds r → OpenEnds r' → p.toks ++ r = q.toks ++ r' → p = q ∧ r = r'

inductive SegsU : Segs → Prop
  | one {i : Str} {a : Args} : IsName i → ArgsU a → SegsU (.cons i a .nil)
  | more {i : Str} {a : Args} {r : Segs} : IsName i → ArgsU a → SegsU r → SegsU (.cons i a r)

theorem flat_segEnds {g : Segs} {r : List Str} (hg : WSegs g) : SegEnds (g.toks.flatMap (colon2 ++ ·) ++ r) := by
  obtain ⟨i, l, L, hi, e⟩ := hg.first
  rw [e]
  refine ⟨by simp [colon2], fun q h => hi.ne (c := '<') (by decide) ?_⟩
  exact Option.some.inj (congrArg (fun l => l[2]?) h)

theorem SegsU.segEnds {g : Segs} {r : List Str} (hg : SegsU g) : SegEnds (g.toks.flatMap (colon2 ++ ·) ++ r) := by
  have ⟨i, l, L, hi, e⟩ : ∃ i l L, IsName i ∧ g.toks = (i :: l) :: L := by
    cases hg with
    | one hi ha => exact ⟨_, _, _, hi, by rw [Segs.toks]⟩
    | more hi ha hr => exact ⟨_, _, _, hi, by rw [Segs.toks]⟩
  rw [e]
  refine ⟨by simp [colon2], fun q h => hi.ne (c := '<') (by decide) ?_⟩
  exact Option.some.inj (congrArg (fun l => l[2]?) h)

theorem flat_cons (l : List Str) (L : List (List Str)) (r : List Str) :
    (l :: L).flatMap (colon2 ++ ·) ++ r = c%":" :: c%":" :: (l ++ (L.flatMap (colon2 ++ ·) ++ r)) := by
  simp [colon2]

theorem segs_flat {g g' : Segs} {r r' : List Str} (hg : SegsU g) (hg' : WSegs g') (hr : TyEnds r) (hr' : TyEnds r')
    (h : g.toks.flatMap (colon2 ++ ·) ++ r = g'.toks.flatMap (colon2 ++ ·) ++ r') : g = g' ∧ r = r' := by
  induction hg generalizing g' with
  | one hi ha =>
    cases hg' with
    | one hi' ha' =>
      simp only [Segs.toks, flat_cons, List.cons_append, List.cons.injEq, true_and, List.flatMap_nil, List.nil_append] at h
      obtain ⟨rfl, h⟩ := h
      obtain ⟨rfl, h'⟩ := ha _ _ _ ha' hr.seg hr'.seg h
      exact ⟨rfl, h'⟩
    | more hi' ha' hg' =>
      simp only [Segs.toks, flat_cons, List.cons_append, List.cons.injEq, true_and, List.flatMap_nil, List.nil_append] at h
      obtain ⟨rfl, h⟩ := h
      obtain ⟨rfl, h'⟩ := ha _ _ _ ha' hr.seg (flat_segEnds hg') h
      obtain ⟨i, l, L, -, e⟩ := hg'.first
      exact absurd (by rw [h', e, flat_cons]; rfl) hr.1
  | more hi ha hs ih =>
    cases hg' with
    | one hi' ha' =>
      simp only [Segs.toks, flat_cons, List.cons_append, List.cons.injEq, true_and, List.flatMap_nil, List.nil_append] at h
      obtain ⟨rfl, h⟩ := h
      obtain ⟨rfl, h'⟩ := ha _ _ _ ha' hs.segEnds hr'.seg h
      refine absurd ?_ hr'.1
      rw [← h']
      cases hs <;> simp [Segs.toks, colon2]
    | more hi' ha' hg' =>
      simp only [Segs.toks, flat_cons, List.cons_append, List.cons.injEq, true_and] at h
      obtain ⟨rfl, h⟩ := h
      obtain ⟨rfl, h'⟩ := ha _ _ _ ha' hs.segEnds (flat_segEnds hg') h
      obtain ⟨rfl, h''⟩ := ih hg' h'
      exact ⟨rfl, h''⟩

theorem close_segEnds (x : List Str) : SegEnds (c%">" :: x) := ⟨by simp, by simp⟩

/-- With the bracket of a qualified path after some of the segments. -/
theorem segs_qual {g g' : Segs} {r r' : List Str} {n n' : Nat} (hg : SegsU g) (hg' : WSegs g') (hr : TyEnds r) (hr' : TyEnds r')
    (hn : n < g.length) (hn' : n' < g'.length)
    (h : (g.toks.take n).flatMap (colon2 ++ ·) ++ (c%">" :: ((g.toks.drop n).flatMap (colon2 ++ ·) ++ r)) =
      (g'.toks.take n').flatMap (colon2 ++ ·) ++ (c%">" :: ((g'.toks.drop n').flatMap (colon2 ++ ·) ++ r'))) :
    n = n' ∧ g = g' ∧ r = r' := by
  induction hg generalizing g' n n' with
  | @one i a hi ha =>
    have e : n = 0 := by
      simp only [Segs.length] at hn
      omega
    subst e
    cases n' with
    | zero =>
      simp only [List.take_zero, List.flatMap_nil, List.nil_append, List.drop_zero, List.cons.injEq, true_and] at h
      exact ⟨rfl, segs_flat (.one hi ha) hg' hr hr' h⟩
    | succ n' =>
      obtain ⟨i, l, L, -, e⟩ := hg'.first
      rw [e, List.take_succ_cons, flat_cons] at h
      simp at h
  | @more i a g hi ha hs ih =>
    cases n with
    | zero =>
      cases n' with
      | zero =>
        simp only [List.take_zero, List.flatMap_nil, List.nil_append, List.drop_zero, List.cons.injEq, true_and] at h
        exact ⟨rfl, segs_flat (.more hi ha hs) hg' hr hr' h⟩
      | succ n' =>
        obtain ⟨i, l, L, -, e⟩ := hg'.first
        rw [e, List.take_succ_cons, flat_cons] at h
        simp at h
    | succ n =>
      cases n' with
      | zero =>
        rw [Segs.toks, List.take_succ_cons, flat_cons] at h
        simp at h
      | succ n' =>
        have ends : ∀ {k : Segs} {m : Nat} {x : List Str}, WSegs k ∨ SegsU k →
            SegEnds ((k.toks.take m).flatMap (colon2 ++ ·) ++ (c%">" :: x)) := by
          intro k m x hk
          have ⟨i, l, L, hi, e⟩ : ∃ i l L, IsName i ∧ k.toks = (i :: l) :: L := by
            rcases hk with hk | hk
            · exact hk.first
            · cases hk with
              | one hi ha => exact ⟨_, _, _, hi, by rw [Segs.toks]⟩
              | more hi ha hr => exact ⟨_, _, _, hi, by rw [Segs.toks]⟩
          cases m with
          | zero => exact close_segEnds _
          | succ m =>
            rw [e, List.take_succ_cons, flat_cons]
            refine ⟨by simp, fun q h => hi.ne (c := '<') (by decide) ?_⟩
            exact Option.some.inj (congrArg (fun l => l[2]?) h)
        cases hg' with
        | one hi' ha' =>
          simp only [Segs.length] at hn'
          omega
        | more hi' ha' hg' =>
          simp only [Segs.toks, List.take_succ_cons, List.drop_succ_cons, flat_cons, List.cons_append, List.cons.injEq, true_and]
            at h
          obtain ⟨rfl, h⟩ := h
          obtain ⟨rfl, h'⟩ := ha _ _ _ ha' (ends (.inr hs)) (ends (.inl hg')) h
          simp only [Segs.length] at hn hn'
          obtain ⟨rfl, rfl, h''⟩ := ih hg' (by omega) (by omega) h'
          exact ⟨rfl, rfl, h''⟩

theorem join_flat {g : Segs} (hg : WSegs g) (r : List Str) :
    g.toks.flatMap (colon2 ++ ·) ++ r = c%":" :: c%":" :: (joinToks g.toks ++ r) := by
  obtain ⟨i, l, L, -, e⟩ := hg.first
  rw [e, flat_cons, joinToks]
  simp

theorem join_take {g : Segs} (hg : WSegs g) (n : Nat) (r : List Str) :
    (g.toks.take (n + 1)).flatMap (colon2 ++ ·) ++ r = c%":" :: c%":" :: (joinToks (g.toks.take (n + 1)) ++ r) := by
  obtain ⟨i, l, L, -, e⟩ := hg.first
  rw [e, List.take_succ_cons, flat_cons, joinToks]
  simp

theorem lead_inj {a b : Bool} {i j : Str} {x y : List Str} (hi : i ≠ c%":") (hj : j ≠ c%":")
    (h : (if a then colon2 else []) ++ i :: x = (if b then colon2 else []) ++ j :: y) : a = b ∧ i :: x = j :: y := by
  cases a <;> cases b <;> simp only [colon2, if_true, if_false, Bool.false_eq_true, List.nil_append, List.cons_append,
    List.cons.injEq] at h
  · exact ⟨rfl, by rw [h.1, h.2]⟩
  · exact absurd h.1 hi
  · exact absurd h.1.symm hj
  · exact ⟨rfl, by rw [h.2.2.1, h.2.2.2]⟩

theorem join_first {g : Segs} (hg : WSegs g) (n : Nat) (r : List Str) :
    ∃ i x, IsName i ∧ joinToks (g.toks.take (n + 1)) ++ r = i :: x := by
  obtain ⟨i, l, L, hi, e⟩ := hg.first
  exact ⟨i, _, hi, by rw [e, List.take_succ_cons, joinToks]; rfl⟩

theorem join_first' {g : Segs} (hg : WSegs g) (r : List Str) : ∃ i x, IsName i ∧ joinToks g.toks ++ r = i :: x := by
  obtain ⟨i, l, L, hi, e⟩ := hg.first
  exact ⟨i, _, hi, by rw [e, joinToks]; rfl⟩

theorem ends_cons {s : Str} (h : s ∈ [c%">", c%"as", c%",", c%";"]) (x : List Str) : OpenEnds (s :: x) := by
  simp only [List.mem_cons, List.not_mem_nil, or_false] at h
  rcases h with rfl | rfl | rfl | rfl <;> exact ⟨⟨by simp, by simp⟩, by simp⟩

theorem typeEnds_nil : OpenEnds [] := ⟨⟨by simp, by simp⟩, by simp⟩

theorem rest_ends {p : Pieces} (h : WRest p) {r : List Str} (hr : ListEnds r) : OpenEnds (p.toks ++ r) := by
  cases h with
  | nil => rw [Pieces.toks]; exact hr.ends
  | comma h => rw [Pieces.toks]; exact ends_cons (by decide) _

theorem more_ends {p : Pieces} (h : WMore p) {r : List Str} (hr : OpenEnds r) : TyEnds (p.toks ++ r) := by
  cases h with
  | nil => rw [Pieces.toks]; exact hr.1
  | plus h => rw [Pieces.toks]; exact ⟨by simp, by simp⟩

theorem args_first {a : Args} (h : WArgs a) : a = .none ∨ ∃ c ps, a = .angle c ps ∧ WList ps := by
  cases h with
  | none => exact .inl rfl
  | angle h => exact .inr ⟨_, _, rfl, h⟩

theorem angle_not_ends {c : Bool} {ps : Pieces} {r x : List Str} (hr : SegEnds r) (h : r = (Args.angle c ps).toks ++ x) :
    False := by
  rw [Args.toks] at h
  cases c
  · exact hr.1 (by rw [h]; rfl)
  · exact hr.2 _ h

theorem kind_ne {t : Ty} (h : WTy t) : t.kind ≠ 0 ∧ t.kind ≠ 10 ∧ t.kind ≠ 11 := by
  cases h with
  | @path lead => cases lead <;> simp [Ty.kind]
  | bounds hk =>
    simp only [List.mem_cons, List.not_mem_nil, or_false] at hk
    rcases hk with rfl | rfl <;> simp [Ty.kind]
  | _ => simp [Ty.kind]

theorem array_toks {t : Ty} {n : Str} (h : WTy t) (hn : IsWord n) :
    ∀ s ∈ (Pieces.ty t (.tok c%";" (.tok n .nil))).toks, WTok s := by
  rw [Pieces.toks, Pieces.toks, Pieces.toks, Pieces.toks]
  refine forall_append (ty_tok h) ?_
  intro s hs
  simp only [List.mem_cons, List.not_mem_nil, or_false] at hs
  rcases hs with rfl | rfl
  · exact punct_tok (by decide)
  · exact hn.tok

/-- The tokens of a reference, with what follows. -/
theorem ref_inj {lt lt' : Option Str} {m m' : Bool} {t u : Ty} {r r' : List Str} (hl : ∀ l, lt = some l → IsName l)
    (hl' : ∀ l, lt' = some l → IsName l) (ht : WTy t) (hu : WTy u)
    (h : (Ty.ref lt m t).toks ++ r = (Ty.ref lt' m' u).toks ++ r') : lt = lt' ∧ m = m' ∧ t.toks ++ r = u.toks ++ r' := by
  have kt : ∀ {v : Ty}, WTy v → ∀ r, kind (v.toks ++ r) ≠ 10 ∧ ∀ x, v.toks ++ r ≠ c%"mut" :: x := by
    intro v hv r
    have hk := ty_kind hv r
    refine ⟨?_, ?_⟩
    · rw [hk]
      exact (kind_ne hv).2.1
    · intro x e
      have e9 : kind (v.toks ++ r) = 9 := by rw [e]; rfl
      rw [hk] at e9
      cases hv with
      | @path lead segs hg =>
        cases lead
        · obtain ⟨i, l, L, hi, es⟩ := hg.first
          rw [Ty.toks, QSelf.toks, pathToks, es] at e
          have : i = c%"mut" := by
            have := congrArg List.head? e
            simpa [joinToks] using this
          exact hi.2.2 (by rw [this]; decide)
        · cases e9
      | assoc => cases e9
      | qualified => cases e9
      | ref => cases e9
      | slice => cases e9
      | tuple => cases e9
      | array => cases e9
      | pointer => cases e9
      | never => cases e9
      | infer => cases e9
      | bounds hk' =>
        simp only [List.mem_cons, List.not_mem_nil, or_false] at hk'
        rcases hk' with rfl | rfl <;> cases e9
  have km : ∀ {m m' : Bool}, (if m then [c%"mut"] else []) ++ (t.toks ++ r) = (if m' then [c%"mut"] else []) ++ (u.toks ++ r') →
      m = m' ∧ t.toks ++ r = u.toks ++ r' := by
    intro m m' h
    cases m <;> cases m' <;> simp only [if_true, if_false, Bool.false_eq_true, List.nil_append, List.cons_append] at h
    · exact ⟨rfl, h⟩
    · exact absurd h ((kt ht r).2 _)
    · exact absurd h.symm ((kt hu r').2 _)
    · exact ⟨rfl, (List.cons.inj h).2⟩
  have k10 : ∀ {m : Bool} {v : Ty}, WTy v → ∀ r x, (if m then [c%"mut"] else []) ++ (v.toks ++ r) ≠ c%"'" :: x := by
    intro m v hv r x e
    cases m
    · exact (kt hv r).1 (by simp only [Bool.false_eq_true, if_false, List.nil_append] at e; rw [e]; rfl)
    · simp at e
  rw [Ty.toks, Ty.toks] at h
  simp only [List.append_assoc, List.cons_append, List.nil_append, List.cons.injEq, true_and] at h
  cases lt with
  | none =>
    cases lt' with
    | none =>
      simp only [lifetimeToks, List.nil_append] at h
      exact ⟨rfl, km h⟩
    | some l' =>
      simp only [lifetimeToks, List.nil_append, List.cons_append] at h
      exact absurd h (k10 ht r _)
  | some l =>
    cases lt' with
    | none =>
      simp only [lifetimeToks, List.nil_append, List.cons_append] at h
      exact absurd h.symm (k10 hu r' _)
    | some l' =>
      simp only [lifetimeToks, List.nil_append, List.cons_append, List.cons.injEq, true_and] at h
      obtain ⟨rfl, h⟩ := h
      exact ⟨rfl, km h⟩

theorem bounds_kind {k : Str} (h : k ∈ [c%"dyn", c%"impl"]) (ps : Pieces) : (Ty.other (.tok k ps)).kind = 12 := by
  simp only [List.mem_cons, List.not_mem_nil, or_false] at h
  rcases h with rfl | rfl <;> rfl

/-- A path does not begin like a lifetime. -/
theorem path_not_quote {lead : Bool} {g : Segs} {p : Pieces} {l : Str} {q : Pieces} {r r' : List Str} (h : WSegs g)
    (e : (Pieces.path lead g p).toks ++ r = (Pieces.tok c%"'" (.tok l q)).toks ++ r') : False := by
  obtain ⟨i, x, L, hi, eg⟩ := h.first
  simp only [Pieces.toks, eg, pathToks] at e
  have e := congrArg List.head? e
  cases lead
  · simp only [Bool.false_eq_true, if_false, joinToks, List.nil_append, List.cons_append, List.head?_cons, Option.some.injEq] at e
    exact hi.ne (by decide) e
  · simp [colon2] at e

mutual

theorem ty_u : ∀ {t : Ty}, WTy t → TyU t
  | _, .path (lead := lead) h => by
    intro u r r' hu hr hr' e
    have hk : Ty.kind _ = Ty.kind u := (ty_kind (.path h) r).symm.trans ((congrArg kind e).trans (ty_kind hu r'))
    cases hu with
    | path h' =>
      rw [Ty.toks, QSelf.toks, pathToks, Ty.toks, QSelf.toks, pathToks, List.append_assoc, List.append_assoc] at e
      obtain ⟨i, x, hi, ei⟩ := join_first' h r
      obtain ⟨j, y, hj, ej⟩ := join_first' h' r'
      rw [ei, ej] at e
      obtain ⟨rfl, e'⟩ := lead_inj (hi.ne (by decide)) (hj.ne (by decide)) e
      rw [← ei, ← ej] at e'
      obtain ⟨rfl, e''⟩ := segs_flat (segs_u h) h' hr.1 hr'.1 (by rw [join_flat h, join_flat h', e'])
      exact ⟨rfl, e''⟩
    | bounds hk' => rw [bounds_kind hk' _] at hk; cases lead <;> cases hk
    | _ => cases lead <;> cases hk
  | _, .assoc ht h => by
    intro u r r' hu hr hr' e
    have hk : Ty.kind _ = Ty.kind u := (ty_kind (.assoc ht h) r).symm.trans ((congrArg kind e).trans (ty_kind hu r'))
    cases hu with
    | @path lead' segs' => cases lead' <;> cases hk
    | assoc ht' h' =>
      rw [Ty.toks, QSelf.toks, pathToks, Ty.toks, QSelf.toks, pathToks] at e
      simp only [List.append_assoc, List.cons_append, List.nil_append, List.cons.injEq, true_and] at e
      obtain ⟨rfl, e'⟩ := ty_u ht _ _ _ ht' (ends_cons (by decide) _) (ends_cons (by decide) _) e
      obtain ⟨rfl, e''⟩ := segs_flat (segs_u h) h' hr.1 hr'.1 (List.cons.inj e').2
      exact ⟨rfl, e''⟩
    | qualified ht' hn' h' =>
      rw [Ty.toks, QSelf.toks, pathToks, Ty.toks, QSelf.toks, pathToks] at e
      · simp only [List.append_assoc, List.cons_append, List.nil_append, List.cons.injEq, true_and] at e
        obtain ⟨rfl, e'⟩ := ty_u ht _ _ _ ht' (ends_cons (by decide) _) (ends_cons (by decide) _) e
        cases (List.cons.inj e').1
      · simp
    | bounds hk' => rw [bounds_kind hk' _] at hk; cases hk
    | _ => cases hk
  | _, .qualified ht hn h => by
    intro u r r' hu hr hr' e
    have hk : Ty.kind _ = Ty.kind u := (ty_kind (.qualified ht hn h) r).symm.trans ((congrArg kind e).trans (ty_kind hu r'))
    cases hu with
    | @path lead' segs' => cases lead' <;> cases hk
    | assoc ht' h' =>
      rw [Ty.toks, QSelf.toks, pathToks, Ty.toks, QSelf.toks, pathToks] at e
      · simp only [List.append_assoc, List.cons_append, List.nil_append, List.cons.injEq, true_and] at e
        obtain ⟨rfl, e'⟩ := ty_u ht _ _ _ ht' (ends_cons (by decide) _) (ends_cons (by decide) _) e
        cases (List.cons.inj e').1
      · simp
    | qualified ht' hn' h' =>
      rw [Ty.toks, QSelf.toks, pathToks, Ty.toks, QSelf.toks, pathToks] at e
      · simp only [List.append_assoc, List.cons_append, List.nil_append, List.cons.injEq, true_and] at e
        obtain ⟨rfl, e'⟩ := ty_u ht _ _ _ ht' (ends_cons (by decide) _) (ends_cons (by decide) _) e
        have e1 := (List.cons.inj e').2
        obtain ⟨i, x, hi, ei⟩ := join_first h _ _
        obtain ⟨j, y, hj, ej⟩ := join_first h' _ _
        rw [ei, ej] at e1
        obtain ⟨rfl, e2⟩ := lead_inj (hi.ne (by decide)) (hj.ne (by decide)) e1
        rw [← ei, ← ej] at e2
        obtain ⟨en, rfl, e3⟩ := segs_qual (segs_u h) h' hr.1 hr'.1 hn hn' (by rw [join_take h, join_take h', e2])
        cases en
        exact ⟨rfl, e3⟩
      · simp
      · simp
    | bounds hk' => rw [bounds_kind hk' _] at hk; cases hk
    | _ => cases hk
  | _, .ref hl ht => by
    intro u r r' hu hr hr' e
    have hk : Ty.kind _ = Ty.kind u := (ty_kind (.ref hl ht) r).symm.trans ((congrArg kind e).trans (ty_kind hu r'))
    cases hu with
    | @path lead' segs' => cases lead' <;> cases hk
    | ref hl' ht' =>
      obtain ⟨rfl, rfl, e'⟩ := ref_inj hl hl' ht ht' e
      obtain ⟨rfl, e''⟩ := ty_u ht _ _ _ ht' hr hr' e'
      exact ⟨rfl, e''⟩
    | bounds hk' => rw [bounds_kind hk' _] at hk; cases hk
    | _ => cases hk
  | _, .slice ht => by
    intro u r r' hu hr hr' e
    have hk : Ty.kind _ = Ty.kind u := (ty_kind (.slice ht) r).symm.trans ((congrArg kind e).trans (ty_kind hu r'))
    cases hu with
    | @path lead' segs' => cases lead' <;> cases hk
    | slice ht' =>
      rw [Ty.toks, Ty.toks] at e
      simp only [List.cons_append, List.nil_append, List.cons.injEq] at e
      obtain ⟨-, et⟩ := groupText_inj (by decide) (by decide) (ty_tok ht) (ty_tok ht') e.1
      obtain ⟨rfl, -⟩ := ty_u ht _ [] [] ht' typeEnds_nil typeEnds_nil (by simpa using et)
      exact ⟨rfl, e.2⟩
    | array ht' hn' =>
      rw [Ty.toks, Ty.toks, Pieces.toks, Pieces.toks] at e
      simp only [List.cons_append, List.nil_append, List.cons.injEq] at e
      obtain ⟨-, et⟩ := groupText_inj (by decide) (by decide) (ty_tok ht) (array_toks ht' hn') e.1
      simp only [Pieces.toks] at et
      cases (ty_u ht _ [] _ ht' typeEnds_nil (ends_cons (by decide) _) ((List.append_nil _).trans et)).2
    | bounds hk' => rw [bounds_kind hk' _] at hk; cases hk
    | _ => cases hk
  | _, .tuple h => by
    intro u r r' hu hr hr' e
    have hk : Ty.kind _ = Ty.kind u := (ty_kind (.tuple h) r).symm.trans ((congrArg kind e).trans (ty_kind hu r'))
    cases hu with
    | @path lead' segs' => cases lead' <;> cases hk
    | tuple h' =>
      simp only [Ty.toks, Pieces.toks, List.cons_append, List.nil_append, List.cons.injEq] at e
      obtain ⟨-, et⟩ := groupText_inj (by decide) (by decide) (list_tok h) (list_tok h') e.1
      obtain ⟨rfl, -⟩ := list_u h _ [] [] h' (.inl rfl) (.inl rfl) (by simpa using et)
      exact ⟨rfl, e.2⟩
    | bounds hk' => rw [bounds_kind hk' _] at hk; cases hk
    | _ => cases hk
  | _, .array ht hn => by
    intro u r r' hu hr hr' e
    have hk : Ty.kind _ = Ty.kind u := (ty_kind (.array ht hn) r).symm.trans ((congrArg kind e).trans (ty_kind hu r'))
    cases hu with
    | @path lead' segs' => cases lead' <;> cases hk
    | slice ht' =>
      rw [Ty.toks, Ty.toks, Pieces.toks, Pieces.toks] at e
      simp only [List.cons_append, List.nil_append, List.cons.injEq] at e
      obtain ⟨-, et⟩ := groupText_inj (by decide) (by decide) (array_toks ht hn) (ty_tok ht') e.1
      simp only [Pieces.toks] at et
      cases (ty_u ht _ _ [] ht' (ends_cons (by decide) _) typeEnds_nil (et.trans (List.append_nil _).symm)).2
    | array ht' hn' =>
      simp only [Ty.toks, Pieces.toks, List.cons_append, List.nil_append, List.cons.injEq] at e
      obtain ⟨-, et⟩ := groupText_inj (by decide) (by decide) (array_toks ht hn) (array_toks ht' hn') e.1
      simp only [Pieces.toks] at et
      obtain ⟨rfl, en⟩ := ty_u ht _ _ _ ht' (ends_cons (by decide) _) (ends_cons (by decide) _) et
      simp only [List.cons.injEq, true_and, and_true] at en
      subst en
      exact ⟨rfl, e.2⟩
    | bounds hk' => rw [bounds_kind hk' _] at hk; cases hk
    | _ => cases hk
  | _, .pointer ht hm => by
    intro u r r' hu hr hr' e
    have hk : Ty.kind _ = Ty.kind u := (ty_kind (.pointer ht hm) r).symm.trans ((congrArg kind e).trans (ty_kind hu r'))
    cases hu with
    | @path lead' segs' => cases lead' <;> cases hk
    | pointer ht' hm' =>
      simp only [Ty.toks, Pieces.toks, List.append_nil, List.cons_append, List.cons.injEq, true_and] at e
      obtain ⟨rfl, e'⟩ := e
      obtain ⟨rfl, e''⟩ := ty_u ht _ _ _ ht' hr hr' e'
      exact ⟨rfl, e''⟩
    | bounds hk' => rw [bounds_kind hk' _] at hk; cases hk
    | _ => cases hk
  | _, .never => by
    intro u r r' hu hr hr' e
    have hk : Ty.kind _ = Ty.kind u := (ty_kind .never r).symm.trans ((congrArg kind e).trans (ty_kind hu r'))
    cases hu with
    | @path lead' segs' => cases lead' <;> cases hk
    | never => exact ⟨rfl, List.append_cancel_left e⟩
    | bounds hk' => rw [bounds_kind hk' _] at hk; cases hk
    | _ => cases hk
  | _, .infer => by
    intro u r r' hu hr hr' e
    have hk : Ty.kind _ = Ty.kind u := (ty_kind .infer r).symm.trans ((congrArg kind e).trans (ty_kind hu r'))
    cases hu with
    | @path lead' segs' => cases lead' <;> cases hk
    | infer => exact ⟨rfl, List.append_cancel_left e⟩
    | bounds hk' => rw [bounds_kind hk' _] at hk; cases hk
    | _ => cases hk
  | _, .bounds (k := k) hb h => by
    intro u r r' hu hr hr' e
    have hk : Ty.kind _ = Ty.kind u := (ty_kind (.bounds hb h) r).symm.trans ((congrArg kind e).trans (ty_kind hu r'))
    rw [bounds_kind hb] at hk
    cases hu with
    | @path lead' segs' => cases lead' <;> cases hk
    | bounds hb' h' =>
      simp only [Ty.toks, Pieces.toks, List.cons_append, List.cons.injEq] at e
      obtain ⟨rfl, e'⟩ := e
      obtain ⟨rfl, e''⟩ := bounds_u h _ _ _ h' hr hr' e'
      exact ⟨rfl, e''⟩
    | _ => cases hk

theorem segs_u : ∀ {g : Segs}, WSegs g → SegsU g
  | _, .one hi ha => .one hi (args_u ha)
  | _, .more hi ha hr => .more hi (args_u ha) (segs_u hr)

theorem args_u : ∀ {a : Args}, WArgs a → ArgsU a
  | _, .none => by
    intro b r r' hb hr hr' e
    rcases args_first hb with rfl | ⟨c, ps, rfl, -⟩
    · exact ⟨rfl, e⟩
    · exact (angle_not_ends hr e).elim
  | _, .angle (c := c) h => by
    intro b r r' hb hr hr' e
    rcases args_first hb with rfl | ⟨c', ps', rfl, h'⟩
    · exact (angle_not_ends hr' e.symm).elim
    · rw [Args.toks, Args.toks] at e
      simp only [List.append_assoc, List.cons_append, List.nil_append] at e
      obtain ⟨rfl, e'⟩ := lead_inj (by decide) (by decide) e
      obtain ⟨rfl, e''⟩ := list_u h _ _ _ h' (.inr rfl) (.inr rfl) (List.cons.inj e').2
      exact ⟨rfl, (List.cons.inj e'').2⟩

theorem list_u : ∀ {p : Pieces}, WList p → ListU p
  | _, .nil => by
    intro q r r' hq hr hr' e
    rw [Pieces.toks, List.nil_append] at e
    have hk := congrArg kind e
    rw [hr.kind] at hk
    cases hq with
    | nil => exact ⟨rfl, by rw [e, Pieces.toks]; rfl⟩
    | ty ht' hr2 =>
      rw [Pieces.toks, List.append_assoc, ty_kind ht'] at hk
      exact absurd hk.symm (kind_ne ht').1
    | lifetime => cases hk
    | literal hl' =>
      rw [Pieces.toks, List.cons_append, hl'.kind] at hk
      cases hk
  | _, .ty ht hs => by
    intro q r r' hq hr hr' e
    have hk := congrArg kind e
    rw [Pieces.toks, List.append_assoc, ty_kind ht] at hk
    cases hq with
    | nil =>
      rw [Pieces.toks, List.nil_append, hr'.kind] at hk
      exact absurd hk (kind_ne ht).1
    | ty ht' hs' =>
      rw [Pieces.toks, Pieces.toks, List.append_assoc, List.append_assoc] at e
      obtain ⟨rfl, e'⟩ := ty_u ht _ _ _ ht' (rest_ends hs hr) (rest_ends hs' hr') e
      obtain ⟨rfl, e''⟩ := rest_u hs _ _ _ hs' hr hr' e'
      exact ⟨rfl, e''⟩
    | lifetime =>
      rw [Pieces.toks] at hk
      exact absurd hk (kind_ne ht).2.1
    | literal hl' =>
      rw [Pieces.toks, List.cons_append, hl'.kind] at hk
      exact absurd hk (kind_ne ht).2.2
  | _, .lifetime hl hs => by
    intro q r r' hq hr hr' e
    have hk := congrArg kind e
    rw [Pieces.toks, List.cons_append, show kind (c%"'" :: _) = 10 from rfl] at hk
    cases hq with
    | nil =>
      rw [Pieces.toks, List.nil_append, hr'.kind] at hk
      cases hk
    | ty ht' hs' =>
      rw [Pieces.toks, List.append_assoc, ty_kind ht'] at hk
      exact absurd hk.symm (kind_ne ht').2.1
    | lifetime hl' hs' =>
      simp only [Pieces.toks, List.cons_append, List.cons.injEq, true_and] at e
      obtain ⟨rfl, e'⟩ := e
      obtain ⟨rfl, e''⟩ := rest_u hs _ _ _ hs' hr hr' e'
      exact ⟨rfl, e''⟩
    | literal hl' =>
      rw [Pieces.toks, List.cons_append, hl'.kind] at hk
      cases hk
  | _, .literal hl hs => by
    intro q r r' hq hr hr' e
    have hk := congrArg kind e
    rw [Pieces.toks, List.cons_append, hl.kind] at hk
    cases hq with
    | nil =>
      rw [Pieces.toks, List.nil_append, hr'.kind] at hk
      cases hk
    | ty ht' hs' =>
      rw [Pieces.toks, List.append_assoc, ty_kind ht'] at hk
      exact absurd hk.symm (kind_ne ht').2.2
    | lifetime hl' hs' => cases hk
    | literal hl' hs' =>
      simp only [Pieces.toks, List.cons_append, List.cons.injEq] at e
      obtain ⟨rfl, e'⟩ := e
      obtain ⟨rfl, e''⟩ := rest_u hs _ _ _ hs' hr hr' e'
      exact ⟨rfl, e''⟩

theorem rest_u : ∀ {p : Pieces}, WRest p → RestU p
  | _, .nil => by
    intro q r r' hq hr hr' e
    cases hq with
    | nil => exact ⟨rfl, List.append_cancel_left e⟩
    | comma h' =>
      rw [Pieces.toks, Pieces.toks] at e
      exfalso
      rcases hr with hr | hr <;> rw [List.nil_append] at e <;> rw [e] at hr <;> cases hr
  | _, .comma h => by
    intro q r r' hq hr hr' e
    cases hq with
    | nil =>
      rw [Pieces.toks, Pieces.toks] at e
      exfalso
      rcases hr' with hr' | hr' <;> rw [List.nil_append] at e <;> rw [← e] at hr' <;> cases hr'
    | comma h' =>
      rw [Pieces.toks, Pieces.toks] at e
      obtain ⟨rfl, e'⟩ := list_u h _ _ _ h' hr hr' (List.cons.inj e).2
      exact ⟨rfl, e'⟩

theorem bounds_u : ∀ {p : Pieces}, WBounds p → BoundsU p
  | _, .trait h hm => by
    intro q r r' hq hr hr' e
    cases hq with
    | trait h' hm' =>
      rw [Pieces.toks, Pieces.toks, pathToks, pathToks] at e
      simp only [List.append_assoc] at e
      obtain ⟨i, x, hi, ei⟩ := join_first' h (_ ++ r)
      obtain ⟨j, y, hj, ej⟩ := join_first' h' (_ ++ r')
      rw [ei, ej] at e
      obtain ⟨rfl, e'⟩ := lead_inj (hi.ne (by decide)) (hj.ne (by decide)) e
      rw [← ei, ← ej] at e'
      obtain ⟨rfl, e''⟩ := segs_flat (segs_u h) h' (more_ends hm hr) (more_ends hm' hr') (by rw [join_flat h, join_flat h', e'])
      obtain ⟨rfl, e3⟩ := more_u hm _ _ _ hm' hr hr' e''
      exact ⟨rfl, e3⟩
    | lifetime hl' hm' =>
      exact (path_not_quote h e).elim
  | _, .lifetime hl hm => by
    intro q r r' hq hr hr' e
    cases hq with
    | trait h' hm' =>
      exact (path_not_quote h' e.symm).elim
    | lifetime hl' hm' =>
      simp only [Pieces.toks, List.cons_append, List.cons.injEq, true_and] at e
      obtain ⟨rfl, e'⟩ := e
      obtain ⟨rfl, e''⟩ := more_u hm _ _ _ hm' hr hr' e'
      exact ⟨rfl, e''⟩

theorem more_u : ∀ {p : Pieces}, WMore p → MoreU p
  | _, .nil => by
    intro q r r' hq hr hr' e
    cases hq with
    | nil => exact ⟨rfl, List.append_cancel_left e⟩
    | plus h' =>
      rw [Pieces.toks, Pieces.toks, List.nil_append] at e
      exact absurd (by rw [e]; rfl) hr.2
  | _, .plus h => by
    intro q r r' hq hr hr' e
    cases hq with
    | nil =>
      rw [Pieces.toks, Pieces.toks, List.nil_append] at e
      exact absurd (by rw [← e]; rfl) hr'.2
    | plus h' =>
      rw [Pieces.toks, Pieces.toks] at e
      obtain ⟨rfl, e'⟩ := bounds_u h _ _ _ h' hr hr' (List.cons.inj e).2
      exact ⟨rfl, e'⟩

end

end TF
