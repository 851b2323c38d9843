import Verif.Model.TypeUtils
import Mathlib.Data.List.Infix
import Mathlib.Tactic.Common

/-!
# C53: turbofish insertion
-/

namespace TF

namespace Spec

/-- `b` results from `a` by insertions of `::`, each just before one of the lists of tokens of `L` and not after a `::`. -/
inductive Marked (L : List Str → Prop) : List Str → List Str → Prop
  | refl (a : List Str) : Marked L a a
  | step {u l v b : List Str} : L l → (∀ u', u ≠ u' ++ [c%":", c%":"]) →
      Marked L (u ++ [c%":", c%":"] ++ l ++ v) b → Marked L (u ++ l ++ v) b

section
variable (l : List Str)

mutual

/-- `l` is the token list of a generic argument list (`<..>` or `(..) -> ..`) in the type. -/
def Ty.HasList : Ty → Prop
  | .path (.some t _) _ segs => Ty.HasList t ∨ Segs.HasList segs
  | .path .none _ segs => Segs.HasList segs
  | .ref _ _ t => Ty.HasList t
  | .slice t => Ty.HasList t
  | .other ps => Pieces.HasList ps

def Segs.HasList : Segs → Prop
  | .nil => False
  | .cons _ a r => Args.HasList a ∨ Segs.HasList r

def Args.HasList : Args → Prop
  | .none => False
  | .angle c ps => l = (Args.angle c ps).toks ∨ Pieces.HasList ps
  | .paren ps => l = (Args.paren ps).toks ∨ Pieces.HasList ps

def Pieces.HasList : Pieces → Prop
  | .nil => False
  | .tok _ r => Pieces.HasList r
  | .group _ _ ps r => Pieces.HasList ps ∨ Pieces.HasList r
  | .ty t r => Ty.HasList t ∨ Pieces.HasList r
  | .path _ segs r => Segs.HasList segs ∨ Pieces.HasList r

end

end

/-- Segments without arguments, then further segments. -/
def plainSegs : List Str → Segs → Segs
  | [], s => s
  | i :: r, s => .cons i .none (plainSegs r s)

/-- `[::] a::b::..::i` -/
def plainPath (lead : Bool) (pre : List Str) (i : Str) : List Str :=
  (if lead then [c%":", c%":"] else []) ++ pre.flatMap (fun x => [x, c%":", c%":"]) ++ [i]

end Spec

open Spec

/-! ## The lists that are visited -/

section
variable {l : List Str}

mutual

theorem ty_hasList : ∀ t : Ty, l ∈ t.argLists ↔ Ty.HasList l t
  | .path .none _ segs => by rw [Ty.argLists, QSelf.argLists, Ty.HasList, List.nil_append, segs_hasList segs]
  | .path (.some t _) _ segs => by
    rw [Ty.argLists, QSelf.argLists, Ty.HasList, List.mem_append, ty_hasList t, segs_hasList segs]
  | .ref _ _ t => by rw [Ty.argLists, Ty.HasList, ty_hasList t]
  | .slice t => by rw [Ty.argLists, Ty.HasList, ty_hasList t]
  | .other ps => by rw [Ty.argLists, Ty.HasList, pieces_hasList ps]

theorem segs_hasList : ∀ s : Segs, l ∈ s.argLists ↔ Segs.HasList l s
  | .nil => by rw [Segs.argLists, Segs.HasList]; simp
  | .cons _ a r => by rw [Segs.argLists, Segs.HasList, List.mem_append, args_hasList a, segs_hasList r]

theorem args_hasList : ∀ s : Args, l ∈ s.argLists ↔ Args.HasList l s
  | .none => by rw [Args.argLists, Args.HasList]; simp
  | .angle _ ps => by rw [Args.argLists, Args.HasList, List.mem_cons, pieces_hasList ps]
  | .paren ps => by rw [Args.argLists, Args.HasList, List.mem_cons, pieces_hasList ps]

theorem pieces_hasList : ∀ s : Pieces, l ∈ s.argLists ↔ Pieces.HasList l s
  | .nil => by rw [Pieces.argLists, Pieces.HasList]; simp
  | .tok _ r => by rw [Pieces.argLists, Pieces.HasList, pieces_hasList r]
  | .group _ _ ps r => by rw [Pieces.argLists, Pieces.HasList, List.mem_append, pieces_hasList ps, pieces_hasList r]
  | .ty t r => by rw [Pieces.argLists, Pieces.HasList, List.mem_append, ty_hasList t, pieces_hasList r]
  | .path _ segs r => by rw [Pieces.argLists, Pieces.HasList, List.mem_append, segs_hasList segs, pieces_hasList r]

end

end

/-! ## Termination -/

theorem insertLoop_total (l : List Str) : ∀ (fuel : Nat) (toks : List Str) (i : Nat), toks.length + 1 < fuel + i →
    i ≤ toks.length + 1 → ∃ r, insertLoop l fuel toks i = some r
  | 0, toks, i, h, h' => by omega
  | fuel + 1, toks, i, h, h' => by
    rw [insertLoop]
    split
    · split
      · refine insertLoop_total l fuel _ _ ?_ ?_ <;>
        · simp only [List.length_append, List.length_take, List.length_drop, colon2, List.length_cons, List.length_nil]
          omega
      · exact insertLoop_total l fuel _ _ (by omega) (by omega)
    · exact ⟨_, rfl⟩

theorem visitAll_total : ∀ (ls : List (List Str)) (toks : List Str), ∃ r, visitAll ls toks = some r
  | [], toks => ⟨toks, rfl⟩
  | l :: ls, toks => by
    obtain ⟨r, h⟩ := insertLoop_total l (toks.length + 2) toks 0 (by omega) (by omega)
    obtain ⟨r', h'⟩ := visitAll_total ls r
    exact ⟨r', by rw [visitAll, h]; exact h'⟩

/-- **C53.** The rewriting terminates. -/
theorem C53_terminates (t : Ty) (p : PathTy) : (∃ r, t.turbofish = some r) ∧ ∃ r, p.turbofish = some r :=
  ⟨visitAll_total _ _, visitAll_total _ _⟩

/-! ## Only `::` is inserted -/

theorem Spec.Marked.trans {L : List Str → Prop} {a b c : List Str} (h : Marked L a b) (h' : Marked L b c) : Marked L a c := by
  induction h with
  | refl => exact h'
  | step h1 h2 _ ih => exact .step h1 h2 (ih h')

theorem insertLoop_marked {L : List Str → Prop} {l : List Str} (hl : L l) : ∀ (fuel : Nat) (toks : List Str) (i : Nat) (r),
    insertLoop l fuel toks i = some r → Marked L toks r
  | 0, _, _, _, h => by cases h
  | fuel + 1, toks, i, r, h => by
    rw [insertLoop] at h
    split at h
    · rename_i hle
      split at h
      · rename_i hm
        have h1 := insertLoop_marked hl fuel _ _ _ h
        have hd : toks.drop i = l ++ (toks.drop i).drop l.length := by
          conv_lhs => rw [← List.take_append_drop l.length (toks.drop i), hm.1]
        have ht : toks = toks.take i ++ l ++ (toks.drop i).drop l.length := by
          rw [List.append_assoc, ← hd, List.take_append_drop]
        rw [ht]
        refine .step hl ?_ ?_
        · intro u' hu
          have hlen := congrArg List.length hu
          simp only [List.length_take, List.length_append, List.length_cons, List.length_nil] at hlen
          rcases hm.2 with h2 | h2
          · omega
          · apply h2
            rw [show toks.drop (i - 2) = [c%":", c%":"] ++ toks.drop i from ?_]
            · rfl
            · have e : toks = u' ++ ([c%":", c%":"] ++ toks.drop i) := by
                rw [← List.append_assoc, ← hu, List.take_append_drop]
              conv_lhs => rw [e]
              rw [List.drop_left' (by omega)]
        · rw [List.append_assoc, ← hd]
          exact h1
      · exact insertLoop_marked hl fuel _ _ _ h
    · cases h; exact .refl _

theorem visitAll_marked {L : List Str → Prop} : ∀ (ls : List (List Str)) (_ : ∀ l ∈ ls, L l) (toks r : List Str),
    visitAll ls toks = some r → Marked L toks r
  | [], _, toks, r, h => by cases h; exact .refl _
  | l :: ls, hL, toks, r, h => by
    rw [visitAll] at h
    cases h1 : insertLoop l (toks.length + 2) toks 0 with
    | none => rw [h1] at h; cases h
    | some r1 =>
      rw [h1] at h
      exact (insertLoop_marked (hL l (by simp)) _ _ _ _ h1).trans
        (visitAll_marked ls (fun x hx => hL x (List.mem_cons_of_mem _ hx)) _ _ h)

/-- **C53.** The call path is the type with `::` inserted, each time before a generic argument list of the type. -/
theorem C53_only_marks (t : Ty) (r : List Str) (h : t.turbofish = some r) :
    Marked (fun l => Ty.HasList l t) t.toks r :=
  visitAll_marked _ (fun _ hl => (ty_hasList t).mp hl) _ _ h

/-- The same for the path of a trait. -/
theorem C53_only_marks_path (p : PathTy) (r : List Str) (h : p.turbofish = some r) :
    Marked (fun l => Segs.HasList l p.segs) (pathToks none p.lead p.segs.toks) r :=
  visitAll_marked _ (fun _ hl => (segs_hasList p.segs).mp hl) _ _ h

/-- **C53.** So no token is lost or moved, and only colons are added, two at a time. -/
theorem C53_erase (L : List Str → Prop) (a b : List Str) (h : Marked L a b) :
    a.Sublist b ∧ b.filter (· ≠ c%":") = a.filter (· ≠ c%":") ∧ ∃ k, b.length = a.length + 2 * k := by
  induction h with
  | refl => exact ⟨List.Sublist.refl _, rfl, 0, rfl⟩
  | @step u l v b _ _ _ ih =>
    obtain ⟨h1, h2, k, h3⟩ := ih
    refine ⟨List.Sublist.trans ?_ h1, ?_, k + 1, ?_⟩
    · rw [List.append_assoc, List.append_assoc, List.append_assoc]
      exact List.Sublist.append (List.Sublist.refl _) (List.sublist_append_right _ _)
    · rw [h2]
      simp [List.filter_append, List.filter_cons]
    · rw [h3]
      simp only [List.length_append, List.length_cons, List.length_nil]
      omega

/-! ## The first argument list -/

theorem getElem?_of_match {l toks r : List Str} {c : Str} {i : Nat} (hl : l = c :: r) (h : (toks.drop i).take l.length = l) :
    toks[i]? = some c := by
  subst hl
  have := congrArg (·[0]?) h
  simpa [List.getElem?_drop] using this

theorem take2_append (P Q : List Str) (x y : Str) :
    ((P ++ [x, y] ++ Q).drop ((P ++ [x, y]).length - 2)).take 2 = [x, y] := by
  have : (P ++ [x, y]).length - 2 = P.length := by simp
  rw [this, List.append_assoc, List.drop_left]
  rfl

/-- What is marked stays marked. -/
theorem insertLoop_keeps {l r0 : List Str} {c : Str} (hl : l = c :: r0) {P : List Str} (hP : c ∉ P) (hc : c ≠ c%":") :
    ∀ (fuel : Nat) (Q : List Str) (i : Nat) (r), insertLoop l fuel (P ++ colon2 ++ Q) i = some r →
      ∃ Q', r = P ++ colon2 ++ Q' ∧ Q.Sublist Q' ∧ Q'.head? = Q.head?
  | 0, _, _, _, h => by cases h
  | fuel + 1, Q, i, r, h => by
    rw [insertLoop] at h
    split at h
    · split at h
      · rename_i hm
        have hi := getElem?_of_match hl hm.1
        have hge : P.length + 2 ≤ i := by
          by_contra hlt
          rw [List.getElem?_append_left (by simp [colon2]; omega)] at hi
          have := List.mem_of_getElem? hi
          rw [List.mem_append] at this
          rcases this with h1 | h1
          · exact hP h1
          · simp [colon2] at h1; exact hc h1
        have hlen2 : (P ++ colon2).length = P.length + 2 := by simp [colon2]
        have hne : i ≠ P.length + 2 := by
          rintro rfl
          rcases hm.2 with h2 | h2
          · omega
          · apply h2
            have := take2_append P Q c%":" c%":"
            rw [show (P ++ [c%":", c%":"]).length = P.length + 2 by simp] at this
            exact this
        obtain ⟨k, rfl⟩ : ∃ k, i = (P ++ colon2).length + (k + 1) := ⟨i - P.length - 3, by rw [hlen2]; omega⟩
        rw [List.take_length_add_append, List.drop_length_add_append, List.append_assoc, List.append_assoc] at h
        obtain ⟨Q', e, h1, h2⟩ := insertLoop_keeps hl hP hc fuel _ _ _ h
        cases Q with
        | nil =>
          exfalso
          rw [List.getElem?_eq_none (by simp)] at hi
          cases hi
        | cons q Q =>
          refine ⟨Q', e, List.Sublist.trans ?_ h1, ?_⟩
          · conv_lhs => rw [← List.take_append_drop (k + 1) (q :: Q)]
            exact List.Sublist.append (List.Sublist.refl _) (List.sublist_append_right _ _)
          · rw [h2]; rfl
      · exact insertLoop_keeps hl hP hc fuel _ _ _ h
    · cases h; exact ⟨Q, rfl, List.Sublist.refl _, rfl⟩

theorem visitAll_keeps {P : List Str} : ∀ (ls : List (List Str))
    (_ : ∀ l ∈ ls, ∃ c r, l = c :: r ∧ c ≠ c%":" ∧ c ∉ P) (Q r : List Str),
    visitAll ls (P ++ colon2 ++ Q) = some r → ∃ Q', r = P ++ colon2 ++ Q' ∧ Q.Sublist Q' ∧ Q'.head? = Q.head?
  | [], _, Q, r, h => by cases h; exact ⟨Q, rfl, List.Sublist.refl _, rfl⟩
  | l :: ls, hL, Q, r, h => by
    rw [visitAll] at h
    cases h1 : insertLoop l ((P ++ colon2 ++ Q).length + 2) (P ++ colon2 ++ Q) 0 with
    | none => rw [h1] at h; cases h
    | some r1 =>
      rw [h1] at h
      obtain ⟨c, r0, e, hc, hP⟩ := hL l (by simp)
      obtain ⟨Q1, rfl, g1, g2⟩ := insertLoop_keeps e hP hc _ _ _ _ h1
      obtain ⟨Q2, e2, g3, g4⟩ := visitAll_keeps ls (fun x hx => hL x (List.mem_cons_of_mem _ hx)) _ _ h
      exact ⟨Q2, e2, g1.trans g3, g4.trans g2⟩

/-- The list that comes first is marked. -/
theorem insertLoop_first {l r0 : List Str} {c : Str} (hl : l = c :: r0) {P : List Str} (hP : c ∉ P) (hc : c ≠ c%":")
    (hend : ∀ u, P ≠ u ++ colon2) (v : List Str) :
    ∀ (fuel : Nat) (i : Nat) (r), i ≤ P.length → insertLoop l fuel (P ++ (l ++ v)) i = some r →
      ∃ Q', r = P ++ colon2 ++ Q' ∧ (l ++ v).Sublist Q' ∧ Q'.head? = (l ++ v).head?
  | 0, _, _, _, h => by cases h
  | fuel + 1, i, r, hi, h => by
    rw [insertLoop] at h
    rw [if_pos (by simp; omega)] at h
    split at h
    · rename_i hm
      have hge : P.length ≤ i := by
        by_contra hlt
        have hi := getElem?_of_match hl hm.1
        rw [List.getElem?_append_left (by omega)] at hi
        exact hP (List.mem_of_getElem? hi)
      obtain rfl : i = P.length := by omega
      rw [List.take_left, List.drop_left] at h
      exact insertLoop_keeps hl hP hc fuel _ _ _ h
    · rename_i hm
      by_cases he : i = P.length
      · exfalso
        subst he
        apply hm
        refine ⟨by rw [List.drop_left, List.take_left], ?_⟩
        by_cases h2 : P.length < 2
        · exact .inl h2
        · refine .inr fun h3 => ?_
          rw [List.drop_append_of_le_length (by omega), List.take_append_of_le_length (by simp; omega)] at h3
          apply hend (P.take (P.length - 2))
          have h4 : (P.drop (P.length - 2)).length ≤ 2 := by rw [List.length_drop]; omega
          rw [← h3, List.take_of_length_le (l := P.drop (P.length - 2)) h4, List.take_append_drop]
      · exact insertLoop_first hl hP hc hend v fuel _ _ (by omega) h

theorem argLists_plain (pre : List Str) (s : Segs) : (plainSegs pre s).argLists = s.argLists := by
  induction pre with
  | nil => rfl
  | cons i r ih => rw [plainSegs, Segs.argLists, Args.argLists, List.nil_append, ih]

theorem joinToks_plain (pre : List Str) (i : Str) (a : Args) (post : Segs) :
    joinToks (plainSegs pre (.cons i a post)).toks =
      pre.flatMap (fun x => [x, c%":", c%":"]) ++ [i] ++ (a.toks ++ post.toks.flatMap (colon2 ++ ·)) := by
  have key : ∀ pre : List Str, (plainSegs pre (.cons i a post)).toks.flatMap (colon2 ++ ·) =
      colon2 ++ (pre.flatMap (fun x => [x, c%":", c%":"]) ++ [i] ++ (a.toks ++ post.toks.flatMap (colon2 ++ ·))) := by
    intro pre
    induction pre with
    | nil => rw [plainSegs, Segs.toks]; simp
    | cons x pre ih => rw [plainSegs, Segs.toks, List.flatMap_cons, ih, Args.toks]; simp [colon2]
  cases pre with
  | nil => rw [plainSegs, Segs.toks]; simp [joinToks]
  | cons x pre =>
    rw [plainSegs, Segs.toks, joinToks, key, Args.toks]
    simp [colon2]

theorem visitAll_first {lead : Bool} {pre : List Str} {i : Str} {a : Args} {post : Segs} (ha : a ≠ .none) (hi : i ≠ c%":")
    (hl : ∀ l, Args.HasList l a ∨ Segs.HasList l post → ∃ c r, l = c :: r ∧ c ≠ c%":" ∧ c ≠ i ∧ c ∉ pre) {r : List Str}
    (h : visitAll (plainSegs pre (.cons i a post)).argLists
      (pathToks none lead (plainSegs pre (.cons i a post)).toks) = some r) :
    ∃ Q, r = plainPath lead pre i ++ [c%":", c%":"] ++ Q ∧
      (a.toks ++ post.toks.flatMap ([c%":", c%":"] ++ ·)).Sublist Q ∧ Q.head? = a.toks.head? := by
  have hP : pathToks none lead (plainSegs pre (.cons i a post)).toks =
      plainPath lead pre i ++ (a.toks ++ post.toks.flatMap (colon2 ++ ·)) := by
    rw [pathToks, joinToks_plain, plainPath]
    simp [colon2]
  obtain ⟨inner, hin⟩ : ∃ inner, a.argLists = a.toks :: inner := by
    cases a with
    | none => exact absurd rfl ha
    | angle c ps => exact ⟨_, by rw [Args.argLists]⟩
    | paren ps => exact ⟨_, by rw [Args.argLists]⟩
  have hmem : ∀ c, c ≠ c%":" → c ≠ i → c ∉ pre → c ∉ plainPath lead pre i := by
    intro c h1 h2 h3 h4
    unfold plainPath at h4
    simp only [List.mem_append, List.mem_flatMap, List.mem_cons, List.not_mem_nil, or_false] at h4
    rcases h4 with (h4 | ⟨x, hx, rfl | h4⟩) | h4
    · split at h4
      · simp at h4; exact h1 h4
      · cases h4
    · exact h3 hx
    · simp at h4; exact h1 h4
    · exact h2 h4
  have hL : ∀ l ∈ a.argLists ++ post.argLists, ∃ c r, l = c :: r ∧ c ≠ c%":" ∧ c ∉ plainPath lead pre i := by
    intro l hm
    rw [List.mem_append, args_hasList, segs_hasList] at hm
    obtain ⟨c, r, e, h1, h2, h3⟩ := hl l hm
    exact ⟨c, r, e, h1, hmem c h1 h2 h3⟩
  rw [argLists_plain, Segs.argLists, hin, List.cons_append, visitAll, hP] at h
  rw [hin, List.cons_append] at hL
  obtain ⟨c, r0, e, hc, hcP⟩ := hL a.toks (by simp)
  have hend : ∀ u, plainPath lead pre i ≠ u ++ colon2 := by
    intro u hu
    have := congrArg List.getLast? hu
    simp [plainPath, colon2] at this
    exact hi this
  cases h1 : insertLoop a.toks ((plainPath lead pre i ++ (a.toks ++ post.toks.flatMap (colon2 ++ ·))).length + 2)
      (plainPath lead pre i ++ (a.toks ++ post.toks.flatMap (colon2 ++ ·))) 0 with
  | none => rw [h1] at h; cases h
  | some r1 =>
    rw [h1] at h
    obtain ⟨Q1, rfl, g1, g2⟩ := insertLoop_first e hcP hc hend _ _ _ _ (Nat.zero_le _) h1
    obtain ⟨Q2, e2, g3, g4⟩ := visitAll_keeps _ (fun x hx => hL x (List.mem_cons_of_mem _ hx)) _ _ h
    refine ⟨Q2, e2, g1.trans g3, ?_⟩
    rw [g4, g2, e]; rfl

/-- **C53.** The first argument list of a path is marked. (The lists begin with a token – `<`, or a bracketed group – that
is none of the path's identifiers and not a colon.) -/
theorem C53_first_marked (lead : Bool) (pre : List Str) (i : Str) (a : Args) (post : Segs) (ha : a ≠ .none)
    (hi : i ≠ c%":")
    (hl : ∀ l, Args.HasList l a ∨ Segs.HasList l post → ∃ c r, l = c :: r ∧ c ≠ c%":" ∧ c ≠ i ∧ c ∉ pre) (r : List Str)
    (h : (Ty.path .none lead (plainSegs pre (.cons i a post))).turbofish = some r) :
    ∃ Q, r = plainPath lead pre i ++ [c%":", c%":"] ++ Q ∧
      (a.toks ++ post.toks.flatMap ([c%":", c%":"] ++ ·)).Sublist Q ∧ Q.head? = a.toks.head? := by
  rw [Ty.turbofish, Ty.argLists, QSelf.argLists, List.nil_append, Ty.toks, QSelf.toks] at h
  exact visitAll_first ha hi hl h

/-- The same for the path of a trait. -/
theorem C53_first_marked_path (lead : Bool) (pre : List Str) (i : Str) (a : Args) (post : Segs) (ha : a ≠ .none)
    (hi : i ≠ c%":")
    (hl : ∀ l, Args.HasList l a ∨ Segs.HasList l post → ∃ c r, l = c :: r ∧ c ≠ c%":" ∧ c ≠ i ∧ c ∉ pre) (r : List Str)
    (h : (PathTy.mk lead (plainSegs pre (.cons i a post))).turbofish = some r) :
    ∃ Q, r = plainPath lead pre i ++ [c%":", c%":"] ++ Q ∧
      (a.toks ++ post.toks.flatMap ([c%":", c%":"] ++ ·)).Sublist Q ∧ Q.head? = a.toks.head? :=
  visitAll_first ha hi hl h

/-! ## Cases -/

namespace FishDemo

def tyT : Ty := .name c%"T"
def app (i : Str) (t : Ty) : Ty := .path .none false (.cons i (.angle false (.ty t .nil)) .nil)

/-- `a::Foo<Vec<T>>` becomes `a::Foo::<Vec::<T>>`. -/
def foo : Ty := .path .none false (plainSegs [c%"a"] (.cons c%"Foo" (.angle false (.ty (app c%"Vec" tyT) .nil)) .nil))

example : foo.turbofish = some [c%"a", c%":", c%":", c%"Foo", c%":", c%":", c%"<", c%"Vec", c%":", c%":", c%"<", c%"T",
    c%">", c%">"] := by decide +kernel

/-- The hypothesis of `C53_first_marked` holds of it. -/
example : ∀ l, Args.HasList l (.angle false (.ty (app c%"Vec" tyT) .nil)) ∨ Segs.HasList l .nil →
    ∃ c r, l = c :: r ∧ c ≠ c%":" ∧ c ≠ c%"Foo" ∧ c ∉ [c%"a"] := by
  intro l h
  simp only [Args.HasList, Pieces.HasList, app, tyT, Ty.name, Ty.HasList, Segs.HasList, or_false, Args.toks] at h
  rcases h with rfl | rfl
  · exact ⟨c%"<", _, rfl, by decide, by decide, by decide⟩
  · exact ⟨c%"<", _, rfl, by decide, by decide, by decide⟩

end FishDemo

open FishDemo in
/-- Exception: a later argument list of the path can be missed. In `A<T>::B<Vec<T>>` the list `<Vec<T>>` is no longer
found once the inner `<T>` is marked: `A::<T>::B<Vec::<T>>`. -/
theorem C53_later_missed :
    (Ty.path .none false (.cons c%"A" (.angle false (.ty tyT .nil))
      (.cons c%"B" (.angle false (.ty (app c%"Vec" tyT) .nil)) .nil))).turbofish =
    some [c%"A", c%":", c%":", c%"<", c%"T", c%">", c%":", c%":", c%"B", c%"<", c%"Vec", c%":", c%":", c%"<", c%"T",
      c%">", c%">"] := by decide +kernel

open FishDemo in
/-- Exception: a list that is already preceded by `::` gets another: `A::<T>` becomes `A::::<T>`. -/
theorem C53_doubled :
    (Ty.path .none false (.cons c%"A" (.angle true (.ty tyT .nil)) .nil)).turbofish =
    some [c%"A", c%":", c%":", c%":", c%":", c%"<", c%"T", c%">"] := by decide +kernel

open FishDemo in
/-- Exception: the brackets of `<T>::B<T>` are taken for an argument list: `::<T>::B::<T>`. -/
theorem C53_qualified_marked :
    (Ty.path (.some tyT 0) false (.cons c%"B" (.angle false (.ty tyT .nil)) .nil)).turbofish =
    some [c%":", c%":", c%"<", c%"T", c%">", c%":", c%":", c%"B", c%":", c%":", c%"<", c%"T", c%">"] := by
  decide +kernel

end TF
