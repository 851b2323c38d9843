import Verif.Props.TyText
import Verif.Props.ArgsList

/-!
# C15: conversions are for types, not for texts

Conversions are looked up by the tokens of a type (`OrdType`). Types with the same tokens are the same.
-/

namespace TF

open Spec

/-- **C15.** Different types have different keys. -/
theorem C15_same_key {t u : Ty} (ht : WTy t) (hu : WTy u) : t.toks = u.toks ↔ t = u :=
  ⟨fun h => (ty_u ht u [] [] hu typeEnds_nil typeEnds_nil (by rw [h])).1, fun h => h ▸ rfl⟩

theorem Spec.WTy.deref {lt : Option Str} {m : Bool} {t : Ty} (h : WTy (.ref lt m t)) : WTy t := by
  cases h with
  | ref _ h => exact h

theorem considered_iff {cv : List (Ty × Ty)} (hcv : ∀ p ∈ cv, WTy p.1) {t u : Ty} (ht : WTy t) :
    Considered cv t u ↔ Applies cv t u := by
  constructor
  · intro h
    induction h with
    | here t => exact .here t
    | ref lt m hn hp hs _ ih => exact .ref lt m (fun p hp' e => hn ⟨p, hp', by rw [e]⟩) hp hs (ih ht.deref)
  · intro h
    induction h with
    | here t => exact .here t
    | ref lt m hn hp hs _ ih =>
      exact .ref lt m (fun ⟨p, hp', e⟩ => hn p hp' ((C15_same_key (hcv p hp') ht).mp e)) hp hs (ih ht.deref)

theorem Spec.Applies.written {cv : List (Ty × Ty)} {t u : Ty} (h : Applies cv t u) (ht : WTy t) : WTy u := by
  induction h with
  | here t => exact ht
  | ref lt m _ _ _ _ ih => exact ih ht.deref

/-- **C15.** The macro accepts the conversions just if each is for the type of an argument, or for a type behind references in it. -/
theorem C15_types (x : ArgsIn) (n : Nat) (hcv : ∀ p ∈ x.convert, WTy p.1)
    (hin : ∀ a ∈ x.inputs, ∀ t, ArgTy x.impl a t → WTy t) :
    (∃ r, argsFields x n = .ok r) ↔ (∀ a ∈ x.inputs, ∃ t, ArgTy x.impl a t) ∧
      ∀ p ∈ x.convert, ∃ a ∈ x.inputs, a.attrs = [] ∧ ∃ t, ArgTy x.impl a t ∧ Applies x.convert t p.1 := by
  rw [C15_all_used]
  refine and_congr_right fun _ => forall_congr' fun p => forall_congr' fun hp => exists_congr fun a => and_congr_right fun ha =>
    and_congr_right fun _ => exists_congr fun t => ?_
  constructor
  · rintro ⟨u, ht, hc, e⟩
    have hw := hin a ha t ht
    have hap := (considered_iff hcv hw).mp hc
    exact ⟨ht, (C15_same_key (hap.written hw) (hcv p hp)).mp e ▸ hap⟩
  · rintro ⟨ht, hap⟩
    exact ⟨p.1, ht, (considered_iff hcv (hin a ha t ht)).mpr hap, rfl⟩

/-- **C15.** The last conversion for the type of an argument is the one that is applied. -/
theorem C15_last_for_type (x : ArgsIn) (n n' : Nat) (fs : List FieldM) (h : argsFields x n = .ok (fs, n')) (k : Nat) (a : FnArg)
    (ha : x.inputs[k]? = some a) (hat : a.attrs = []) (t : Ty) (ht : ArgTy x.impl a t) (hw : WTy t) (l1 l2 : List (Ty × Ty))
    (b : Ty) (hcv : x.convert = l1 ++ (t, b) :: l2) (hl : ∀ q ∈ l2, WTy q.1 ∧ q.1 ≠ t) :
    ∃ f v, fs[k]? = some f ∧ f.ty = b ∧ f.ser = .fromRef b t (.var v) ∧ f.de = some (.into f.ident) :=
  C15_last_wins x n n' fs h k a ha hat t ht l1 l2 (t, b) hcv rfl fun q hq e => (hl q hq).2 ((C15_same_key (hl q hq).1 hw).mp e)

/-! ## An example -/

namespace TyTextDemo

def isWord (s : Str) : Bool := s ≠ [] && s.all fun c => !(c%" ()[]{}<>&*!:;,'").contains c

theorem isWord_of {s : Str} (h : isWord s = true) : IsWord s := by
  simp only [isWord, Bool.and_eq_true, List.all_eq_true, decide_eq_true_eq] at h
  exact ⟨h.1, fun c hc hm => by simpa [hm] using h.2 c hc⟩

theorem name_of {s : Str} (h : isWord s = true) (h1 : (s.head?.map Char.isDigit) = some false)
    (h2 : s ∉ [c%"mut", c%"const", c%"as", c%"_", c%"dyn", c%"impl"]) : IsName s :=
  ⟨isWord_of h, fun c hc => by simpa [hc] using h1, h2⟩

/-- `&'a mut [a::B<C, 3>]` -/
def one : Ty := .ref (some c%"a") true (.slice (.path .none false (.cons c%"a" .none (.cons c%"B" (.angle false
  (.ty (.name c%"C") (.tok c%"," (.tok c%"3" .nil)))) .nil))))

/-- `<(C, [u8; 4]) as a::B>::C` -/
def two : Ty := .path (.some (.other (.group c%"(" c%")" (.ty (.name c%"C") (.tok c%"," (.ty (.other (.group c%"[" c%"]"
  (.ty (.name c%"u8") (.tok c%";" (.tok c%"4" .nil))) .nil)) .nil))) .nil)) 2) false
  (.cons c%"a" .none (.cons c%"B" .none (.cons c%"C" .none .nil)))

theorem named {s : Str} (h : IsName s) : WTy (.name s) := .path (.one h .none)

theorem wone : WTy one :=
  .ref (fun l hl => by cases hl; exact name_of (by decide) (by decide) (by decide)) (.slice (.path
    (.more (name_of (by decide) (by decide) (by decide)) .none (.one (name_of (by decide) (by decide) (by decide))
      (.angle (.ty (named (name_of (by decide) (by decide) (by decide))) (.comma (.literal ⟨isWord_of (by decide), '3', rfl, by decide⟩
        .nil))))))))

theorem wtwo : WTy two :=
  .qualified (.tuple (.ty (named (name_of (by decide) (by decide) (by decide))) (.comma (.ty (.array
    (named (name_of (by decide) (by decide) (by decide))) (isWord_of (by decide))) .nil)))) (by decide)
    (.more (name_of (by decide) (by decide) (by decide)) .none (.more (name_of (by decide) (by decide) (by decide)) .none
      (.one (name_of (by decide) (by decide) (by decide)) .none)))

example : one.toks ≠ two.toks := by
  rw [Ne, C15_same_key wone wtwo]
  exact fun h => nomatch h

example : one.toks = [c%"&", c%"'", c%"a", c%"mut", c%"[ a : : B < C , 3 >]"] ∧
    two.toks = [c%"<", c%"( C , [ u8 ; 4])", c%"as", c%"a", c%":", c%":", c%"B", c%">", c%":", c%":", c%"C"] := by
  decide +kernel

/-- `dyn a::B<C> + 'a`, and the same without the lifetime. -/
def three (r : Pieces) : Ty := .other (.tok c%"dyn" (.path false (.cons c%"a" .none (.cons c%"B" (.angle false
  (.ty (.name c%"C") .nil)) .nil)) r))

theorem wthree {r : Pieces} (h : WMore r) : WTy (three r) :=
  .bounds (by decide) (.trait (.more (name_of (by decide) (by decide) (by decide)) .none (.one (name_of (by decide) (by decide)
    (by decide)) (.angle (.ty (named (name_of (by decide) (by decide) (by decide))) .nil)))) h)

example : (three (.tok c%"+" (.tok c%"'" (.tok c%"a" .nil)))).toks ≠ (three .nil).toks := by
  rw [Ne, C15_same_key (wthree (.plus (.lifetime (name_of (by decide) (by decide) (by decide)) .nil))) (wthree .nil)]
  exact fun h => nomatch h

end TyTextDemo

end TF
