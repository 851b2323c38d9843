import Verif.Model.Utils
import Verif.Props.Postcard
import Verif.Props.Args

/-!
# C50: `dont_care!` and `leak!`
-/

namespace TF

open Spec

/-! ## `dont_care!` -/

section
variable {A : Type}

namespace Spec

/-- The fields that are taken care of. -/
def cared : List (FieldV A) → List SVal
  | [] => []
  | .plain v :: l => v :: cared l
  | .dontCare _ :: l => cared l

def toSVals : List SVal → SVals
  | [] => .nil
  | v :: l => .cons v (toSVals l)

/-- Values of a struct's fields. -/
inductive OfType : List (FieldV A) → List (FieldT A) → Prop
  | nil : OfType [] []
  | plain {v : SVal} {s : Sch} {l : List (FieldV A)} {ts : List (FieldT A)} : Conforms v s → OfType l ts →
      OfType (.plain v :: l) (.plain s :: ts)
  | dontCare {l : List (FieldV A)} {ts : List (FieldT A)} (a expr : A) : OfType l ts →
      OfType (.dontCare a :: l) (.dontCare expr :: ts)

/-- The same with the given expressions in place of the values that are not taken care of. -/
def initialised : List (FieldV A) → List (FieldT A) → List (FieldV A)
  | .plain v :: l, _ :: ts => .plain v :: initialised l ts
  | .dontCare _ :: l, .dontCare expr :: ts => .dontCare expr :: initialised l ts
  | _, _ => []

end Spec

theorem serFields_enc : ∀ l : List (FieldV A), (serFields l).enc = (cared l).flatMap SVal.enc
  | [] => rfl
  | .plain v :: l => by rw [serFields, SVals.enc, cared, List.flatMap_cons, serFields_enc l]
  | .dontCare a :: l => by rw [serFields, SVals.enc, cared, serFields_enc l]; rfl

theorem serFields_chunks : ∀ l : List (FieldV A), chunksAll (serFields l) = (cared l).flatMap chunks
  | [] => rfl
  | .plain v :: l => by rw [serFields, chunksAll, cared, List.flatMap_cons, serFields_chunks l]
  | .dontCare a :: l => by rw [serFields, chunksAll, cared, serFields_chunks l]; rfl

theorem serFields_conforms {l : List (FieldV A)} {ts : List (FieldT A)} (h : OfType l ts) :
    EachConforms (serFields l) (schFields ts) ∧ deFields ts (serFields l) = some (initialised l ts) := by
  induction h with
  | nil => exact ⟨.nil, rfl⟩
  | plain hv _ ih => exact ⟨.cons hv ih.1, by simp [deFields, serFields, ih.2, initialised]⟩
  | dontCare a expr _ ih =>
    exact ⟨.cons .unit ih.1, by simp [deFields, serFields, ih.2, initialised, dontCareDe, dontCareSer]⟩

end

/-- **C50.** Values of `dont_care!` types take no space, wherever they are: the bytes are those of the other fields, one after
the other. -/
theorem C50_no_space {A : Type} (l : List (FieldV A)) :
    postSerialize (.tuple (serFields l)) = (cared l).flatMap postSerialize := serFields_enc l

/-- **C50.** They read back as the given expression, and the other fields read back as they were – whatever the values are
and whatever follows – if those fit in the sliding buffer. -/
theorem C50_reads {A : Type} (p : Policy) (l : List (FieldV A)) (ts : List (FieldT A)) (h : OfType l ts)
    (hf : Fits p (.tuple (toSVals (cared l))) 2048) (r : Bytes) :
    readFields p ts ((cared l).flatMap postSerialize ++ r) = some (initialised l ts) := by
  obtain ⟨h1, h2⟩ := serFields_conforms h
  have hc : chunks (.tuple (serFields l)) = chunks (.tuple (toSVals (cared l))) := by
    have h : ∀ l : List SVal, chunksAll (toSVals l) = l.flatMap chunks := by
      intro l
      induction l with
      | nil => rfl
      | cons v l ih => rw [toSVals, chunksAll, ih, List.flatMap_cons]
    exact (serFields_chunks l).trans (h _).symm
  have hfit : Fits p (.tuple (serFields l)) 2048 := by
    cases p with
    | temp => rw [Fits] at hf ⊢; rw [hc]; exact hf
    | keep => rw [Fits] at hf ⊢; rw [hc]; exact hf
  rw [← C50_no_space, readFields, (C16_round_trip p _ _ (.tuple h1) r).1 hfit]
  exact h2

/-! ## `leak!` -/

section
variable {A : Type}

/-- `<ty as ToOwned>::Owned` -/
inductive Spec.Owned : Ty → Ty → Prop
  | str (lead : Bool) : Owned (.path .none lead (.cons c%"str" .none .nil)) (.name c%"String")
  | slice (t : Ty) : Owned (.slice t) (.path .none false (.cons c%"Vec" (.angle false (.ty t .nil)) .nil))
  | self {t : Ty} : Opaque t → Owned t t

theorem withLeak_lawful {S : Sem A} {has : Ty → A → Prop} (hS : Lawful S has) (ty : Ty) (ident : Str) :
    Lawful (S.withLeak ty ident) has where
  clone_eq := hS.clone_eq
  asStr_string := hS.asStr_string
  asSlice_vec := hS.asSlice_vec
  string_has := hS.string_has
  vec_has := hS.vec_has
  phantom_has := hS.phantom_has

/-- Length of the tokens of what is behind a reference. -/
theorem behind_toks {v u : Val A} {t s : Ty} (h : Behind v t u s) : (v = u ∧ t = s) ∨ s.toks.length < t.toks.length := by
  induction h with
  | here => exact .inl ⟨rfl, rfl⟩
  | ref lt m _ ih =>
    refine .inr ?_
    rw [Ty.toks]
    simp only [List.length_append, List.length_cons, List.length_nil]
    rcases ih with ⟨-, rfl⟩ | ih <;> omega

theorem toOwned_ok {S : Sem A} {has : Ty → A → Prop} (hS : Lawful S has) {ty o : Ty} (ho : Owned ty o) {u : Val A}
    (hu : HasTy has u ty) : has o (toOwned S u) ∧ derefTo S ty (toOwned S u) = u := by
  cases ho with
  | str lead =>
    cases hu with
    | base ha _ => exact absurd ⟨lead, rfl⟩ ha
    | str s =>
      refine ⟨hS.string_has s, ?_⟩
      rw [toOwned, derefTo, if_pos (matchTypePath_str (lead := lead).mpr ⟨lead, rfl⟩), hS.asStr_string]
  | slice t =>
    cases hu with
    | base ha _ => exact ha.elim
    | slice hl =>
      rename_i l
      have : l.map S.clone = l := by
        conv_rhs => rw [← List.map_id l]
        exact List.map_congr_left fun a _ => hS.clone_eq a
      rw [toOwned, this]
      exact ⟨hS.vec_has l t hl, by rw [derefTo, hS.asSlice_vec]⟩
  | self hop =>
    cases hu with
    | base _ ha =>
      rw [toOwned, hS.clone_eq]
      refine ⟨ha, ?_⟩
      cases ty with
      | path q lead segs => rw [derefTo, if_neg fun h => hop (matchTypePath_str.mp h)]
      | other ps => rfl
      | slice t => exact hop.elim
      | ref lt m t => exact hop.elim
    | str s lead => exact absurd ⟨lead, rfl⟩ hop
    | slice => exact hop.elim
    | ref => exact hop.elim

theorem leak_inverse {S : Sem A} {has : Ty → A → Prop} (hS : Lawful S has) {ty o : Ty} (ho : Owned ty o) (ident : Str)
    (hid : ∀ a, has o a → has (.name ident) a) (hstr : ident ≠ c%"str") (lt : Option Str) {v : Val A}
    (hv : HasTy has v (.ref lt false ty)) :
    Inverse (S.withLeak ty ident) has [(.ref lt false ty, .name ident)] v (.ref lt false ty) := by
  intro u s a hb hp
  simp only [List.mem_singleton, exists_eq_left] at hp
  obtain ⟨hp, rfl⟩ := hp
  rcases behind_toks hb with ⟨rfl, rfl⟩ | hlt
  · cases hv with
    | base ha _ => exact ha.elim
    | ref _ _ hu =>
      rename_i u
      obtain ⟨h1, h2⟩ := toOwned_ok hS ho hu
      have hfrom : (S.withLeak ty ident).fromRef (.name ident) (.ref lt false ty) (.ref false u) = toOwned S u := by
        simp [Sem.withLeak]
      rw [hfrom]
      refine ⟨.base ?_ (hid _ h1), ?_⟩
      · rintro ⟨lead, hl⟩
        simp only [Ty.name, Ty.path.injEq, Segs.cons.injEq] at hl
        exact hstr hl.2.2.1
      · simp [Sem.withLeak, h2]
  · rw [hp] at hlt
    omega

end

/-- **C50.** An argument of type `&ty` with the option `convert = "&ty, ident"` for `leak!(ty, ident)` – where `ty` is `str`, a
slice, or any other type but a reference – is recorded as an owned value, and the target is called with a reference to an equal
value. -/
theorem C50_leak {A : Type} (S : Sem A) (has : Ty → A → Prop) (hS : Lawful S has) (ty o : Ty) (ho : Owned ty o) (ident : Str)
    (hid : ∀ a, has o a → has (.name ident) a) (hstr : ident ≠ c%"str") (lt : Option Str) (v : Val A)
    (hv : HasTy has v (.ref lt false ty)) (env : Str → Option (Val A)) (x : Str) (e : SerE)
    (he : e.eval (S.withLeak ty ident) env = some v) :
    let r := mapTypedArg x (Convs.ofOpts [(.ref lt false ty, .name ident)]) e (.ref lt false ty)
    r.ty = .name ident ∧ ∃ w, r.ser.eval (S.withLeak ty ident) env = some w ∧ HasTy has w (.name ident) ∧
      ∀ args : ArgsVal A, args.lookup x = some (.name ident, w) →
        r.de.eval (S.withLeak ty ident) args (.ref lt false ty) = some v := by
  intro r
  have hr : r.ty = .name ident := by
    have : (Convs.ofOpts [(.ref lt false ty, .name ident)]).get (.ref lt false ty) = some (.name ident) := by
      simp [Convs.ofOpts, Convs.insert, Convs.get]
    show (mapTypedArg x (Convs.ofOpts [(.ref lt false ty, .name ident)]) e (.ref lt false ty)).ty = .name ident
    unfold mapTypedArg
    simp only [this]
  refine ⟨hr, ?_⟩
  have := C14_loss_free (S.withLeak ty ident) has (withLeak_lawful hS ty ident) [(.ref lt false ty, .name ident)] env x e
    (.ref lt false ty) v hv trivial (leak_inverse hS ho ident hid hstr lt hv) he
  obtain ⟨w, h1, h2, h3⟩ := this
  refine ⟨w, h1, ?_, fun args ha => h3 args ?_⟩
  · rw [← hr]; exact h2
  · rw [ha]
    exact congrArg (fun t => some (t, w)) hr.symm

/-- **C50.** Other conversions are not affected by `leak!`. -/
theorem C50_leak_local {A : Type} (S : Sem A) (ty : Ty) (ident : Str) (t t' : Ty) (v : Val A) :
    (t ≠ .name ident → (S.withLeak ty ident).fromRef t t' v = S.fromRef t t' v ∧
      (S.withLeak ty ident).into t t' v = S.into t t' v) ∧
    ((∀ lt, t' ≠ .ref lt false ty) → (S.withLeak ty ident).fromRef t t' v = S.fromRef t t' v ∧
      (S.withLeak ty ident).into t t' v = S.into t t' v) := by
  refine ⟨fun h => ⟨?_, ?_⟩, fun h => ⟨?_, ?_⟩⟩ <;> simp only [Sem.withLeak] <;> split <;> try rfl
  all_goals rw [if_neg]
  · exact fun h' => h h'.1
  · exact fun h' => h h'.1
  · rintro ⟨-, rfl⟩; exact h _ rfl
  · rintro ⟨-, rfl⟩; exact h _ rfl

/-! ## Cases -/

namespace UtilsDemo

/-- `(u8, Handle, String)` with `dont_care!(Handle, 0)`. -/
def ts : List (FieldT Nat) := [.plain .byte, .dontCare 0, .plain .string]

def vs : List (FieldV Nat) := [.plain (.byte 9), .dontCare 77, .plain (.string c%"hi")]

theorem ofType : OfType vs ts := .plain (.byte 9) (.dontCare _ _ (.plain (.string (by decide +kernel)) .nil))

example : postSerialize (.tuple (serFields vs)) = [9, 2, 104, 105] := by decide +kernel

example (r : Bytes) : readFields .keep ts ([9, 2, 104, 105] ++ r) =
    some [.plain (.byte 9), .dontCare 0, .plain (.string c%"hi")] := by
  have h := C50_reads .keep vs ts ofType (by show List.sum _ ≤ 2048; decide +kernel) r
  have hb : (cared vs).flatMap postSerialize = [9, 2, 104, 105] := by decide +kernel
  rw [hb] at h
  exact h

/-- Strings and vectors of them. -/
inductive W where
  | str (s : Str)
  | vec (l : List W)

def semW : Sem W where
  clone := id
  string := .str
  asStr := fun | .str s => s | _ => []
  vec := .vec
  asSlice := fun | .vec l => l | _ => []
  phantom := .vec []
  fromRef := fun _ _ _ => .vec []
  into := fun _ _ v => v

theorem lawful : Lawful semW fun _ _ => True where
  clone_eq _ := rfl
  asStr_string _ := rfl
  asSlice_vec _ := rfl
  string_has _ := trivial
  vec_has _ _ _ := trivial
  phantom_has _ := trivial

/-- `leak!(str, LeakedStr)` -/
example (e : SerE) (env : Str → Option (Val W)) (he : e.eval (semW.withLeak (.name c%"str") c%"LeakedStr") env = some (.ref false (.str c%"hi"))) :=
  C50_leak semW (fun _ _ => True) lawful (.name c%"str") (.name c%"String") (.str false) c%"LeakedStr" (fun _ _ => trivial)
    (by decide) none (.ref false (.str c%"hi")) (.ref _ _ (.str _ _)) env c%"x" e he

end UtilsDemo

end TF
