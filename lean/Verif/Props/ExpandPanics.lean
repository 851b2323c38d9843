import Verif.Props.Expand

/-! # C67: a macro that does not succeed panics -/

namespace TF

open Spec

/-- The result is a value or a panic. -/
def Spec.OkOrPanic {α : Type} (x : Out α) : Prop := (∃ a, x = .ok a) ∨ x = .panic

theorem okp_ok {α : Type} (a : α) : OkOrPanic (.ok a) := .inl ⟨a, rfl⟩

theorem okp_panic {α : Type} : OkOrPanic (.panic : Out α) := .inr rfl

theorem okp_bind {α β : Type} {x : Out α} {f : α → Out β} (hx : OkOrPanic x) (hf : ∀ a, OkOrPanic (f a)) :
    OkOrPanic (x >>= f) := by
  rcases hx with ⟨a, rfl⟩ | rfl
  · exact hf a
  · exact .inr rfl

mutual

theorem ty_map_okp (m : GMap) : ∀ t : Ty, OkOrPanic (t.mapParams m)
  | .path q lead segs => by
    rw [Ty.mapParams]
    split
    · exact okp_ok _
    · exact okp_panic
    · exact okp_bind (qself_map_okp m q) fun _ => okp_bind (segs_map_okp m segs) fun _ => okp_ok _
  | .ref lt mu t => by rw [Ty.mapParams]; exact okp_bind (ty_map_okp m t) fun _ => okp_ok _
  | .slice t => by rw [Ty.mapParams]; exact okp_bind (ty_map_okp m t) fun _ => okp_ok _
  | .other ps => by rw [Ty.mapParams]; exact okp_bind (pieces_map_okp m ps) fun _ => okp_ok _

theorem qself_map_okp (m : GMap) : ∀ q : QSelf, OkOrPanic (q.mapParams m)
  | .none => okp_ok _
  | .some t pos => by rw [QSelf.mapParams]; exact okp_bind (ty_map_okp m t) fun _ => okp_ok _

theorem segs_map_okp (m : GMap) : ∀ s : Segs, OkOrPanic (s.mapParams m)
  | .nil => okp_ok _
  | .cons i a r => by
    rw [Segs.mapParams]; exact okp_bind (args_map_okp m a) fun _ => okp_bind (segs_map_okp m r) fun _ => okp_ok _

theorem args_map_okp (m : GMap) : ∀ a : Args, OkOrPanic (a.mapParams m)
  | .none => okp_ok _
  | .angle c ps => by rw [Args.mapParams]; exact okp_bind (pieces_map_okp m ps) fun _ => okp_ok _
  | .paren ps => by rw [Args.mapParams]; exact okp_bind (pieces_map_okp m ps) fun _ => okp_ok _

theorem pieces_map_okp (m : GMap) : ∀ p : Pieces, OkOrPanic (p.mapParams m)
  | .nil => okp_ok _
  | .tok s r => by rw [Pieces.mapParams]; exact okp_bind (pieces_map_okp m r) fun _ => okp_ok _
  | .group o c ps r => by
    rw [Pieces.mapParams]; exact okp_bind (pieces_map_okp m ps) fun _ => okp_bind (pieces_map_okp m r) fun _ => okp_ok _
  | .ty t r => by
    rw [Pieces.mapParams]; exact okp_bind (ty_map_okp m t) fun _ => okp_bind (pieces_map_okp m r) fun _ => okp_ok _
  | .path lead segs r => by
    rw [Pieces.mapParams]; exact okp_bind (segs_map_okp m segs) fun _ => okp_bind (pieces_map_okp m r) fun _ => okp_ok _

end

theorem expandQualified_okp (x : SelfCtx) (segs : Segs) : OkOrPanic (expandQualified x segs) := by
  unfold expandQualified
  split <;> first | exact okp_panic | exact okp_ok _

mutual

theorem ty_self_okp (x : SelfCtx) : ∀ t : Ty, OkOrPanic (t.expandSelf x)
  | .path q lead segs => by
    rw [Ty.expandSelf]
    split
    · exact okp_ok _
    · split
      · exact expandQualified_okp x segs
      · exact okp_bind (qself_self_okp x q) fun _ => okp_bind (segs_self_okp x segs) fun _ => okp_ok _
  | .ref lt mu t => by rw [Ty.expandSelf]; exact okp_bind (ty_self_okp x t) fun _ => okp_ok _
  | .slice t => by rw [Ty.expandSelf]; exact okp_bind (ty_self_okp x t) fun _ => okp_ok _
  | .other ps => by rw [Ty.expandSelf]; exact okp_bind (pieces_self_okp x ps) fun _ => okp_ok _

theorem qself_self_okp (x : SelfCtx) : ∀ q : QSelf, OkOrPanic (q.expandSelf x)
  | .none => okp_ok _
  | .some t pos => by rw [QSelf.expandSelf]; exact okp_bind (ty_self_okp x t) fun _ => okp_ok _

theorem segs_self_okp (x : SelfCtx) : ∀ s : Segs, OkOrPanic (s.expandSelf x)
  | .nil => okp_ok _
  | .cons i a r => by
    rw [Segs.expandSelf]; exact okp_bind (args_self_okp x a) fun _ => okp_bind (segs_self_okp x r) fun _ => okp_ok _

theorem args_self_okp (x : SelfCtx) : ∀ a : Args, OkOrPanic (a.expandSelf x)
  | .none => okp_ok _
  | .angle c ps => by rw [Args.expandSelf]; exact okp_bind (pieces_self_okp x ps) fun _ => okp_ok _
  | .paren ps => by rw [Args.expandSelf]; exact okp_bind (pieces_self_okp x ps) fun _ => okp_ok _

theorem pieces_self_okp (x : SelfCtx) : ∀ p : Pieces, OkOrPanic (p.expandSelf x)
  | .nil => okp_ok _
  | .tok s r => by rw [Pieces.expandSelf]; exact okp_bind (pieces_self_okp x r) fun _ => okp_ok _
  | .group o c ps r => by
    rw [Pieces.expandSelf]; exact okp_bind (pieces_self_okp x ps) fun _ => okp_bind (pieces_self_okp x r) fun _ => okp_ok _
  | .ty t r => by
    rw [Pieces.expandSelf]; exact okp_bind (ty_self_okp x t) fun _ => okp_bind (pieces_self_okp x r) fun _ => okp_ok _
  | .path lead segs r => by
    rw [Pieces.expandSelf]; exact okp_bind (segs_self_okp x segs) fun _ => okp_bind (pieces_self_okp x r) fun _ => okp_ok _

end

theorem argBasics_okp (im : ImplM) (n : Nat) (a : FnArg) : OkOrPanic (argBasics im n a) := by
  unfold argBasics
  split
  · split <;> first | exact okp_panic | exact okp_ok _
  · split
    · split
      · exact okp_ok _
      · exact okp_bind (ty_self_okp _ _) fun _ => okp_ok _
    · split
      · exact okp_ok _
      · exact okp_bind (ty_self_okp _ _) fun _ => okp_ok _
    · exact okp_panic

theorem mapArg_okp (im : ImplM) (c : Convs) (n : Nat) (a : FnArg) : OkOrPanic (mapArg im c n a) := by
  unfold mapArg
  refine okp_bind (argBasics_okp im n a) fun _ => ?_
  simp only
  split <;> exact okp_ok _

theorem mapArgs_okp (im : ImplM) (l : List FnArg) (c : Convs) (n : Nat) : OkOrPanic (mapArgs im c n l) := by
  induction l generalizing c n with
  | nil => exact okp_ok _
  | cons a l ih =>
    rw [mapArgs]
    exact okp_bind (mapArg_okp im c n a) fun _ => okp_bind (ih _ _) fun _ => okp_ok _

theorem argsFields_okp (x : ArgsIn) (n : Nat) : OkOrPanic (argsFields x n) := by
  unfold argsFields
  refine okp_bind (mapArgs_okp _ _ _ _) fun _ => ?_
  simp only
  split
  · exact okp_ok _
  · exact okp_panic

theorem calleeToks_okp (im : Option ImplIn) (o : AttrOpts) (name : Str) : OkOrPanic (calleeToks im o name) := by
  unfold calleeToks
  split
  · exact okp_ok _
  · refine okp_bind ?_ fun _ => okp_bind (ty_map_okp _ _) fun _ => ?_
    · unfold genericParamsMap
      split
      · exact okp_panic
      · exact okp_ok _
    · split
      · exact okp_ok _
      · refine okp_bind ?_ fun _ => okp_ok _
        unfold PathTy.mapParams
        exact okp_bind (segs_map_okp _ _) fun _ => okp_ok _

theorem mapMethodOrFn_okp (fz : Bool) (im : Option ImplIn) (o : AttrOpts) (f : FnIn) (n : Nat) :
    OkOrPanic (mapMethodOrFn fz im o f n) := by
  unfold mapMethodOrFn
  split
  · exact okp_panic
  · refine okp_bind ?_ fun _ => okp_bind (argsFields_okp _ _) fun _ => okp_bind ?_ fun _ =>
      okp_bind (calleeToks_okp _ _ _) fun _ => okp_bind ?_ fun _ => okp_ok _
    · unfold withDummyLifetimes
      simp only
      split
      · exact okp_panic
      · exact okp_ok _
    · unfold retTy
      split
      · exact okp_ok _
      · exact okp_ok _
      · exact ty_self_okp _ _
    · unfold identNew
      split
      · exact okp_panic
      · exact okp_ok _

theorem testFuzzOpts_okp (a : AttrM) : OkOrPanic a.testFuzzOpts := by
  unfold AttrM.testFuzzOpts
  split <;> first | exact okp_panic | exact okp_ok _

/-- **C67.** Expanding a target succeeds or panics: rustc reports an error at the attribute. -/
theorem C67_or_panics (fz : Bool) (args : AttrArgs) (f : FnIn) (n : Nat) : OkOrPanic (testFuzz fz args f n) := by
  unfold testFuzz
  exact okp_bind (testFuzzOpts_okp _) fun _ => mapMethodOrFn_okp _ _ _ _ _

theorem mapImplItems_okp (fz : Bool) (x : ImplIn) (items : List ItemIn) (n : Nat) :
    OkOrPanic (mapImplItems fz x items n) := by
  induction items generalizing n with
  | nil => exact okp_ok _
  | cons it l ih =>
    rw [mapImplItems]
    refine okp_bind ?_ fun _ => okp_bind (ih _) fun _ => okp_ok _
    unfold mapImplItem
    split
    · unfold mapImplItemFn
      split
      · exact okp_ok _
      · split
        · exact okp_panic
        · exact okp_bind (testFuzzOpts_okp _) fun _ => okp_bind (mapMethodOrFn_okp _ _ _ _ _) fun _ => okp_ok _
    · exact okp_ok _

/-- The same for impls. -/
theorem C67_impl_or_panics (fz : Bool) (x : ImplIn) (items : List ItemIn) (n : Nat) :
    OkOrPanic (testFuzzImpl fz x items n) := by
  unfold testFuzzImpl
  exact okp_bind (mapImplItems_okp _ _ _ _) fun _ => okp_ok _

/-- A panic: more lifetime arguments than lifetime parameters. -/
example : testFuzz false (.opts { genericArgs := some [.lifetime c%"a"] }) ⟨[], [], c%"f", [], [], none, []⟩ 0 = .panic := by
  decide +kernel

end TF
