import Verif.Props.Truncated
import Verif.Props.EndToEnd

/-!
# The instantiations of a generic target: C96

The type name of `Args` says with which types a generic target was called. It is cut off before it becomes a directory.
-/

namespace TF

open Spec

theorem find_append {n h : Str} (hf : n <:+: h) (r : Str) : find n (h ++ r) = find n h := by
  cases hk : find n h with
  | none => exact absurd hf ((find_eq_none_iff n h).mp hk)
  | some k =>
    obtain ⟨h1, h2, h3⟩ := (find_eq_some_iff n h k).mp hk
    have hlen := h2.length_le
    rw [List.length_drop] at hlen
    refine (find_eq_some_iff n (h ++ r) k).mpr ⟨?_, ?_, fun j hj hp => h3 j hj ?_⟩
    · rw [List.length_append]; omega
    · rw [List.drop_append_of_le_length h1]
      exact h2.trans (List.prefix_append _ _)
    · rw [List.drop_append_of_le_length (by omega)] at hp
      exact List.prefix_of_prefix_length_le hp (List.prefix_append _ _) (by rw [List.length_drop]; omega)

theorem pathFromArgsType_append {h : Str} (hf : marker <:+: h) (r r' : Str) :
    pathFromArgsType (h ++ r) = pathFromArgsType (h ++ r') := by
  unfold pathFromArgsType
  rw [find_append hf, find_append hf]
  cases hk : find marker h with
  | none => rfl
  | some k =>
    have := ((find_eq_some_iff marker h k).mp hk).1
    simp only
    rw [List.take_append_of_le_length this, List.take_append_of_le_length this]

/-- **C96 (directories).** What a generic target is instantiated with makes no difference to where its recordings go. -/
theorem C96_directories (c : Ctx) (d : Decl) (g : Str) :
    corpusDirFromArgsType c (argsTypeName { d with generics := g }) = corpusDirFromArgsType c (argsTypeName d) ∧
    genericArgsDirFromArgsType c (argsTypeName { d with generics := g }) = genericArgsDirFromArgsType c (argsTypeName d) ∧
    implGenericArgsDirFromArgsType c (argsTypeName { d with generics := g }) = implGenericArgsDirFromArgsType c (argsTypeName d) := by
  have e : ∀ g, argsTypeName { d with generics := g } = (qualifiedName d ++ marker) ++ (c%"::Args" ++ g) := by
    intro g
    rw [argsTypeName_eq]
    rfl
  have h := pathFromArgsType_append (h := qualifiedName d ++ marker) (List.infix_append' _ _ []|> fun h => by simpa using h)
    (c%"::Args" ++ g) (c%"::Args" ++ d.generics)
  rw [← e, ← e] at h
  unfold corpusDirFromArgsType genericArgsDirFromArgsType implGenericArgsDirFromArgsType
  rw [h]
  exact ⟨rfl, rfl, rfl⟩

variable {V R : Type}

theorem runsAs_de (t : Target V) (b : Bytes) : RunsAs (R := R) t b (t.de b) := by
  cases h : t.de b with
  | none => exact runsAs_none h
  | some v => exact runsAs_some h

/-- **C96 (the corpus).** After any user code has run, with a corpus that was empty: what the harness `t` does with a file of the
corpus. The file was recorded for a call of some instantiation of the target. If it was the harness's own, the file runs as
this call. Otherwise it runs as whatever the harness's own types make of the bytes, or not at all. -/
theorem C96_corpus (decl : Target V → Decl) (c : Setting) (root : Path)
    (hroot : targetDirectory c.ctx false false = .ok root) (hid : IdOk c.ctx) (d : Decl) (hd : Nameable d)
    (p : Prog V R) (hdecl : ∀ x ∈ made p, x.1.typeName = argsTypeName (decl x.1) ∧ Nameable (decl x.1)) (D : Path)
    (hD : corpusDirFromTarget c.ctx d.krate (targetName d) = .ok D) (hl : Leaves D p) (s : Proc V R)
    (hook : s.hook ≠ .abort) (l : List (Ev V R)) (hlog : (p.run c s).2.log = s.log ++ l)
    (hn : ∀ k, .recordFailed k ∉ l)
    (hinj : ∀ a b, Recorded decl c.ctx.env c.test d (made p) a → Recorded decl c.ctx.env c.test d (made p) b →
      Sha1.digest a = Sha1.digest b → a = b)
    (hempty : ∀ n b, ¬ HasFile s.world.fs (D ++ [n]) b)
    (t : Target V) (hrt : ∀ v b, (t, v) ∈ made p → t.ser v = .ok b → t.de b = some v) (n : Str) (b : Bytes)
    (hb : HasFile (p.run c s).2.world.fs (D ++ [n]) b) :
    (∃ x ∈ made p, qualifiedName (decl x.1) = qualifiedName d ∧ x.1.ser x.2 = .ok b ∧
      (x.1 = t → RunsAs (R := R) t b (some x.2))) ∧
    RunsAs (R := R) t b (t.de b) := by
  rcases (C69_corpus decl c root hroot hid d hd p hdecl D hD hl s hook l hlog hn hinj n b).mp hb with ⟨⟨x, h1, -, -, h2, h3⟩, -⟩ | ⟨h, -⟩
  · refine ⟨⟨x, h1, h2, h3, ?_⟩, runsAs_de t b⟩
    rintro rfl
    exact runsAs_some (hrt _ _ h1 h3)
  · exact absurd h (hempty n b)

/-! ## Taken for something else -/

section
variable {A : Type}

/-- Values that take no space, like `PhantomData`. -/
def Spec.units : Nat → SVals
  | 0 => .nil
  | n + 1 => .cons .unit (Spec.units n)

theorem decAll_units (sd : Serde A) (p : Policy) (us : List (List Str × Ty)) (h : ∀ u ∈ us, sd.sch u = .unit) (buf : Nat) (b : Bytes) :
    (sd.schs us).decAll p buf b = some (units us.length, buf, b) := by
  induction us with
  | nil => rfl
  | cons u r ih =>
    have h1 := h u (by simp)
    have h2 := ih fun v hv => h v (by simp [hv])
    simp only [Serde.schs, Schs.decAll, h1, Sch.dec, Option.bind_eq_bind, Option.bind_some, h2, List.length_cons, units]

theorem bdecAll_units (sd : Serde A) (lim : Nat) (us : List (List Str × Ty)) (h : ∀ u ∈ us, sd.sch u = .unit) (n : Nat) (b : Bytes) :
    (sd.schs us).bdecAll lim n b = some (units us.length, n, b) := by
  induction us with
  | nil => rfl
  | cons u r ih =>
    have h1 := h u (by simp)
    have h2 := ih fun v hv => h v (by simp [hv])
    simp only [Serde.schs, Schs.bdecAll, h1, Sch.bdec, Option.bind_eq_bind, Option.bind_some, h2, List.length_cons, units]

/-- **C96 (taken for something else).** An example of what the harness's types make of another instantiation's recording: for
all strings of fewer than 128 bytes, in both formats. `t` is the type of the argument, a type parameter: `String` in the
call that is recorded, `u8` in the harness. `us`: the `PhantomData` fields. The harness calls the target with the length
of the string. -/
theorem C96_confused (rec own : Serde A) (p : Policy) (ft : Features) (cdr cdo : Codec A) (hr : featureCodec rec p ft = some cdr)
    (ho : featureCodec own p ft = some cdo) (t : List Str × Ty) (us : List (List Str × Ty)) (v : Val A) (ws : List (Val A)) (s : Str)
    (hv : rec.ser t v = .string s) (hs : (utf8Encode s).length < 128) (hown : own.sch t = .byte)
    (hus : ∀ u ∈ us, own.sch u = .unit) :
    ∃ b, cdr.enc (t :: us) (v :: ws) = .ok b ∧
      cdo.dec (t :: us) b = own.deAll (t :: us) (.cons (.byte (UInt8.ofNat (utf8Encode s).length)) (units us.length)) := by
  rw [C76_feature] at hr ho
  cases hr
  cases ho
  cases ft.bincode with
  | true =>
    refine ⟨_, rfl, ?_⟩
    have e : binVarint (utf8Encode s).length = [UInt8.ofNat (utf8Encode s).length] := if_pos (by omega)
    simp only [if_true, binCodec, Serde.serAll, hv, binSerialize, SVal.benc, SVals.benc, e, binDeserialize, Sch.bdec, Serde.schs,
      Schs.bdecAll, hown, List.cons_append, List.nil_append, takeClaimed, claim, byteLimit, takeExact]
    simp [bdecAll_units own _ us hus]
  | false =>
    refine ⟨_, rfl, ?_⟩
    have e : varint (utf8Encode s).length = [UInt8.ofNat (utf8Encode s).length] := if_pos hs
    simp only [Bool.false_eq_true, if_false, postCodec, Serde.serAll, hv, postSerialize, SVal.enc, SVals.enc, e, postDeserialize, Sch.dec, Serde.schs,
      Schs.decAll, hown, List.cons_append, List.nil_append]
    simp [decAll_units own p us hus]

end

/-! ## A case -/

namespace InstanceDemo

open RoundDemo

/-- `fn f<T>(x: T)`. -/
def g : ArgsIn := { impl := none, generics := [.ty c%"T"], convert := [], inputs := [.typed [] ⟨[c%"x"], true⟩ (.name c%"T")] }

def gFields : List FieldM :=
  [⟨[], c%"x", .name c%"T", .clone (.var c%"x"), some (.field c%"x")⟩,
   ⟨[], c%"_0", tyPhantom (.ty (.name c%"T") .nil), .phantom, none⟩]

theorem gFields_eq : argsFields g 0 = .ok (gFields, 1) := by decide +kernel

/-- With `T` a string. -/
def strings : Serde DV where
  sch := fun t => if t.2 = .name c%"T" then .string else .unit
  ser := fun _ v => match v with | .base (.str s) => .string s | _ => .unit
  de := fun _ v => match v with | .string s => some (.base (.str s)) | .unit => some (.base .unit) | _ => none

/-- With `T` a byte. -/
def bytes : Serde DV where
  sch := fun t => if t.2 = .name c%"T" then .byte else .unit
  ser := fun _ v => match v with | .base (.num n) => .byte (UInt8.ofNat n) | _ => .unit
  de := fun _ v => match v with | .byte b => some (.base (.num b.toNat)) | .unit => some (.base .unit) | _ => none

def target (sd : Serde DV) (types : Str) : Target (List (Val DV)) :=
  targetOf sem (postCodec sd .temp) { numStmts := 2 } (argsTypeName ⟨c%"k", [], c%"f", types⟩) (fun _ => []) (fun _ => [])
    [] g [.name c%"T"] gFields

def ofStrings : Target (List (Val DV)) := target strings c%"<alloc::string::String>"
def ofBytes : Target (List (Val DV)) := target bytes c%"<u8>"

/-- The two instantiations have different type names. -/
example : ofStrings.typeName ≠ ofBytes.typeName := by decide +kernel

/-- A test calls `f` with a string, with 7 and with 5. -/
def test : Prog (List (Val DV)) Nat :=
  .call ofStrings [.base (.str c%"hello")] (.ret 1) fun _ =>
  .call ofBytes [.base (.num 7)] (.ret 2) fun _ =>
  .call ofBytes [.base (.num 5)] (.ret 2) fun _ => .ret 0

def start : Proc (List (Val DV)) Nat :=
  ⟨⟨fun p => if p = [] ∨ p = [c%"w"] then some .dir else none, 0⟩, .other 7, false, []⟩

def here : Setting := HarnessDemo.setting [] []
def corpus : Path := [c%"w", c%"corpus", c%"k::f"]

/-- All three are in one corpus. -/
example : HasFile (test.run here start).2.world.fs (corpus ++ [fileName [5, 104, 101, 108, 108, 111]]) [5, 104, 101, 108, 108, 111] ∧
    HasFile (test.run here start).2.world.fs (corpus ++ [fileName [7]]) [7] ∧
    HasFile (test.run here start).2.world.fs (corpus ++ [fileName [5]]) [5] := by
  refine ⟨?_, ?_, ?_⟩ <;> (unfold HasFile; decide +kernel)

/-- The call with `"hello"` is run as one with 5. -/
example : RunsAs (R := Nat) ofBytes [5, 104, 101, 108, 108, 111] (some [.base (.num 5)]) := runsAs_some rfl

/-- In both formats. -/
example (p : Policy) (ft : Features) (cdr cdo : Codec DV) (hr : featureCodec strings p ft = some cdr)
    (ho : featureCodec bytes p ft = some cdo) :
    ∃ b, cdr.enc (schemaOf gFields) [.base (.str c%"hello"), .base .unit] = .ok b ∧
      cdo.dec (schemaOf gFields) b = some [.base (.num 5), .base .unit] :=
  C96_confused strings bytes p ft cdr cdo hr ho _ [_] (.base (.str c%"hello")) [.base .unit] c%"hello" rfl (by decide +kernel) rfl
    (fun u hu => by cases List.mem_singleton.mp hu; rfl)

def declOf (t : Target (List (Val DV))) : Decl :=
  ⟨c%"k", [], c%"f", if t.typeName = ofBytes.typeName then c%"<u8>" else c%"<alloc::string::String>"⟩

/-- The hypotheses of `C96_corpus` hold. -/
example : targetDirectory here.ctx false false = .ok [c%"w"] ∧ IdOk here.ctx ∧ Nameable (declOf ofBytes) ∧
    (∀ x ∈ made test, x.1.typeName = argsTypeName (declOf x.1) ∧ Nameable (declOf x.1)) ∧
    corpusDirFromTarget here.ctx (declOf ofBytes).krate (targetName (declOf ofBytes)) = .ok corpus ∧
    Leaves corpus test ∧ start.hook ≠ .abort ∧ (∀ k, .recordFailed k ∉ (test.run here start).2.log) ∧
    (∀ n b, ¬ HasFile start.world.fs (corpus ++ [n]) b) ∧
    (∀ v b, (ofBytes, v) ∈ made test → ofBytes.ser v = .ok b → ofBytes.de b = some v) := by
  have n1 : Nameable ⟨c%"k", [], c%"f", c%"<u8>"⟩ :=
    ⟨by unfold MarkerFree; decide +kernel, by unfold NoSlash; decide +kernel, by unfold NoSlash; decide +kernel, by decide +kernel⟩
  have n2 : Nameable ⟨c%"k", [], c%"f", c%"<alloc::string::String>"⟩ :=
    ⟨by unfold MarkerFree; decide +kernel, by unfold NoSlash; decide +kernel, by unfold NoSlash; decide +kernel, by decide +kernel⟩
  have e1 : declOf ofBytes = ⟨c%"k", [], c%"f", c%"<u8>"⟩ := by unfold declOf; rw [if_pos rfl]
  have e2 : declOf ofStrings = ⟨c%"k", [], c%"f", c%"<alloc::string::String>"⟩ := by unfold declOf; rw [if_neg (by decide +kernel)]
  refine ⟨rfl, ?_, e1 ▸ n1, ?_, by decide +kernel, ?_, by decide, ?_, ?_, ?_⟩
  · intro id h; simp [maybeId, here, HarnessDemo.setting, Env.var] at h
  · intro x hx
    have : x = (ofStrings, [.base (.str c%"hello")]) ∨ x = (ofBytes, [.base (.num 7)]) ∨ x = (ofBytes, [.base (.num 5)]) := by
      simpa [made, test, plain] using hx
    rcases this with rfl | rfl | rfl
    · exact ⟨by decide +kernel, e2 ▸ n2⟩
    · exact ⟨by decide +kernel, e1 ▸ n1⟩
    · exact ⟨by decide +kernel, e1 ▸ n1⟩
  · simp [Leaves, test]
  · intro k
    have : (test.run here start).2.log.all (fun e => match e with | .recordFailed _ => false | _ => true) = true := by decide +kernel
    intro h
    have := List.all_eq_true.mp this _ h
    cases this
  · intro n b; simp [HasFile, start, corpus]
  · intro v b hv hs
    have : (ofBytes, v) = (ofStrings, [.base (.str c%"hello")]) ∨ v = [.base (.num 7)] ∨ v = [.base (.num 5)] := by
      simpa [made, test, plain] using hv
    rcases this with h | rfl | rfl
    · have h1 : ofBytes.typeName = ofStrings.typeName := congrArg (fun z => z.1.typeName) h
      exact absurd h1 (by decide +kernel)
    · cases hs; rfl
    · cases hs; rfl

end InstanceDemo

end TF
