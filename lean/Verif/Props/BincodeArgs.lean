import Verif.Props.Bincode
import Verif.Props.PostcardArgs
import Verif.Model.BincodeArgs

/-!
# C76: recorded arguments with the feature `serde_bincode`
-/

namespace TF

open Spec

section
variable {A : Type} {sd : Serde A} {has : Ty → A → Prop}

theorem binCodec_exact {fs : List FieldM} {ws : List (Val A)} (h : SerdeOk sd has fs)
    (hw : List.Forall₂ (fun f w => HasTy has w f.ty) fs ws) (r : Bytes) :
    let v := SVal.tuple (sd.serAll (schemaOf fs) ws)
    Small v →
    (claimed (.tuple (sd.schs (schemaOf fs))) v ≤ 2 ^ 30 →
        (binCodec sd).dec (schemaOf fs) (binSerialize v ++ r) = some ws) ∧
      (2 ^ 30 < claimed (.tuple (sd.schs (schemaOf fs))) v →
        (binCodec sd).dec (schemaOf fs) (binSerialize v ++ r) = none) := by
  intro v hv
  obtain ⟨h1, h2⟩ := serAll_conforms h hw
  obtain ⟨h3, h4⟩ := C76_round_trip _ _ (Conforms.tuple (h1 hv)) r
  constructor
  · intro hf
    simp only [binCodec]
    rw [show binDeserialize _ (binSerialize v ++ r) = some v from h3 hf]
    exact h2
  · intro hf
    simp only [binCodec]
    rw [show binDeserialize _ (binSerialize v ++ r) = none from h4 hf]

end

/-- **C76.** With bincode, for all parameter lists and values: recording always succeeds. If at most 1 GiB is claimed for
the values, whatever begins with the recorded bytes is replayed as a call with those values; otherwise, it is not replayed at
all. -/
theorem C76_arguments {A : Type} (S : Sem A) (has : Ty → A → Prop) (hS : Lawful S has) (sd : Serde A)
    (x : ArgsIn) (n n' : Nat) (fs : List FieldM) (h : argsFields x n = .ok (fs, n')) (tys : List Ty) (vs : List (Val A))
    (hcall : TypedCall S has x.impl x.convert x.inputs tys vs) (hbind : (hidingNames ++ x.inputs.filterMap (·.binder)).Nodup)
    (hnames : (ownNames x.inputs).Nodup) (hnum : ∀ i ∈ ownNames x.inputs, ¬ IsNumbered i) (hsd : SerdeOk sd has fs) :
    ∃ (args : ArgsVal A) (v : SVal), buildArgsVal S (recordingEnv (argEnv x.inputs vs)) fs = some args ∧
      v = .tuple (sd.serAll (schemaOf fs) (args.map (·.2.2))) ∧ serArgs S (binCodec sd) x.inputs fs vs = .ok (binSerialize v) ∧
      (Small v → claimed (.tuple (sd.schs (schemaOf fs))) v ≤ 2 ^ 30 → ∀ r,
        deArgs S (binCodec sd) tys fs (binSerialize v ++ r) = some vs) ∧
      (Small v → 2 ^ 30 < claimed (.tuple (sd.schs (schemaOf fs))) v → ∀ r,
        deArgs S (binCodec sd) tys fs (binSerialize v ++ r) = none) := by
  have hd := C55_distinct x n n' fs h hnames hnum
  obtain ⟨fs1, c', h1, rfl, -⟩ := argsFields_ok h
  obtain ⟨hF, -⟩ := mapArgs_ok (ofOpts_get_ne_none x.convert) h1
  obtain ⟨ws, g1, g2, g3⟩ := fields_build hS (phantomFields_idents x.generics n).2.2.2 hcall hF
    (env := recordingEnv (argEnv x.inputs vs)) (recordingEnv_get hbind)
  have hw : (((fs1 ++ (phantomFields n x.generics).1).zip ws).map fun p => (p.1.ident, p.1.ty, p.2)).map (·.2.2) = ws := by
    rw [List.map_map]
    exact List.map_snd_zip (Nat.le_of_eq g2.length_eq.symm)
  have key := binCodec_exact hsd g2
  refine ⟨_, .tuple (sd.serAll (schemaOf (fs1 ++ (phantomFields n x.generics).1)) ws), g1, by rw [hw], ?_, fun hv hf r => ?_, fun hv hf r => ?_⟩
  · unfold serArgs
    rw [g1]
    simp only [hw, binCodec]
  · unfold deArgs
    rw [(key r hv).1 hf]
    exact g3 _ (lookup_zip hd)
  · unfold deArgs
    rw [(key r hv).2 hf]

/-- **C76.** Which format a build uses: bincode with the feature `serde_bincode`, otherwise postcard; and it reads the one that
it writes. -/
theorem C76_feature {A : Type} (sd : Serde A) (p : Policy) (f : Features) :
    featureCodec sd p f = some (if f.bincode = true then binCodec sd else postCodec sd p) := by
  obtain ⟨b, q⟩ := f
  cases b <;> cases q <;> rfl

/-! ## The limit is not on the size of the file -/

/-- A sequence of numbers. -/
def numbers : List Nat → SVals
  | [] => .nil
  | n :: l => .cons (.uint n) (numbers l)

theorem numbers_length : ∀ l : List Nat, (numbers l).length = l.length
  | [] => rfl
  | n :: l => by rw [numbers, SVals.length, numbers_length l]; rfl

theorem numbers_conform : ∀ {l : List Nat}, (∀ n ∈ l, n ≤ 250) → AllConform (numbers l) (.uint .w64)
  | [], _ => .nil _
  | n :: l, h => .cons (.uint (Nat.lt_of_le_of_lt (h n (by simp)) (by decide)))
      (numbers_conform fun m hm => h m (List.mem_cons_of_mem _ hm))

theorem numbers_benc : ∀ {l : List Nat}, (∀ n ∈ l, n ≤ 250) → (numbers l).benc.length = l.length
  | [], _ => rfl
  | n :: l, h => by
    rw [numbers, SVals.benc, List.length_append, numbers_benc fun m hm => h m (List.mem_cons_of_mem _ hm), SVal.benc,
      binVarint, if_pos (h n (by simp)), List.length_cons]
    simp [Nat.add_comm]

theorem numbers_claimed : ∀ l : List Nat, total (claimed (.uint .w64)) (numbers l) = 8 * l.length
  | [] => rfl
  | n :: l => by
    rw [numbers, total, numbers_claimed l, claimed, octets, List.length_cons]
    omega

theorem leBytes_length : ∀ k n : Nat, (leBytes k n).length = k
  | 0, _ => rfl
  | k + 1, n => by rw [leBytes, List.length_cons, leBytes_length k]

/-- **C76.** The limit is not on the size of the file: a `Vec<u64>` of 2²⁷ numbers or more, all of them small, takes little
more than one byte per element, an eighth of the limit; but it is not read back. -/
theorem C76_small_file (l : List Nat) (hs : ∀ n ∈ l, n ≤ 250) (h1 : 2 ^ 27 ≤ l.length) (h2 : l.length < 2 ^ 64) (r : Bytes) :
    (binSerialize (.seq (numbers l))).length ≤ l.length + 9 ∧
      binDeserialize (.seq (.uint .w64)) (binSerialize (.seq (numbers l)) ++ r) = none := by
  constructor
  · have hl : (binVarint (numbers l).length).length ≤ 9 := by
      rw [numbers_length]
      unfold binVarint
      split
      · simp
      · split
        · simp [leBytes_length]
        · split
          · simp [leBytes_length]
          · simp [leBytes_length]
    unfold binSerialize
    rw [SVal.benc, List.length_append, numbers_benc hs]
    omega
  · refine (C76_round_trip (.seq (.uint .w64)) (.seq (numbers l)) (.seq (by rw [numbers_length]; exact h2) (numbers_conform hs)) r).2 ?_
    rw [claimed, numbers_claimed]
    omega

/-! ## Cases -/

namespace BinDemo

open PostDemo

/-- The values of `PostDemo` in bincode: 300 after a tag; -3 in one byte; the string after its length. -/
example : binSerialize val = [2, 1, 251, 0x2C, 0x01, 0, 5, 1, 2, 0xC3, 0xA9] := by decide +kernel

example : claimed sch val = 8 + (1 + 2) + 1 + 4 + (4 + (8 + 2)) := by decide +kernel

example (r : Bytes) : binDeserialize sch ([2, 1, 251, 0x2C, 0x01, 0, 5, 1, 2, 0xC3, 0xA9] ++ r) = some val := by
  have h := (C76_round_trip sch val conforms r).1
  rw [show binSerialize val = [2, 1, 251, 0x2C, 0x01, 0, 5, 1, 2, 0xC3, 0xA9] by decide +kernel] at h
  exact h (by rw [show claimed sch val = 30 by decide +kernel]; decide)

example : BinWrites val [2, 1, 251, 0x2C, 0x01, 0, 5, 1, 2, 0xC3, 0xA9] :=
  (C76_writes sch val conforms _).mp (by decide +kernel)

/-- `5u32` in a wider form is read, too; but not as a `u16`, and 255 is no tag. -/
example : binDeserialize (.uint .w32) [252, 5, 0, 0, 0, 7] = some (.uint 5) ∧
    binDeserialize (.uint .w16) [252, 5, 0, 0, 0, 7] = none ∧ binDeserialize (.uint .w32) [255, 5, 0, 0, 0, 7] = none ∧
    binDeserialize .char [0xC3, 0xA9, 1] = some (.char 'é') ∧ binDeserialize .char [0xC0, 0xA9, 1] = none := by decide +kernel

example (v : SVal) (h : binDeserialize (.uint .w32) [252, 5, 0, 0, 0, 7] = some v) (r : Bytes) :
    binDeserialize (.uint .w32) (binSerialize v ++ r) = some v := (C76_read_stable _ _ v h r).2

/-- The call of `RoundDemo`, in bincode. -/
example (r : Bytes) :
    serArgs RoundDemo.sem (binCodec RoundDemo.sd) RoundDemo.x.inputs RoundDemo.fields RoundDemo.vs = .ok [7, 2, 104, 105, 42] ∧
      deArgs RoundDemo.sem (binCodec RoundDemo.sd) RoundDemo.tys RoundDemo.fields ([7, 2, 104, 105, 42] ++ r)
        = some RoundDemo.vs := by
  obtain ⟨args, v, h0, hv, h1, h2, -⟩ := C76_arguments RoundDemo.sem RoundDemo.has RoundDemo.lawful RoundDemo.sd RoundDemo.x
    0 2 RoundDemo.fields RoundDemo.fields_eq RoundDemo.tys RoundDemo.vs RoundDemo.typed (by decide) (by decide)
    (by
      intro i hi
      simp [RoundDemo.x, ownNames] at hi
      rcases hi with rfl | rfl <;> (rintro ⟨n, h⟩; cases h)) RoundDemo.serdeOk
  refine ⟨rfl, ?_⟩
  obtain rfl : _ = args := Option.some.inj h0
  have hv : v = .tuple (.cons (.byte 7) (.cons (.string c%"hi") (.cons (.byte 42) (.cons .unit .nil)))) := hv
  subst hv
  have hl : (utf8Encode c%"hi").length < 2 ^ 64 := by decide +kernel
  refine h2 ?_ ?_ r
  · exact ⟨trivial, hl, trivial, trivial, trivial⟩
  · decide +kernel

/-- 2²⁷ zeros. -/
example (r : Bytes) : (binSerialize (.seq (numbers (List.replicate (2 ^ 27) 0)))).length ≤ 2 ^ 27 + 9 ∧
    binDeserialize (.seq (.uint .w64)) (binSerialize (.seq (numbers (List.replicate (2 ^ 27) 0))) ++ r) = none := by
  have h := C76_small_file (List.replicate (2 ^ 27) 0) (fun n hn => by rw [(List.mem_replicate.mp hn).2]; omega)
    (by rw [List.length_replicate]) (by rw [List.length_replicate]; decide) r
  rwa [List.length_replicate] at h

end BinDemo

end TF
