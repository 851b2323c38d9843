import Verif.Props.PostcardWire
import Verif.Props.BincodeArgs
import Verif.Props.RoundTrip
import Verif.Props.Recording
import Verif.Props.ConcWrite
import Verif.Props.Lifetimes

/-!
# Inputs that were not recorded completely: C95

A recording that is interrupted leaves the beginning of the data. No such file is taken for the recording of another call.
-/

namespace TF

open Spec

/-- **C95 (postcard).** No proper beginning of what is written for a value is read, as that value or as another. -/
theorem C95_postcard (p : Policy) (s : Sch) (v : SVal) (h : Conforms v s) (b r : Bytes) (hb : postSerialize v = b ++ r) (hr : r ≠ []) :
    postDeserialize p s b = none := by
  cases hd : postDeserialize p s b with
  | none => rfl
  | some w =>
    obtain ⟨l, pre, r', rfl, h1, h2⟩ := (C16_reads p s b w).mp hd
    obtain ⟨u, hu⟩ := roomFor_iff.mp h2
    have e1 : s.dec p 2048 (v.enc ++ []) = ReadsBack p l w 2048 (r' ++ r) := by
      rw [← reads_dec p h1, List.append_nil, show v.enc = postSerialize v from rfl, hb, List.append_assoc]
    rw [dec_enc p h, ReadsBack, ReadsBack, hu] at e1
    cases ht : p.takes (chunks v) 2048 with
    | none => rw [ht] at e1; cases e1
    | some z =>
      rw [ht] at e1
      simp only [Option.map_some, Option.some.injEq, Prod.mk.injEq] at e1
      exact absurd (List.append_eq_nil_iff.mp e1.2.2.symm).2 hr

/-- **C95 (bincode).** The same, with the feature `serde_bincode`. -/
theorem C95_bincode (s : Sch) (v : SVal) (h : Conforms v s) (b r : Bytes) (hb : binSerialize v = b ++ r) (hr : r ≠ []) :
    binDeserialize s b = none := by
  cases hd : binDeserialize s b with
  | none => rfl
  | some w =>
    obtain ⟨k, pre, r', rfl, h1, -⟩ := (C76_reads s b w).mp hd
    have e : binSerialize v ++ [] = pre ++ (r' ++ r) := by rw [List.append_nil, hb, List.append_assoc]
    obtain ⟨-, e2⟩ := binReads_prefix (conforms_binReads h) h1 e
    exact absurd (List.append_eq_nil_iff.mp e2.symm).2 hr

section
variable {A : Type} {sd : Serde A} {has : Ty → A → Prop}

theorem postCodec_truncated (p : Policy) {fs : List FieldM} {ws : List (Val A)} (h : SerdeOk sd has fs)
    (hw : List.Forall₂ (fun f w => HasTy has w f.ty) fs ws) (hv : Small (.tuple (sd.serAll (schemaOf fs) ws))) (b r : Bytes)
    (hb : postSerialize (.tuple (sd.serAll (schemaOf fs) ws)) = b ++ r) (hr : r ≠ []) :
    (postCodec sd p).dec (schemaOf fs) b = none := by
  obtain ⟨h1, -⟩ := serAll_conforms h hw
  simp only [postCodec]
  rw [C95_postcard p _ _ (Conforms.tuple (h1 hv)) b r hb hr]

theorem binCodec_truncated {fs : List FieldM} {ws : List (Val A)} (h : SerdeOk sd has fs)
    (hw : List.Forall₂ (fun f w => HasTy has w f.ty) fs ws) (hv : Small (.tuple (sd.serAll (schemaOf fs) ws))) (b r : Bytes)
    (hb : binSerialize (.tuple (sd.serAll (schemaOf fs) ws)) = b ++ r) (hr : r ≠ []) :
    (binCodec sd).dec (schemaOf fs) b = none := by
  obtain ⟨h1, -⟩ := serAll_conforms h hw
  simp only [binCodec]
  rw [C95_bincode _ _ (Conforms.tuple (h1 hv)) b r hb hr]

end

/-- **C95 (arguments).** Whatever format the build uses: the harness makes nothing of a proper beginning of the bytes that are
recorded for a call. (`v`: the values of the fields, in serde's data model. Its lengths fit in 64 bits.) -/
theorem C95_arguments {A : Type} (S : Sem A) (has : Ty → A → Prop) (hS : Lawful S has) (sd : Serde A) (p : Policy) (ft : Features)
    (cd : Codec A) (hcd : featureCodec sd p ft = some cd)
    (x : ArgsIn) (n n' : Nat) (fs : List FieldM) (h : argsFields x n = .ok (fs, n')) (tys : List Ty) (vs : List (Val A))
    (hcall : TypedCall S has x.impl x.convert x.inputs tys vs) (hbind : (hidingNames ++ x.inputs.filterMap (·.binder)).Nodup)
    (hsd : SerdeOk sd has fs) :
    ∃ (args : ArgsVal A) (data : Bytes), buildArgsVal S (recordingEnv (argEnv x.inputs vs)) fs = some args ∧
      serArgs S cd x.inputs fs vs = .ok data ∧
      (Small (.tuple (sd.serAll (schemaOf fs) (args.map (·.2.2)))) → ∀ b r, data = b ++ r → r ≠ [] → deArgs S cd tys fs b = none) := by
  obtain ⟨fs1, c', h1, rfl, -⟩ := argsFields_ok h
  obtain ⟨hF, -⟩ := mapArgs_ok (ofOpts_get_ne_none x.convert) h1
  obtain ⟨ws, g1, g2, -⟩ := fields_build hS (phantomFields_idents x.generics n).2.2.2 hcall hF
    (env := recordingEnv (argEnv x.inputs vs)) (recordingEnv_get hbind)
  have hw : (((fs1 ++ (phantomFields n x.generics).1).zip ws).map fun p => (p.1.ident, p.1.ty, p.2)).map (·.2.2) = ws := by
    rw [List.map_map]
    exact List.map_snd_zip (Nat.le_of_eq g2.length_eq.symm)
  rw [C76_feature] at hcd
  cases hcd
  cases hb : ft.bincode with
  | true =>
    simp only [if_true]
    refine ⟨_, binSerialize (.tuple (sd.serAll (schemaOf (fs1 ++ (phantomFields n x.generics).1)) ws)), g1, ?_, fun hv b r e hr => ?_⟩
    · unfold serArgs
      rw [g1]
      simp only [hw, binCodec]
    · unfold deArgs
      rw [hw] at hv
      rw [binCodec_truncated hsd g2 hv b r e hr]
  | false =>
    simp only [Bool.false_eq_true, if_false]
    refine ⟨_, postSerialize (.tuple (sd.serAll (schemaOf (fs1 ++ (phantomFields n x.generics).1)) ws)), g1, ?_, fun hv b r e hr => ?_⟩
    · unfold serArgs
      rw [g1]
      simp only [hw, postCodec]
    · unfold deArgs
      rw [hw] at hv
      rw [postCodec_truncated p hsd g2 hv b r e hr]

namespace Spec

/-- Proper beginnings of what is recorded for a call are not read. `C95_arguments` -/
def NoTruncated {V : Type} (t : Target V) (v : V) : Prop := ∀ b r, t.ser v = .ok (b ++ r) → r ≠ [] → t.de b = none

/-- What a harness does with a file: nothing, or a call with `v`, just once. -/
def RunsAs {V R : Type} (t : Target V) (b : Bytes) (o : Option V) : Prop :=
  ∀ (c : Setting) (body : V → Prog V R) (s : Proc V R), hasEntry t.macro_ = true → c.test = true → c.stdin = b →
    Fuzzing c.ctx.env ∨ Replaying c.ctx.env →
    ∃ l, (runHarness c t body s).2.log = s.log ++ l ∧ calls l = o.toList

end Spec

theorem take_split (d : Bytes) (k : Nat) : d.take k = d ∨ ∃ r, d = d.take k ++ r ∧ r ≠ [] := by
  by_cases hk : d.length ≤ k
  · exact .inl (List.take_of_length_le hk)
  · refine .inr ⟨d.drop k, (List.take_append_drop k d).symm, fun h => ?_⟩
    have := congrArg List.length h
    rw [List.length_drop, List.length_nil] at this
    omega

theorem runsAs_none {V R : Type} {t : Target V} {b : Bytes} (h : t.de b = none) : RunsAs (R := R) t b none := by
  rintro c body s - - rfl hf
  have ho : On c.ctx.env c%"TEST_FUZZ" := by
    rcases hf with hf | hf
    · exact hf.1
    · exact hf.1
  obtain ⟨-, l, h1, h2, -⟩ := C11_undecodable c t body s ho h
  exact ⟨l, h1, h2⟩

theorem runsAs_some {V R : Type} {t : Target V} {b : Bytes} {v : V} (h : t.de b = some v) : RunsAs (R := R) t b (some v) := by
  rintro c body s ht hc rfl hf
  obtain ⟨l, l', h1, h2, h3⟩ := C11_called_once c t body s ht hc hf v h
  refine ⟨l ++ .call v :: .body v :: l', by rw [h1, List.append_assoc], ?_⟩
  rw [calls_append, h2, calls, show calls (.body v :: l') = calls l' from rfl, h3]
  rfl

/-- **C95 (interrupted recordings).** A process that records calls in a corpus and is interrupted, anywhere, or not: each file of
the corpus is as it was, or runs as a call that was recorded, or does not run. `vs`: the calls, with `ds` their bytes. -/
theorem C95_interrupted {V R : Type} (t : Target V) (dir : Path) (vs : List V) (ds : List Bytes)
    (hds : List.Forall₂ (fun v d => t.ser v = .ok d ∧ t.de d = some v ∧ NoTruncated t v) vs ds)
    (hinj : ∀ a ∈ ds, ∀ b ∈ ds, fileName a = fileName b → a = b) (pl : Plan) (w : World) (q : Path) (b : Bytes)
    (hq : HasFile (recordAll dir ds pl w).2.fs q b) :
    HasFile w.fs q b ∨ (∃ v ∈ vs, RunsAs (R := R) t b (some v)) ∨ RunsAs (R := R) t b none := by
  have full : ∀ d ∈ ds, ∃ v ∈ vs, RunsAs (R := R) t d (some v) := by
    intro d hd
    obtain ⟨v, hv, -, h2, -⟩ := forall₂_mem_right hds hd
    exact ⟨v, hv, runsAs_some h2⟩
  cases hres : recordAll dir ds pl w with
  | mk res w' =>
    rw [hres] at hq
    by_cases hok : res = .ok ()
    · subst hok
      rcases (C02_corpus_is_set dir ds hinj pl w w' hres q b).mp hq with ⟨hb, -⟩ | ⟨h, -⟩
      · exact .inr (.inl (full b hb))
      · exact .inl h
    · obtain ⟨done, cur, rest, rfl, h1, h2, h3⟩ := C04_interrupted dir ds hinj pl w (by rw [hres]; exact hok)
      rw [hres] at h1 h2 h3
      by_cases hc : q = dir ++ [fileName cur]
      · subst hc
        rcases h2 with ⟨k, hk⟩ | hk
        · have hb : b = cur.take k := by
            unfold HasFile at hk hq
            rw [hk] at hq
            cases hq
            rfl
          subst hb
          rcases take_split cur k with he | ⟨r, he, hr⟩
          · rw [he]
            exact .inr (.inl (full cur (by simp)))
          · obtain ⟨v, -, g1, -, g3⟩ := forall₂_mem_right hds (show cur ∈ done ++ cur :: rest by simp)
            exact .inr (.inr (runsAs_none (g3 _ r (he ▸ g1) hr)))
        · refine .inl ?_
          unfold HasFile at hq ⊢
          rw [← hk]
          exact hq
      · by_cases hd : ∃ d ∈ done, q = dir ++ [fileName d]
        · obtain ⟨d, hd, rfl⟩ := hd
          have hne : d ≠ cur := fun e => hc (e ▸ rfl)
          have := h1 d hd hne
          unfold HasFile at this hq
          rw [this] at hq
          cases hq
          exact .inr (.inl (full _ (by simp [hd])))
        · exact .inl ((h3 q b (fun d hd' he => hd ⟨d, hd', he⟩) hc).mp hq)

namespace Conc

/-- Writers that write everything at once, as long as the system does not split the writes. -/
inductive Spec.WholeSteps {ι : Type} [DecidableEq ι] (data : ι → Bytes) : State ι → State ι → Prop
  | refl (s : State ι) : WholeSteps data s s
  | openTrunc {s t : State ι} (i : ι) : WholeSteps data s t → t.pos i = none →
      WholeSteps data s
        { files := fun n => if n = fileName (data i) then some [] else t.files n
          pos := fun j => if j = i then some 0 else t.pos j }
  | write {s t : State ι} (i : ι) : WholeSteps data s t → t.pos i = some 0 →
      WholeSteps data s
        { files := fun n => if n = fileName (data i) then some (overwrite ((t.files n).getD []) 0 (data i)) else t.files n
          pos := fun j => if j = i then some (data i).length else t.pos j }

theorem overwrite_nil (d : Bytes) : overwrite [] 0 d = d := by simp [overwrite]

theorem overwrite_same (d : Bytes) : overwrite d 0 d = d := by simp [overwrite]

theorem whole_inv {ι : Type} [DecidableEq ι] (data : ι → Bytes)
    (hinj : ∀ i j, fileName (data i) = fileName (data j) → data i = data j) (files : Str → Option Bytes) {s : State ι}
    (hs : Spec.WholeSteps data ⟨files, fun _ => none⟩ s) :
    (∀ i p, s.pos i = some p → s.files (fileName (data i)) = some [] ∨ s.files (fileName (data i)) = some (data i)) ∧
    ∀ n, s.files n = files n ∨ ∃ i, n = fileName (data i) ∧ (s.files n = some [] ∨ s.files n = some (data i)) := by
  induction hs with
  | refl => exact ⟨fun i p h => (by cases h), fun n => .inl rfl⟩
  | openTrunc i _ h ih =>
    obtain ⟨ih1, ih2⟩ := ih
    refine ⟨fun j p hp => ?_, fun n => ?_⟩
    · simp only at hp ⊢
      by_cases hn : fileName (data j) = fileName (data i)
      · exact .inl (if_pos hn)
      · rw [if_neg hn]
        rw [if_neg (fun e : j = i => hn (by rw [e]))] at hp
        exact ih1 j p hp
    · simp only
      by_cases hn : n = fileName (data i)
      · exact .inr ⟨i, hn, .inl (if_pos hn)⟩
      · rw [if_neg hn]
        exact ih2 n
  | @write t i _ h ih =>
    obtain ⟨ih1, ih2⟩ := ih
    have hc : overwrite ((t.files (fileName (data i))).getD []) 0 (data i) = data i := by
      rcases ih1 i 0 h with e | e <;> rw [e, Option.getD_some]
      · exact overwrite_nil _
      · exact overwrite_same _
    refine ⟨fun j p hp => ?_, fun n => ?_⟩
    · simp only at hp ⊢
      by_cases hn : fileName (data j) = fileName (data i)
      · rw [if_pos hn, hn, hc, hinj j i hn]
        exact .inr rfl
      · rw [if_neg hn]
        rw [if_neg (fun e : j = i => hn (by rw [e]))] at hp
        exact ih1 j p hp
    · simp only
      by_cases hn : n = fileName (data i)
      · refine .inr ⟨i, hn, .inr ?_⟩
        rw [if_pos hn, hn, hc]
      · rw [if_neg hn]
        exact ih2 n

/-- **C95 (recordings at the same time).** Many writers, none of which needs to get to the end, and a harness that reads a file
at any moment: as long as the system writes what it is given at once, the file is as it was before, or runs as a call that is
being recorded, or does not run. -/
theorem C95_concurrent {ι V R : Type} [DecidableEq ι] (t : Target V) (v : ι → V) (data : ι → Bytes)
    (hdata : ∀ i, t.ser (v i) = .ok (data i) ∧ t.de (data i) = some (v i) ∧ TF.Spec.NoTruncated t (v i))
    (hinj : ∀ i j, fileName (data i) = fileName (data j) → data i = data j) (files : Str → Option Bytes) (s : State ι)
    (hs : Spec.WholeSteps data ⟨files, fun _ => none⟩ s) (n : Str) (b : Bytes) (hb : s.files n = some b) :
    files n = some b ∨ (∃ i, n = fileName (data i) ∧ TF.Spec.RunsAs (R := R) t b (some (v i))) ∨ TF.Spec.RunsAs (R := R) t b none := by
  rcases (whole_inv data hinj files hs).2 n with h | ⟨i, hn, h⟩
  · exact .inl (h ▸ hb)
  · obtain ⟨h1, h2, h3⟩ := hdata i
    have full : TF.Spec.RunsAs (R := R) t (data i) (some (v i)) := runsAs_some h2
    rcases h with h | h
    · rw [h] at hb
      cases hb
      by_cases he : data i = []
      · exact .inr (.inl ⟨i, hn, he ▸ full⟩)
      · exact .inr (.inr (runsAs_none (h3 [] (data i) h1 he)))
    · rw [h] at hb
      cases hb
      exact .inr (.inl ⟨i, hn, full⟩)

/-- **C95 (split writes).** If writes are split, this fails: of two processes that record the same call, one truncates the file
after the first has written some of it; the first goes on where it was, and leaves zeros in front. If both stop there, the
file stays like this. -/
theorem C95_split (k : Nat) (d : Bytes) (hk : k < d.length) (files : Str → Option Bytes) :
    ∃ s : State Bool, Steps (fun _ => d) ⟨files, fun _ => none⟩ s ∧ s.files (fileName d) = some (List.replicate k 0 ++ d.drop k) ∧
      s.pos true = some d.length := by
  let s1 : State Bool := ⟨fun n => if n = fileName d then some [] else files n, fun j => if j = true then some 0 else none⟩
  have h1 : Step (fun _ => d) ⟨files, fun _ => none⟩ s1 := .openTrunc _ true rfl
  let s2 : State Bool := ⟨fun n => if n = fileName d then some (overwrite ((s1.files n).getD []) 0 ((d.drop 0).take k)) else s1.files n,
    fun j => if j = true then some (0 + k) else s1.pos j⟩
  have h2 : Step (fun _ => d) s1 s2 := .write s1 true 0 k rfl (by omega)
  let s3 : State Bool := ⟨fun n => if n = fileName d then some [] else s2.files n, fun j => if j = false then some 0 else s2.pos j⟩
  have h3 : Step (fun _ => d) s2 s3 := .openTrunc s2 false rfl
  have h4 := Step.write (data := fun _ : Bool => d) s3 true k (d.length - k) (by simp [s3, s2]) (by omega)
  refine ⟨_, .tail (.tail (.tail (.tail (.refl _) h1) h2) h3) h4, ?_, ?_⟩
  · simp only [s3, if_true, Option.getD_some]
    have hl : (d.drop k).take (d.length - k) = d.drop k := List.take_of_length_le (by rw [List.length_drop])
    rw [hl]
    simp [overwrite]
  · simp only [if_true]
    congr 1
    omega

end Conc

/-! ## Cases -/

namespace RoundDemo

/-- The call of `RoundDemo` is recorded as five bytes. -/
example (ft : Features) (p : Policy) (cd : Codec DV) (hcd : featureCodec sd p ft = some cd) :
    serArgs sem cd x.inputs fields vs = .ok [7, 2, 104, 105, 42] ∧ ∀ k, k < 5 → deArgs sem cd tys fields ([7, 2, 104, 105, 42].take k) = none := by
  obtain ⟨args, data, h0, h1, h2⟩ := C95_arguments sem has lawful sd p ft cd hcd x 0 2 fields fields_eq tys vs typed (by decide) serdeOk
  obtain rfl : _ = args := Option.some.inj h0
  have hser : serArgs sem cd x.inputs fields vs = .ok [7, 2, 104, 105, 42] := by
    rw [C76_feature] at hcd
    cases hcd
    cases ft.bincode <;> rfl
  rw [hser] at h1
  cases h1
  refine ⟨hser, fun k hk => h2 ?_ _ _ (List.take_append_drop k _).symm ?_⟩
  · have hl : (utf8Encode c%"hi").length < 2 ^ 64 := by decide +kernel
    exact ⟨trivial, hl, trivial, trivial, trivial⟩
  · intro h
    have := congrArg List.length h
    simp at this
    omega

/-- Two processes that record the call with 7, `"hi"` and 42 can leave a file that runs as the call with 0, `""` and 104. -/
example (p : Policy) : (∃ s : Conc.State Bool, Conc.Steps (fun _ => [7, 2, 104, 105, 42]) ⟨fun _ => none, fun _ => none⟩ s ∧
      s.files (fileName [7, 2, 104, 105, 42]) = some [0, 0, 104, 105, 42]) ∧
    deArgs sem (postCodec sd p) tys fields [0, 0, 104, 105, 42] =
      some [.ref false (.base (.num 0)), .ref true (.ref false (.str [])), .base (.num 103)] := by
  obtain ⟨s, h1, h2, -⟩ := Conc.C95_split 2 [7, 2, 104, 105, 42] (by decide) fun _ => none
  exact ⟨⟨s, h1, h2⟩, by cases p <;> rfl⟩

/-- A target with that parameter list. -/
def demo (p : Policy) : Target (List (Val DV)) :=
  targetOf sem (postCodec sd p) {} c%"k::f_fuzz__::Args" (fun _ => []) (fun _ => []) [] x tys fields

theorem demo_ok (p : Policy) : List.Forall₂ (fun v d => (demo p).ser v = .ok d ∧ (demo p).de d = some v ∧ NoTruncated (demo p) v) [vs]
    [[7, 2, 104, 105, 42]] := by
  refine .cons ⟨rfl, by cases p <;> rfl, fun b r h hr => ?_⟩ .nil
  obtain ⟨args, data, h0, h1, h2⟩ := C95_arguments sem has lawful sd p ⟨false, true⟩ (postCodec sd p) (by rw [C76_feature]; rfl) x 0 2
    fields fields_eq tys vs typed (by decide) serdeOk
  obtain rfl : _ = args := Option.some.inj h0
  have h : serArgs sem (postCodec sd p) x.inputs fields vs = .ok (b ++ r) := h
  rw [h1] at h
  cases h
  refine h2 ?_ b r rfl hr
  have hl : (utf8Encode c%"hi").length < 2 ^ 64 := by decide +kernel
  exact ⟨trivial, hl, trivial, trivial, trivial⟩

/-- The file of an interrupted recording, in an empty corpus. -/
example (p : Policy) (pl : Plan) (q : Path) (b : Bytes)
    (h : HasFile (recordAll [c%"d"] [[7, 2, 104, 105, 42]] pl ⟨fun _ => none, 0⟩).2.fs q b) :
    RunsAs (R := Unit) (demo p) b (some vs) ∨ RunsAs (R := Unit) (demo p) b none := by
  rcases C95_interrupted (R := Unit) (demo p) [c%"d"] [vs] _ (demo_ok p) (by simp) pl _ q b h with h | ⟨v, hv, h⟩ | h
  · cases h
  · rw [List.mem_singleton] at hv
    exact .inl (hv ▸ h)
  · exact .inr h

/-- Three processes record that call; a fourth reads. -/
example (p : Policy) (s : Conc.State (Fin 3)) (hs : Conc.Spec.WholeSteps (fun _ => [7, 2, 104, 105, 42]) ⟨fun _ => none, fun _ => none⟩ s)
    (n : Str) (b : Bytes) (h : s.files n = some b) :
    RunsAs (R := Unit) (demo p) b (some vs) ∨ RunsAs (R := Unit) (demo p) b none := by
  have hd : (demo p).ser vs = .ok [7, 2, 104, 105, 42] ∧ (demo p).de [7, 2, 104, 105, 42] = some vs ∧ NoTruncated (demo p) vs := by
    cases demo_ok p with
    | cons h _ => exact h
  rcases Conc.C95_concurrent (R := Unit) (demo p) (fun _ => vs) _ (fun _ => hd) (fun _ _ _ => rfl) _ s hs n b h with h | ⟨i, -, h⟩ | h
  · cases h
  · exact .inl h
  · exact .inr h

end RoundDemo

end TF
