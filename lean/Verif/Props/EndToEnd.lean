import Verif.Spec.EndToEnd
import Verif.Props.Instrument
import Verif.Props.Harness
import Verif.Props.Replay
import Verif.Props.Displayed

/-!
# C69: from the calls made in tests to the corpus, and to the calls made by a replay
-/

namespace TF

open Spec

variable {V R : Type}

/-! ## File names -/

theorem hexVal_inj {a b : Char} {n : Nat} (ha : hexVal a = some n) (hb : hexVal b = some n) : a = b := by
  unfold hexVal at ha hb
  have key : ∀ c : Char, ('0' ≤ c ∧ c ≤ '9') ↔ (48 ≤ c.toNat ∧ c.toNat ≤ 57) := fun c => Iff.rfl
  have key' : ∀ c : Char, ('a' ≤ c ∧ c ≤ 'f') ↔ (97 ≤ c.toNat ∧ c.toNat ≤ 102) := fun c => Iff.rfl
  have inj : a.toNat = b.toNat → a = b := fun h => Char.ext (UInt32.toNat_inj.mp h)
  simp only [key, key'] at ha hb
  apply inj
  split at ha <;> split at hb
  · simp at ha hb; omega
  · split at hb <;> simp at ha hb; omega
  · split at ha <;> simp at ha hb; omega
  · split at ha <;> split at hb <;> simp at ha hb; omega

theorem hexVal_lt {a : Char} {n : Nat} (ha : hexVal a = some n) : n < 16 := by
  unfold hexVal at ha
  have key : ('0' ≤ a ∧ a ≤ '9') ↔ (48 ≤ a.toNat ∧ a.toNat ≤ 57) := Iff.rfl
  have key' : ('a' ≤ a ∧ a ≤ 'f') ↔ (97 ≤ a.toNat ∧ a.toNat ≤ 102) := Iff.rfl
  simp only [key, key'] at ha
  split at ha
  · simp at ha; omega
  · split at ha <;> simp at ha; omega

/-- Only one text decodes to given bytes. -/
theorem hexDecode_inj : ∀ {s t : Str} {b : Bytes}, hexDecode s = some b → hexDecode t = some b → s = t
  | [], [], _, _, _ => rfl
  | [], [_], _, _, h => by simp [hexDecode] at h
  | [_], _, _, h, _ => by simp [hexDecode] at h
  | [], x :: y :: r, b, h, h' => by
    simp only [hexDecode, Option.some.injEq] at h
    subst h
    rw [hexDecode] at h'
    split at h' <;> simp at h'
  | x :: y :: r, [], b, h', h => by
    simp only [hexDecode, Option.some.injEq] at h
    subst h
    rw [hexDecode] at h'
    split at h' <;> simp at h'
  | _ :: _ :: _, [_], _, _, h => by simp [hexDecode] at h
  | x :: y :: r, x' :: y' :: r', b, h, h' => by
    rw [hexDecode] at h h'
    split at h
    · next u v bs hu hv hr =>
      split at h'
      · next u' v' bs' hu' hv' hr' =>
        simp only [Option.some.injEq] at h h'
        subst h
        simp only [List.cons.injEq] at h'
        obtain ⟨h1, rfl⟩ := h'
        have hu1 := hexVal_lt hu
        have hv1 := hexVal_lt hv
        have hu2 := hexVal_lt hu'
        have hv2 := hexVal_lt hv'
        have h2 : (16 * u' + v') % 256 = (16 * u + v) % 256 := by
          have := congrArg UInt8.toNat h1
          simpa using this
        have hu3 : u' = u := by omega
        have hv3 : v' = v := by omega
        subst hu3 hv3
        rw [hexVal_inj hu hu', hexVal_inj hv hv', hexDecode_inj hr hr']
      · cases h'
    · cases h

/-! ## What ends up below a directory -/

/-- After storing `bs` below `D`: the files there. -/
def Gained (D : Path) (P : Bytes → Prop) (fs fs' : FS) : Prop :=
  ∀ q, D <+: q → q ≠ D →
    (∃ b n, P b ∧ q = D ++ [n] ∧ hexDecode n = some (Sha1.digest b) ∧ fs' q = some (.file b)) ∨
    ((∀ b n, P b → q = D ++ [n] → hexDecode n ≠ some (Sha1.digest b)) ∧ fs' q = fs q)

theorem Gained.congr {D : Path} {P Q : Bytes → Prop} {fs fs' : FS} (h : Gained D P fs fs') (hPQ : ∀ b, P b ↔ Q b) :
    Gained D Q fs fs' := by
  have : P = Q := funext fun b => propext (hPQ b)
  exact this ▸ h

theorem Gained.none {D : Path} {P : Bytes → Prop} (hP : ∀ b, ¬ P b) {fs fs' : FS} (h : ∀ q, D <+: q → q ≠ D → fs' q = fs q) :
    Gained D P fs fs' := fun q hq hne => .inr ⟨fun b _ hb => absurd hb (hP b), h q hq hne⟩

theorem Gained.trans {D : Path} {P Q : Bytes → Prop} {a b c : FS} (h : Gained D P a b) (h' : Gained D Q b c) :
    Gained D (fun x => P x ∨ Q x) a c := by
  intro q hq hne
  rcases h' q hq hne with ⟨x, n, hx, h1, h2, h3⟩ | ⟨hn', he'⟩
  · exact .inl ⟨x, n, .inr hx, h1, h2, h3⟩
  · rcases h q hq hne with ⟨x, n, hx, h1, h2, h3⟩ | ⟨hn, he⟩
    · exact .inl ⟨x, n, .inl hx, h1, h2, by rw [he', h3]⟩
    · exact .inr ⟨fun x n hx => hx.elim (hn x n) (hn' x n), by rw [he', he]⟩

/-- Storing in another directory. -/
theorem Spec.Stored.elsewhere {D d : Path} {data : Bytes} {w w' : World} (h : Stored d data w w') (hd : Apart D d) :
    ∀ q, D <+: q → w'.fs q = w.fs q := by
  intro q hq
  obtain ⟨n, -, -, h3⟩ := h
  have hno : ¬ D <+: d ++ [n] := by
    intro h
    rcases List.prefix_concat_iff.mp (by simpa using h) with h | h
    · exact hd.2 (h ▸ List.prefix_append d [n])
    · exact hd.1 h
  have hne : q ≠ d ++ [n] := fun h => hno (h ▸ hq)
  rcases h3 q hne with h | ⟨-, -, h⟩
  · exact h
  · exact absurd (hq.trans h) hno

/-- Storing in the directory itself. -/
theorem Spec.Stored.here {D : Path} {data : Bytes} {w w' : World} (h : Stored D data w w') :
    Gained D (fun b => b = data) w.fs w'.fs := by
  obtain ⟨n, h1, h2, h3⟩ := h
  intro q hq hne
  by_cases hqn : q = D ++ [n]
  · exact .inl ⟨data, n, rfl, hqn, h2, by rw [hqn]; exact h1⟩
  · right
    refine ⟨?_, ?_⟩
    · rintro b m rfl rfl hm
      exact hqn (by rw [hexDecode_inj hm h2])
    · rcases h3 q hqn with h | ⟨-, -, h⟩
      · exact h
      · rcases List.prefix_concat_iff.mp (by simpa using h) with h | h
        · exact absurd h hqn
        · exact absurd (List.IsPrefix.eq_of_length_le h hq.length_le) hne

/-! ## A run of user code -/

/-- What the calls `l` store in the corpus `D`. -/
def Puts (c : Setting) (D : Path) (l : List (Target V × V)) (b : Bytes) : Prop :=
  ∃ x ∈ l, Due c.ctx.env c.test x.1.macro_.enableInProduction ∧ x.1.macro_.onlyGenericArgs = false ∧
    corpusDirFromArgsType c.ctx x.1.typeName = .ok D ∧ x.1.ser x.2 = .ok b

/-- Nothing else is stored at or below `D`. -/
def Separate (c : Setting) (D : Path) (t : Target V) : Prop :=
  (∀ d, implGenericArgsDirFromArgsType c.ctx t.typeName = .ok d → Apart D d) ∧
  (∀ d, genericArgsDirFromArgsType c.ctx t.typeName = .ok d → Apart D d) ∧
  ∀ d, corpusDirFromArgsType c.ctx t.typeName = .ok d → d = D ∨ Apart D d

/-- The world after one call's recording. -/
theorem call_gained {c : Setting} {D : Path} {t : Target V} {v : V} {s : Proc V R} (hsep : Separate c D t)
    (body : Proc V R → Out R × Proc V R) :
    (∃ l k l', (callInstrumented c t v body s).2.log = s.log ++ l ++ .recordFailed k :: l') ∨
    ∃ w l, callInstrumented c t v body s = body { s with world := w, log := s.log ++ l } ∧
      Gained D (Puts c D [(t, v)]) s.world.fs w.fs := by
  by_cases hd : Due c.ctx.env c.test t.macro_.enableInProduction
  · rcases C07_due c t v body s hd with ⟨w, di, w1, dg, w2, w3, h1, h2, h3, h4, h5, h6, rfl, h8⟩ | ⟨l, k, l', h1, -⟩
    · right
      refine ⟨w3, _, by rw [h8, List.append_assoc, List.append_assoc], ?_⟩
      have hE : ∀ q, D <+: q → w2.fs q = s.world.fs q := fun q hq =>
        (h4.elsewhere (hsep.2.1 _ h3) q hq).trans (h2.elsewhere (hsep.1 _ h1) q hq)
      cases hg : t.macro_.onlyGenericArgs with
      | true =>
        obtain rfl := h5 hg
        refine Gained.none ?_ fun q hq _ => hE q hq
        rintro b ⟨x, hx, -, hno, -⟩
        obtain rfl := List.mem_singleton.mp hx
        rw [hg] at hno; cases hno
      | false =>
        obtain ⟨dc, data, g1, g2, g3⟩ := h6 hg
        rcases hsep.2.2 _ g1 with rfl | hap
        · have := (Gained.none (P := fun _ => False) (fun _ h => h) fun q hq _ => hE q hq).trans g3.here
          refine this.congr fun b => ⟨?_, ?_⟩
          · rintro (h | rfl)
            · cases h
            · exact ⟨(t, v), List.mem_singleton.mpr rfl, hd, hg, g1, g2⟩
          · rintro ⟨x, hx, -, -, -, hser⟩
            obtain rfl := List.mem_singleton.mp hx
            rw [g2] at hser
            exact .inr (Out.ok.inj hser).symm
        · refine Gained.none ?_ fun q hq _ => (g3.elsewhere hap q hq).trans (hE q hq)
          rintro b ⟨x, hx, -, -, hdir, -⟩
          obtain rfl := List.mem_singleton.mp hx
          rw [g1] at hdir
          cases hdir
          exact hap.1 (List.prefix_refl _)
    · exact .inl ⟨l, k, l', h1⟩
  · right
    refine ⟨s.world, [.body v], by rw [C07_not_due c t v body s hd], Gained.none ?_ fun _ _ _ => rfl⟩
    rintro b ⟨x, hx, hdue, -⟩
    obtain rfl := List.mem_singleton.mp hx
    exact hd hdue

theorem puts_append (c : Setting) (D : Path) (l l' : List (Target V × V)) (b : Bytes) :
    Puts c D (l ++ l') b ↔ Puts c D l b ∨ Puts c D l' b := by
  constructor
  · rintro ⟨x, hx, h⟩
    rcases List.mem_append.mp hx with hx | hx
    · exact .inl ⟨x, hx, h⟩
    · exact .inr ⟨x, hx, h⟩
  · rintro (⟨x, hx, h⟩ | ⟨x, hx, h⟩)
    · exact ⟨x, List.mem_append_left _ hx, h⟩
    · exact ⟨x, List.mem_append_right _ hx, h⟩

/-- A run of user code in which no recording fails. -/
theorem run_gained (c : Setting) (D : Path) (p : Prog V R) (s : Proc V R) (hook : s.hook ≠ .abort) (hl : Leaves D p)
    (hsep : ∀ x ∈ made p, Separate c D x.1) (l : List (Ev V R)) (hlog : (p.run c s).2.log = s.log ++ l)
    (hn : ∀ k, .recordFailed k ∉ l) : Gained D (Puts c D (made p)) s.world.fs (p.run c s).2.world.fs := by
  induction p generalizing s l with
  | ret r => exact Gained.none (by rintro b ⟨x, hx, -⟩; cases hx) fun _ _ _ => rfl
  | resume => exact Gained.none (by rintro b ⟨x, hx, -⟩; cases hx) fun _ _ _ => rfl
  | die => exact Gained.none (by rintro b ⟨x, hx, -⟩; cases hx) fun _ _ _ => rfl
  | panic =>
    rw [Prog.run, raise_eq]
    exact Gained.none (by rintro b ⟨x, hx, -⟩; cases hx) fun _ _ _ => rfl
  | touch f k ih =>
    have := ih { s with world := { s.world with fs := f s.world.fs } } hook hl.2 hsep l hlog hn
    intro q hq hne
    rw [← hl.1 s.world.fs q hq]
    exact this q hq hne
  | call t v body k ihb ihk =>
    rw [Prog.run] at hlog ⊢
    have hs1 : Separate c D t := hsep (t, v) (by rw [made]; exact List.mem_cons_self)
    have hfail : ∀ (x : Option R) (s1 : Proc V R) l1 kk, s1.log = s.log ++ l1 → .recordFailed kk ∈ l1 →
        ((k x).run c s1).2.log = s.log ++ l → False := by
      intro x s1 l1 kk h1 h2 h3
      obtain ⟨l2, h⟩ := run_spec c (k x) s1
      rw [h.ext.log, h1, List.append_assoc, List.append_cancel_left_eq] at h3
      exact hn kk (h3 ▸ List.mem_append_left _ h2)
    rcases call_gained (v := v) (s := s) hs1 (body.run c) with ⟨l0, kk, l', h0⟩ | ⟨w, l0, h0, hg⟩
    · -- a recording failed
      exfalso
      generalize callInstrumented c t v (body.run c) s = r at *
      obtain ⟨o, s1⟩ := r
      have hm : .recordFailed kk ∈ l0 ++ .recordFailed kk :: l' := List.mem_append_right _ List.mem_cons_self
      rw [List.append_assoc] at h0
      have hdirect : s1.log = s.log ++ l → False := fun h => by
        rw [h, List.append_cancel_left_eq] at h0
        exact hn kk (h0 ▸ hm)
      cases o with
      | ok r => exact hfail _ s1 _ kk h0 hm hlog
      | panic => exact hfail _ s1 _ kk h0 hm hlog
      | _ => exact hdirect hlog
    · rw [h0] at hlog ⊢
      generalize hs' : ({ s with world := w, log := s.log ++ l0 } : Proc V R) = s' at *
      have hook' : s'.hook ≠ .abort := by subst hs'; exact hook
      have hw' : s'.world = w := by subst hs'; rfl
      have hlog' : s'.log = s.log ++ l0 := by subst hs'; rfl
      obtain ⟨l1, hb⟩ := run_spec c body s'
      -- the log of the body is part of the log
      have hsub : ∀ a, a ∈ l0 ++ l1 → a ∈ l := by
        intro a ha
        have hbl := hb.ext.log
        generalize body.run c s' = r at *
        obtain ⟨o, s1⟩ := r
        have hk : ∀ x, ((k x).run c s1).2.log = s.log ++ l → a ∈ l := by
          intro x h3
          obtain ⟨l2, h⟩ := run_spec c (k x) s1
          rw [h.ext.log, hbl, hlog', List.append_assoc, List.append_assoc, List.append_cancel_left_eq] at h3
          rw [← h3, ← List.append_assoc]
          exact List.mem_append_left _ ha
        have hd : s1.log = s.log ++ l → a ∈ l := by
          intro h3
          rw [hbl, hlog', List.append_assoc, List.append_cancel_left_eq] at h3
          exact h3 ▸ ha
        cases o with
        | ok r => exact hk _ hlog
        | panic => exact hk _ hlog
        | _ => exact hd hlog
      have hn1 : ∀ k, .recordFailed k ∉ l1 := fun k hk => hn k (hsub _ (List.mem_append_right _ hk))
      have hout : (body.run c s').1 = plain body := by
        rw [hb.out hn1, outcome, if_neg fun hh => hook' hh.1]
      have hgb := ihb s' hook' hl.1 (fun x hx => hsep x (by
        rw [made]; exact List.mem_cons_of_mem _ (List.mem_append_left _ hx))) l1 hb.ext.log hn1
      have hg2 : Gained D (Puts c D ((t, v) :: made body)) s.world.fs (body.run c s').2.world.fs := by
        rw [hw'] at hgb
        exact (hg.trans hgb).congr fun b => by rw [← puts_append]; rfl
      have hbh : (body.run c s').2.hook ≠ .abort := by rw [hb.ext.hook]; exact hook'
      have hbl := hb.ext.log
      generalize body.run c s' = r at *
      obtain ⟨o, s1⟩ := r
      simp only at hout hg2 hbh hbl
      subst hout
      have hrest : ∀ x, (∀ y, y ∈ made (k x) → y ∈ made (.call t v body k)) → ((k x).run c s1).2.log = s.log ++ l →
          Gained D (fun b => Puts c D ((t, v) :: made body) b ∨ Puts c D (made (k x)) b) s.world.fs
            ((k x).run c s1).2.world.fs := by
        intro x hmem h3
        obtain ⟨l2, h⟩ := run_spec c (k x) s1
        refine hg2.trans (ihk x s1 hbh (hl.2 x) (fun y hy => hsep y (hmem y hy)) l2 h.ext.log fun kk hk => hn kk ?_)
        rw [h.ext.log, hbl, hlog', List.append_assoc, List.append_assoc, List.append_cancel_left_eq] at h3
        rw [← h3]
        exact List.mem_append_right _ (List.mem_append_right _ hk)
      have hstop : Gained D (Puts c D ((t, v) :: (made body ++ []))) s.world.fs s1.world.fs := by
        rw [List.append_nil]; exact hg2
      cases hp : plain body with
      | ok r =>
        rw [hp] at hlog
        refine (hrest (some r) ?_ hlog).congr fun b => ?_
        · intro y hy; rw [made, hp]; exact List.mem_cons_of_mem _ (List.mem_append_right _ hy)
        · rw [← puts_append, made, hp]; rfl
      | panic =>
        rw [hp] at hlog
        refine (hrest none ?_ hlog).congr fun b => ?_
        · intro y hy; rw [made, hp]; exact List.mem_cons_of_mem _ (List.mem_append_right _ hy)
        · rw [← puts_append, made, hp]; rfl
      | _ => rw [made, hp]; exact hstop

/-! ## Declared targets -/

theorem dirs_of_decl (c : Ctx) {root : Path} (hroot : targetDirectory c false false = .ok root) (hid : IdOk c) (d : Decl)
    (hd : Nameable d) (t : Str) (ht : t = argsTypeName d) :
    corpusDirFromArgsType c t = .ok (root ++ [pathSegment c c%"corpus", qualifiedName d]) ∧
    genericArgsDirFromArgsType c t = .ok (root ++ [pathSegment c c%"generic_args", qualifiedName d]) ∧
    implGenericArgsDirFromArgsType c t = .ok (root ++ [pathSegment c c%"impl_generic_args", qualifiedName d]) := by
  subst ht
  obtain ⟨t, h1, h2, h3, h4⟩ := C05_writer_reader_agree d c c rfl rfl hd.marker
  rw [targetOfLine_harness] at h1
  cases h1
  have e1 := dirOf_eq c root d.krate (targetName d) .corpus hid hd.krate hd.target hroot
  have e2 := dirOf_eq c root d.krate (targetName d) .genericArgs hid hd.krate hd.target hroot
  have e3 := dirOf_eq c root d.krate (targetName d) .implGenericArgs hid hd.krate hd.target hroot
  simp only [dirOf, Kind.base] at e1 e2 e3
  rw [h2, h3, h4, e1, e2, e3, qualified_eq_pathFromTarget]
  simp

theorem segment_ne (c : Ctx) (k k' : Kind) (h : k ≠ k') : pathSegment c k.base ≠ pathSegment c k'.base :=
  fun he => h (pathSegment_inj he).1

theorem apart_of_segment {root : Path} {a b x y : Str} (h : a ≠ b) : Apart (root ++ [a, x]) (root ++ [b, y]) := by
  unfold Apart
  simp only [List.prefix_append_right_inj, List.cons_prefix_cons]
  exact ⟨fun hh => h hh.1, fun hh => h hh.1.symm⟩

theorem separate_of_decl (c : Setting) {root : Path} (hroot : targetDirectory c.ctx false false = .ok root)
    (hid : IdOk c.ctx) (d : Decl) (t : Target V) (d' : Decl) (hd' : Nameable d') (ht : t.typeName = argsTypeName d') :
    Separate c (root ++ [pathSegment c.ctx c%"corpus", qualifiedName d]) t := by
  obtain ⟨h1, h2, h3⟩ := dirs_of_decl c.ctx hroot hid d' hd' _ ht
  refine ⟨fun x hx => ?_, fun x hx => ?_, fun x hx => ?_⟩
  · rw [h3] at hx; cases hx
    exact apart_of_segment (segment_ne c.ctx .corpus .implGenericArgs (by decide))
  · rw [h2] at hx; cases hx
    exact apart_of_segment (segment_ne c.ctx .corpus .genericArgs (by decide))
  · rw [h1] at hx; cases hx
    by_cases he : qualifiedName d' = qualifiedName d
    · exact .inl (by rw [he])
    · right
      unfold Apart
      simp only [List.prefix_append_right_inj, List.cons_prefix_cons]
      exact ⟨fun hh => he hh.2.1.symm, fun hh => he hh.2.1⟩

/-- **C69.** After any user code has run – calling any instrumented functions, nested, with panics caught or not, until it
ends or dies – and no recording failed, the corpus of a target consists of its earlier files and one file for each
distinct argument tuple with which the target was called and which had to be recorded; it does not matter which other
targets were called. `hinj`: no collision of SHA-1 among the recorded data. -/
theorem C69_corpus (decl : Target V → Decl) (c : Setting) (root : Path)
    (hroot : targetDirectory c.ctx false false = .ok root) (hid : IdOk c.ctx) (d : Decl) (hd : Nameable d)
    (p : Prog V R) (hdecl : ∀ x ∈ made p, x.1.typeName = argsTypeName (decl x.1) ∧ Nameable (decl x.1)) (D : Path)
    (hD : corpusDirFromTarget c.ctx d.krate (targetName d) = .ok D) (hl : Leaves D p) (s : Proc V R)
    (hook : s.hook ≠ .abort) (l : List (Ev V R)) (hlog : (p.run c s).2.log = s.log ++ l)
    (hn : ∀ k, .recordFailed k ∉ l)
    (hinj : ∀ a b, Recorded decl c.ctx.env c.test d (made p) a → Recorded decl c.ctx.env c.test d (made p) b →
      Sha1.digest a = Sha1.digest b → a = b) (n : Str) (b : Bytes) :
    HasFile (p.run c s).2.world.fs (D ++ [n]) b ↔
      (Recorded decl c.ctx.env c.test d (made p) b ∧ hexDecode n = some (Sha1.digest b)) ∨
      (HasFile s.world.fs (D ++ [n]) b ∧
        ∀ a, Recorded decl c.ctx.env c.test d (made p) a → hexDecode n ≠ some (Sha1.digest a)) := by
  have hDe : D = root ++ [pathSegment c.ctx c%"corpus", qualifiedName d] := by
    have e1 := dirOf_eq c.ctx root d.krate (targetName d) .corpus hid hd.krate hd.target hroot
    simp only [dirOf, Kind.base] at e1
    rw [hD] at e1
    rw [Out.ok.inj e1, qualified_eq_pathFromTarget]
    simp
  have hput : ∀ b, Puts c D (made p) b ↔ Recorded decl c.ctx.env c.test d (made p) b := by
    intro b
    constructor
    · rintro ⟨x, hx, h1, h2, h3, h4⟩
      refine ⟨x, hx, h1, h2, ?_, h4⟩
      rw [(dirs_of_decl c.ctx hroot hid _ (hdecl x hx).2 _ (hdecl x hx).1).1, hDe] at h3
      simpa using h3
    · rintro ⟨x, hx, h1, h2, h3, h4⟩
      refine ⟨x, hx, h1, h2, ?_, h4⟩
      rw [(dirs_of_decl c.ctx hroot hid _ (hdecl x hx).2 _ (hdecl x hx).1).1, hDe, h3]
  have hg := (run_gained c D p s hook hl (fun x hx => by
    rw [hDe]; exact separate_of_decl c hroot hid d x.1 _ (hdecl x hx).2 (hdecl x hx).1) l hlog hn).congr hput
  have := hg (D ++ [n]) (List.prefix_append _ _) (by simp)
  unfold HasFile
  rcases this with ⟨x, m, hx, h1, h2, h3⟩ | ⟨hno, he⟩
  · have hm : n = m := by simpa using h1
    subst hm
    rw [h3]
    constructor
    · intro h
      have hxb : x = b := by simpa using h
      subst hxb
      exact .inl ⟨hx, h2⟩
    · rintro (⟨hb, hdg⟩ | ⟨-, h⟩)
      · rw [h2] at hdg
        rw [hinj x b hx hb (Option.some.inj hdg)]
      · exact absurd h2 (h x hx)
  · rw [he]
    constructor
    · exact fun h => .inr ⟨h, fun a ha => hno a n ha rfl⟩
    · rintro (⟨hb, hdg⟩ | ⟨h, -⟩)
      · exact absurd hdg (hno b n hb rfl)
      · exact h

theorem withId_eq (c : Ctx) (b : Str) : pathSegment c b = withId (maybeId c) b := by
  unfold pathSegment withId
  cases maybeId c <;> simp

/-- **C32 (directory).** What is displayed, replayed or measured comes from the directory of the object asked for and of
the target: the one given with `--coverage`, else with `--display`, else with `--replay`. -/
theorem C32_directory (o : Opts) (ob : Object) (ho : Chosen o ob) (c : Ctx) (root : Path) (d : Decl) (krate : Str)
    (hroot : targetDirectory c false false = .ok root) (hid : IdOk c) (hk : NoSlash krate) (ht : NoSlash (targetName d))
    (hd : replaceChar '-' '_' krate = replaceChar '-' '_' d.krate) :
    ∃ f, chooseFlagsAndDir o c krate (targetName d) = .ok (f, root ++ objectPath (maybeId c) (qualifiedName d) ob) := by
  have hq : pathFromTarget krate (targetName d) = qualifiedName d := by
    rw [qualified_eq_pathFromTarget]; simp only [pathFromTarget, hd]
  have e1 := dirOf_eq c root krate (targetName d) .corpus hid hk ht hroot
  have e2 := dirOf_eq c root krate (targetName d) .genericArgs hid hk ht hroot
  have e3 := dirOf_eq c root krate (targetName d) .implGenericArgs hid hk ht hroot
  have e4 := dirOf_eq c root krate (targetName d) .output hid hk ht hroot
  simp only [dirOf, Kind.base, withId_eq, hq] at e1 e2 e3 e4
  have hj : ∀ (p : Path) (x : Str), (x = c%"crashes" ∨ x = c%"hangs" ∨ x = c%"queue") →
      p.join (c%"default/" ++ x) = p ++ [c%"default", x] := by
    rintro p x (rfl | rfl | rfl) <;> rfl
  have h0 : ∃ f, flagsAndDir c ob krate (targetName d) = .ok (f, root ++ objectPath (maybeId c) (qualifiedName d) ob) := by
    have j1 := fun p => hj p c%"crashes" (by simp)
    have j2 := fun p => hj p c%"hangs" (by simp)
    have j3 := fun p => hj p c%"queue" (by simp)
    simp only [List.cons_append, List.nil_append] at j1 j2 j3
    cases ob <;>
      simp [flagsAndDir, objectPath, e1, e2, e3, e4, crashesDirFromTarget, hangsDirFromTarget, queueDirFromTarget, j1, j2, j3]
  unfold chooseFlagsAndDir
  rcases ho with h | ⟨h, h'⟩ | ⟨h, h', h''⟩
  · rw [h]; exact h0
  · rw [h, h']; exact h0
  · rw [h, h', h'']; exact h0

/-- The crashes of the target `m::t`, whose crate is `my-crate`, of a run without id. -/
example : Chosen { display := some .crashes, replay := some .corpus } .crashes ∧
    objectPath none (qualifiedName ⟨c%"my-crate", [c%"m"], c%"t", []⟩) .crashes =
      [c%"afl", c%"output", c%"my_crate::m::t", c%"default", c%"crashes"] := by
  exact ⟨.inr (.inl ⟨rfl, rfl⟩), by decide +kernel⟩

/-- **C69 (replay).** Let the corpus have been empty before such a run. Then replaying the corpus (or measuring coverage,
or displaying), unless the command fails, starts the target's harness exactly once for each distinct recorded input and
for nothing else; and the harness, given the input recorded for a call, calls the target exactly once, with that call's
arguments, if reading is the inverse of writing for these arguments (C13). Harnesses are assumed to leave the corpus alone. -/
theorem C69_replayed (decl : Target V → Decl) (c : Setting) (root : Path)
    (hroot : targetDirectory c.ctx false false = .ok root) (hid : IdOk c.ctx) (t : Target V) (hd : Nameable (decl t))
    (p : Prog V R) (hdecl : ∀ x ∈ made p, x.1.typeName = argsTypeName (decl x.1) ∧ Nameable (decl x.1))
    (D : Path) (hD : corpusDirFromTarget c.ctx (decl t).krate (targetName (decl t)) = .ok D) (hl : Leaves D p)
    (s : Proc V R) (hnew : ∀ n, s.world.fs (D ++ [n]) = none) (hook : s.hook ≠ .abort) (l : List (Ev V R))
    (hlog : (p.run c s).2.log = s.log ++ l) (hn : ∀ k, .recordFailed k ∉ l)
    (hinj : ∀ a b, Recorded decl c.ctx.env c.test (decl t) (made p) a →
      Recorded decl c.ctx.env c.test (decl t) (made p) b → Sha1.digest a = Sha1.digest b → a = b)
    -- `cargo test-fuzz`, later
    (o : Opts) (y : Sys) (hy : Reliable y) (exe : Exe) (hexe : exe.name = (decl t).krate)
    (ho : Chosen o .corpus)
    (hsame : maybeId c.ctx = maybeId y.ctx) (hdirs : targetDirectory c.ctx false false = targetDirectory y.ctx false false)
    (rs : RSt) (hfs : ∀ q, D <+: q → rs.world.fs q = (p.run c s).2.world.fs q) (hdir : rs.world.fs D = some .dir)
    (hls : y.lister.Correct rs.world.fs D) (hsp : ∀ n, Spared y (D ++ [n])) :
    ∃ f, chooseFlagsAndDir o y.ctx exe.name (targetName (decl t)) = .ok (f, D) ∧
    ((forEachEntry o y exe (targetName (decl t)) f D rs).1 = .ok () →
      ∃ runs : List (Str × Bytes),
        (forEachEntry o y exe (targetName (decl t)) f D rs).2.acts.filterMap harnessOf =
          rs.acts.filterMap harnessOf ++ runs.map (fun r =>
            ([c%"--exact", harnessName (decl t), c%"--nocapture"], exe.path, D ++ [r.1], some r.2)) ∧
        (runs.map Prod.snd).Nodup ∧
        (∀ b, b ∈ runs.map Prod.snd ↔ Recorded decl c.ctx.env c.test (decl t) (made p) b)) ∧
    (hasEntry t.macro_ = true →
      (∀ x ∈ made p, qualifiedName (decl x.1) = qualifiedName (decl t) → ∀ b, x.1.ser x.2 = .ok b → t.de b = some x.2) →
      ∀ b, Recorded decl c.ctx.env c.test (decl t) (made p) b →
        ∃ x ∈ made p, qualifiedName (decl x.1) = qualifiedName (decl t) ∧ x.1.ser x.2 = .ok b ∧
          ∀ (c2 : Setting) (body2 : V → Prog V R) (s2 : Proc V R), c2.test = true → Replaying c2.ctx.env → c2.stdin = b →
            ∃ l l', (runHarness c2 t body2 s2).2.log = s2.log ++ l ++ .call x.2 :: .body x.2 :: l' ∧
              calls l = [] ∧ calls l' = []) := by
  have hcor := C69_corpus decl c root hroot hid (decl t) hd p hdecl D hD hl s hook l hlog hn hinj
  have hDy : corpusDirFromTarget y.ctx exe.name (targetName (decl t)) = .ok D := by
    rw [hexe, ← hD]
    have hs : ∀ s, pathSegment c.ctx s = pathSegment y.ctx s := by intro s; simp [pathSegment, hsame]
    simp only [corpusDirFromTarget, corpusDirectory, hdirs, hs]
  have hch : chooseFlagsAndDir o y.ctx exe.name (targetName (decl t)) = .ok (⟨true, false⟩, D) := by
    have h0 : flagsAndDir y.ctx .corpus exe.name (targetName (decl t)) = .ok (⟨true, false⟩, D) := by
      unfold flagsAndDir; rw [hDy]; rfl
    unfold chooseFlagsAndDir
    rcases ho with h | ⟨h, h'⟩ | ⟨h, h', h''⟩
    · rw [h]; exact h0
    · rw [h, h']; exact h0
    · rw [h, h', h'']; exact h0
  refine ⟨⟨true, false⟩, hch, fun hok => ?_, fun he hrt b hb => ?_⟩
  · have hany : o.coverage.isSome ∨ o.display.isSome ∨ o.replay.isSome := by
      rcases ho with h | ⟨-, h⟩ | ⟨-, -, h⟩ <;> rw [h] <;> simp
    obtain ⟨hnd, hmem, -, l', h1, -, -, -, h5⟩ := C32_once o hany y hy exe (targetName (decl t)) ⟨true, false⟩ D rs hdir hls (.inr hsp)
    obtain ⟨g1, -, -⟩ := h5 hok
    simp only [Bool.false_eq_true, if_false] at g1
    -- every entry is a recorded input
    have hentry : ∀ n, rs.world.fs (D ++ [n]) ≠ none →
        ∃ b, HasFile rs.world.fs (D ++ [n]) b ∧ Recorded decl c.ctx.env c.test (decl t) (made p) b ∧
          hexDecode n = some (Sha1.digest b) := by
      intro n hn0
      rw [hfs _ (List.prefix_append _ _)] at hn0
      have hg := run_gained c D p s hook hl (fun x hx => by
        have hDe : D = root ++ [pathSegment c.ctx c%"corpus", qualifiedName (decl t)] := by
          have e1 := dirOf_eq c.ctx root (decl t).krate (targetName (decl t)) .corpus hid hd.krate hd.target hroot
          simp only [dirOf, Kind.base] at e1
          rw [hD] at e1
          rw [Out.ok.inj e1, qualified_eq_pathFromTarget]
          simp
        rw [hDe]; exact separate_of_decl c hroot hid (decl t) x.1 _ (hdecl x hx).2 (hdecl x hx).1) l hlog hn
      rcases hg (D ++ [n]) (List.prefix_append _ _) (by simp) with ⟨x, m, -, h1, h2, h3⟩ | ⟨-, he⟩
      · have hf : HasFile (p.run c s).2.world.fs (D ++ [n]) x := h3
        have := (hcor n x).mp hf
        rcases this with ⟨h4, h5⟩ | ⟨h4, -⟩
        · exact ⟨x, by rw [HasFile, hfs _ (List.prefix_append _ _)]; exact h3, h4, h5⟩
        · rw [HasFile, hnew] at h4; cases h4
      · rw [he, hnew] at hn0; exact absurd rfl hn0
    let names := inputs y.lister rs.world.fs D
    have hcont : ∀ n ∈ names, ∃ b, contents rs.world.fs (D ++ [n]) = some b ∧
        Recorded decl c.ctx.env c.test (decl t) (made p) b ∧ hexDecode n = some (Sha1.digest b) := by
      intro n hn'
      obtain ⟨b, h2, h3, h4⟩ := hentry n ((hmem n).mp hn').1
      exact ⟨b, by unfold contents; rw [h2], h3, h4⟩
    refine ⟨names.map fun n => (n, (contents rs.world.fs (D ++ [n])).getD []), ?_, ?_, fun b => ?_⟩
    · rw [h1, List.filterMap_append, g1, List.map_map]
      congr 1
      refine List.map_congr_left fun n hn' => ?_
      obtain ⟨b, hb, -⟩ := hcont n hn'
      simp [hb, harnessName_eq]
    · rw [List.map_map]
      refine List.Nodup.map_on ?_ hnd
      intro n hn' m hm he
      obtain ⟨b, hb, -, hb'⟩ := hcont n hn'
      obtain ⟨b2, hb2, -, hb2'⟩ := hcont m hm
      simp only [Function.comp_apply, hb, hb2, Option.getD_some] at he
      subst he
      exact hexDecode_inj hb' hb2'
    · rw [List.map_map, List.mem_map]
      constructor
      · rintro ⟨n, hn', rfl⟩
        obtain ⟨b, hb, hr, -⟩ := hcont n hn'
        simpa [hb] using hr
      · intro hr
        have hname := hexDecode_hexEncode (Sha1.digest b)
        have hf := (hcor (Sha1.hexEncode (Sha1.digest b)) b).mpr (.inl ⟨hr, hname⟩)
        rw [HasFile, ← hfs _ (List.prefix_append _ _)] at hf
        refine ⟨Sha1.hexEncode (Sha1.digest b), (hmem _).mpr ⟨by rw [hf]; simp, ?_⟩, ?_⟩
        · have := fileName_not_bookkeeping b
          rwa [fileName] at this
        · simp [contents, hf]
  · obtain ⟨x, hx, -, -, hq, hser⟩ := hb
    exact ⟨x, hx, hq, hser, fun c2 body2 s2 hc2 hr hst =>
      C11_called_once c2 t body2 s2 he hc2 (.inr hr) x.2 (by rw [hst]; exact hrt x hx hq b hser)⟩

/-! ## A case -/

namespace EndToEndDemo

/-- Another target of the same crate. -/
def other : Target UInt8 := { HarnessDemo.target with typeName := c%"k::m::u_fuzz__::Args" }

def decl (t : Target UInt8) : Decl := if t.typeName = c%"k::m::u_fuzz__::Args" then ⟨c%"k", [c%"m"], c%"u", []⟩ else ⟨c%"k", [], c%"t", []⟩

/-- A test that calls the target with 7, with 8 – where it calls the other target with 9 and panics, which is caught –
and with 7 again. -/
def test : Prog UInt8 Nat :=
  .call HarnessDemo.target 7 (.ret 1) fun _ =>
  .call HarnessDemo.target 8 (.call other 9 (.ret 2) fun _ => .panic) fun _ =>
  .call HarnessDemo.target 7 (.ret 1) fun _ => .ret 0

def here : Setting := HarnessDemo.setting [] []
def corpus : Path := [c%"w", c%"corpus", c%"k::t"]

example : (made test).map Prod.snd = [7, 8, 9, 7] := rfl

/-- The hypotheses of `C69_corpus` and `C69_replayed` hold. -/
example : targetDirectory here.ctx false false = .ok [c%"w"] ∧ IdOk here.ctx ∧ Nameable (decl HarnessDemo.target) ∧
    (∀ x ∈ made test, x.1.typeName = argsTypeName (decl x.1) ∧ Nameable (decl x.1)) ∧
    corpusDirFromTarget here.ctx (decl HarnessDemo.target).krate (targetName (decl HarnessDemo.target)) = .ok corpus ∧
    Leaves corpus test ∧ (∀ n, HarnessDemo.start.world.fs (corpus ++ [n]) = none) ∧ HarnessDemo.start.hook ≠ .abort ∧
    (∀ k, .recordFailed k ∉ (test.run here HarnessDemo.start).2.log) := by
  have n1 : Nameable ⟨c%"k", [], c%"t", []⟩ :=
    ⟨by unfold MarkerFree; decide +kernel, by unfold NoSlash; decide +kernel, by unfold NoSlash; decide +kernel, by decide +kernel⟩
  have n2 : Nameable ⟨c%"k", [c%"m"], c%"u", []⟩ :=
    ⟨by unfold MarkerFree; decide +kernel, by unfold NoSlash; decide +kernel, by unfold NoSlash; decide +kernel, by decide +kernel⟩
  refine ⟨rfl, ?_, n1, ?_, by decide +kernel, ?_, ?_, by decide, ?_⟩
  · intro id h; simp [maybeId, here, HarnessDemo.setting, Env.var] at h
  · intro x hx
    have : x = (HarnessDemo.target, 7) ∨ x = (HarnessDemo.target, 8) ∨ x = (other, 9) ∨ x = (HarnessDemo.target, 7) := by
      simpa [made, test, plain] using hx
    rcases this with rfl | rfl | rfl | rfl
    · exact ⟨by decide +kernel, n1⟩
    · exact ⟨by decide +kernel, n1⟩
    · exact ⟨by decide +kernel, n2⟩
    · exact ⟨by decide +kernel, n1⟩
  · simp [Leaves, test]
  · intro n; simp [HarnessDemo.start, corpus]
  · intro k; cases k <;> decide +kernel

/-- What is there afterwards. -/
example : HasFile (test.run here HarnessDemo.start).2.world.fs (corpus ++ [fileName [7]]) [7] ∧
    HasFile (test.run here HarnessDemo.start).2.world.fs (corpus ++ [fileName [8]]) [8] ∧
    (test.run here HarnessDemo.start).2.world.fs (corpus ++ [fileName [9]]) = none := by
  refine ⟨by unfold HasFile; decide +kernel, by unfold HasFile; decide +kernel, by decide +kernel⟩

end EndToEndDemo

end TF
