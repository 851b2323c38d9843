import Verif.Lemmas.Fuzz
import Verif.Lemmas.Str
import Mathlib.Data.List.Forall2
import Mathlib.Data.List.Infix

/-! What the loop knows about the output of the fuzzers. -/

namespace TF

open Spec

/-! ### Splitting an output -/

theorem output_split {x y : Bytes} {l : List Str} {r : Bytes} (h : Output (x ++ y) l r) :
    ∃ l1 r1 l2, Output x l1 r1 ∧ Output (r1 ++ y) l2 r ∧ l = l1 ++ l2 := by
  obtain ⟨ts, he, h1, h2, rfl⟩ := h
  induction ts generalizing x with
  | nil =>
    have hx : (10 : UInt8) ∉ x := by
      intro hx
      apply h2
      have he' : x ++ y = r := by simpa [utf8Encode_nil] using he
      rw [← he']; exact List.mem_append_left _ hx
    exact ⟨[], x, [], ⟨[], by simp [utf8Encode_nil], by simp, hx, rfl⟩, ⟨[], he, by simp, h2, rfl⟩, rfl⟩
  | cons t ts ih =>
    have hnl : '\n' ∉ t := h1 t (by simp)
    have he' : x ++ y = utf8Encode (t ++ ['\n']) ++ (utf8Encode (ts.flatMap fun t => t ++ ['\n']) ++ r) := by
      rw [he, List.flatMap_cons, utf8Encode_append, List.append_assoc]
    rcases List.append_eq_append_iff.mp he' with ⟨z, hz1, hz2⟩ | ⟨z, hz1, hz2⟩
    · -- x is a prefix of the first line with its newline
      by_cases hz : z = []
      · subst hz
        simp only [List.append_nil, List.nil_append] at hz1 hz2
        refine ⟨[if t.getLast? = some '\r' then t.dropLast else t], [], _,
          ⟨[t], by simp [← hz1], by simpa using hnl, by simp, rfl⟩,
          ⟨ts, by simpa using hz2, fun t ht => h1 t (by simp [ht]), h2, rfl⟩, by simp⟩
      · have hx : (10 : UInt8) ∉ x := by
          intro hx
          obtain ⟨z', c, rfl⟩ := (List.eq_nil_or_concat z).resolve_left hz
          rw [utf8Encode_append, List.concat_eq_append, ← List.append_assoc] at hz1
          have hl : utf8Encode ['\n'] = [10] := by decide +kernel
          rw [hl] at hz1
          have := (List.append_inj' hz1 rfl).1
          exact hnl (nl_mem_encode (by rw [this]; exact List.mem_append_left _ hx))
        exact ⟨[], x, _, ⟨[], by simp [utf8Encode_nil], by simp, hx, rfl⟩,
          ⟨t :: ts, he, h1, h2, rfl⟩, by simp⟩
    · -- the first line is inside x
      obtain ⟨l1, r1, l2, o1, o2, hl⟩ := ih (x := z) (by rw [hz2]) (fun t ht => h1 t (by simp [ht]))
      refine ⟨(if t.getLast? = some '\r' then t.dropLast else t) :: l1, r1, l2, ?_, o2, by simp [hl]⟩
      obtain ⟨us, e1, e2, e3, e4⟩ := o1
      refine ⟨t :: us, ?_, ?_, e3, by simp [e4]⟩
      · rw [hz1, e1, List.flatMap_cons, utf8Encode_append, utf8Encode_append, utf8Encode_append]
        simp [List.append_assoc]
      · intro u hu
        rcases List.mem_cons.mp hu with rfl | hu
        · exact hnl
        · exact e2 u hu

/-! ### Refreshing only shortens buffers -/

theorem refreshChildren_bufs {vis : Bytes → Nat} {cols avail n : Nat} {i : Nat} {cs : List (Bytes × List Bytes)}
    {out : List Bytes} {bufs : List (List Bytes)} (h : refreshChildren vis cols avail n i cs = .ok (out, bufs)) :
    List.Forall₂ (· <:+ ·) bufs (cs.map Prod.snd) := by
  induction cs generalizing i out bufs with
  | nil => cases h; exact .nil
  | cons c cs ih =>
    obtain ⟨target, buf⟩ := c
    unfold refreshChildren at h
    cases h1 : dividerWithWidth vis target cols with
    | ok head =>
      rw [h1, Out.ok_bind] at h
      simp only at h
      cases h2 : childLines vis cols (buf.drop (buf.length - childRows avail n i))
          (List.range (childRows avail n i)) with
      | ok rows =>
        rw [h2, Out.ok_bind] at h
        cases h3 : refreshChildren vis cols avail n (i + 1) cs with
        | ok p =>
          obtain ⟨rest, bufs'⟩ := p
          rw [h3, Out.ok_bind] at h
          simp only [Out.ok.injEq, Prod.mk.injEq] at h
          rw [← h.2]
          exact .cons (List.drop_suffix _ _) (ih h3)
        | _ => rw [h3] at h; cases h
      | _ => rw [h2] at h; cases h
    | _ => rw [h1] at h; cases h

theorem refresh_bufs {vis : Bytes → Nat} {noUi : Bool} {term} {n : Nat} {cs : List (Bytes × List Bytes)}
    {out : List Bytes} {bufs : List (List Bytes)} (h : refresh vis noUi term n cs = .ok (out, bufs)) :
    List.Forall₂ (· <:+ ·) bufs (cs.map Prod.snd) := by
  have hrefl : ∀ l : List (List Bytes), List.Forall₂ (· <:+ ·) l l := fun l => by
    induction l with
    | nil => exact .nil
    | cons a l ih => exact .cons (List.suffix_refl a) ih
  unfold refresh at h
  split at h
  · cases h; exact hrefl _
  · split at h
    · cases h
    · split at h
      · cases h; exact hrefl _
      · next rows cols hr =>
        cases ha : (n == cs.length) with
        | false => rw [ha] at h; cases h
        | true =>
          rw [ha] at h
          simp only [assert, if_true, Out.ok_bind] at h
          exact refreshChildren_bufs h

theorem shown_bufs (k : FCfg) (s : FState) (hl : s.children.length = k.targets.length) :
    (shown k s).map Prod.snd = s.children.filterMap (Option.map FChild.buffer) := by
  unfold shown
  rw [List.map_filterMap]
  generalize k.targets = ts at hl
  generalize s.children = cs at hl
  induction cs generalizing ts with
  | nil => cases ts <;> rfl
  | cons c cs ih =>
    cases ts with
    | nil => simp at hl
    | cons t ts =>
      have := ih ts (by simpa using hl)
      cases c with
      | none => simpa using this
      | some c => simpa using this

theorem putBuffers_child {cs : List (Option FChild)} {bufs : List (List Bytes)}
    (h : List.Forall₂ (· <:+ ·) bufs (cs.filterMap (Option.map FChild.buffer))) {i : Nat} {c' : FChild}
    (hc : (putBuffers cs bufs)[i]? = some (some c')) :
    ∃ c b, cs[i]? = some (some c) ∧ b <:+ c.buffer ∧ c' = { c with buffer := b } := by
  induction cs generalizing bufs i with
  | nil => simp [putBuffers] at hc
  | cons c cs ih =>
    cases c with
    | none =>
      cases i with
      | zero => simp [putBuffers] at hc
      | succ i =>
        simp only [putBuffers, List.getElem?_cons_succ] at hc ⊢
        exact ih (by simpa using h) hc
    | some c =>
      simp only [List.filterMap_cons, Option.map_some] at h
      cases h with
      | @cons b _ bs _ h1 h2 =>
        cases i with
        | zero =>
          simp only [putBuffers, List.getElem?_cons_zero, Option.some.injEq] at hc
          exact ⟨c, b, by simp, h1, hc.symm⟩
        | succ i =>
          simp only [putBuffers, List.getElem?_cons_succ] at hc ⊢
          exact ih h2 hc

theorem refreshState_child {k : FCfg} {term} {s s' : FState} (hl : s.children.length = k.targets.length)
    (h : refreshState k term s = .ok s') {i : Nat} {c' : FChild} (hc : s'.children[i]? = some (some c')) :
    ∃ c b, s.children[i]? = some (some c) ∧ b <:+ c.buffer ∧ c' = { c with buffer := b } := by
  unfold refreshState at h
  cases hr : refresh k.vis k.noUi term s.nChildren (shown k s) with
  | ok p =>
    obtain ⟨out, bufs⟩ := p
    rw [hr, Out.ok_bind] at h
    cases h
    have hb := refresh_bufs hr
    rw [shown_bufs k s hl] at hb
    exact putBuffers_child hb hc
  | _ => rw [hr] at h; cases h

/-! ### The invariant of a child -/

/-- What is known about the fuzzer in slot `i`. -/
structure ChildInv (k : FCfg) (printed : List Printed) (i : Nat) (c : FChild) : Prop where
  out : Output c.recv c.lines c.unprinted
  tl : c.timeLimit = true ↔ SaysTimeLimit c.lines
  ab : c.aborted = true ↔ SaysAborted c.lines
  noui : k.noUi = true → c.lines <:+ printed.filterMap (lineOf i) ∧ c.buffer = []
  ui : k.noUi = false → c.buffer <:+ c.lines.map utf8Encode

/-- What is known about what was printed. -/
structure PrintInv (k : FCfg) (prev : Nat) (printed : List Printed) : Prop where
  under : ∀ pre i l post, printed = pre ++ .line i l :: post → (pre.filterMap headingOf).getLast? = some i
  last : (prev = k.n ∧ printed = []) ∨ (k.noUi = true → (printed.filterMap headingOf).getLast? = some prev)
  ui : k.noUi = false → printed = []

def FState.OInv (k : FCfg) (s : FState) : Prop :=
  PrintInv k s.prev s.printed ∧
    ∀ i c, s.children[i]? = some (some c) → ChildInv k s.printed i c

theorem saysTimeLimit_append (a b : List Str) : SaysTimeLimit (a ++ b) ↔ SaysTimeLimit a ∨ SaysTimeLimit b := by
  simp [SaysTimeLimit, or_and_right, exists_or]

theorem saysAborted_append (a b : List Str) : SaysAborted (a ++ b) ↔ SaysAborted a ∨ SaysAborted b := by
  simp [SaysAborted, or_and_right, exists_or]

/-- What processing lines does to the fields. -/
theorem processLines_spec (k : FCfg) (i : Nat) (ls : List Str) (c : FChild) (prev : Nat) (printed : List Printed)
    (c' : FChild) (prev' : Nat) (printed' : List Printed)
    (h : processLines k i ls (c, prev, printed) = (c', prev', printed')) (hi : i < k.n) (hp : PrintInv k prev printed) :
    c'.unprinted = c.unprinted ∧ c'.recv = c.recv ∧ c'.lines = c.lines ∧
      (c'.timeLimit = true ↔ c.timeLimit = true ∨ SaysTimeLimit ls) ∧
      (c'.aborted = true ↔ c.aborted = true ∨ SaysAborted ls) ∧
      (k.noUi = true → c'.buffer = c.buffer) ∧ (k.noUi = false → c'.buffer = c.buffer ++ ls.map utf8Encode) ∧
      (k.noUi = true → printed'.filterMap (lineOf i) = printed.filterMap (lineOf i) ++ ls) ∧
      (∀ j, j ≠ i → printed'.filterMap (lineOf j) = printed.filterMap (lineOf j)) ∧
      PrintInv k prev' printed' := by
  induction ls generalizing c prev printed with
  | nil =>
    simp only [processLines, Prod.mk.injEq] at h
    obtain ⟨rfl, rfl, rfl⟩ := h
    simp [SaysTimeLimit, SaysAborted, hp]
  | cons line ls ih =>
    simp only [processLines] at h
    -- the state after the line
    have hstep : ∃ c1 printed1, processLines k i ls (c1, i, printed1) = (c', prev', printed') ∧
        c1.unprinted = c.unprinted ∧ c1.recv = c.recv ∧ c1.lines = c.lines ∧
        (c1.timeLimit = true ↔ c.timeLimit = true ∨ SaysTimeLimit [line]) ∧
        (c1.aborted = true ↔ c.aborted = true ∨ SaysAborted [line]) ∧
        (k.noUi = true → c1.buffer = c.buffer) ∧ (k.noUi = false → c1.buffer = c.buffer ++ [utf8Encode line]) ∧
        printed1 = (if k.noUi then (if prev = i then printed else printed ++ [.heading i]) ++ [.line i line]
          else printed) := by
      have htl : SaysTimeLimit [line] ↔ contains line c%"Time limit was reached" = true := by
        simp only [SaysTimeLimit, List.mem_singleton, exists_eq_left]
        exact (contains_iff _ _).symm
      have hab : SaysAborted [line] ↔ contains line c%"+++ Testing aborted programmatically +++" = true := by
        simp only [SaysAborted, List.mem_singleton, exists_eq_left]
        exact (contains_iff _ _).symm
      rw [htl, hab]
      generalize contains line c%"Time limit was reached" = b1 at h ⊢
      generalize contains line c%"+++ Testing aborted programmatically +++" = b2 at h ⊢
      cases hn : k.noUi with
      | true =>
        by_cases hpi : prev = i
        · cases b1 <;> cases b2 <;> simp [hn, hpi] at h <;> exact ⟨_, _, h, by simp [hpi]⟩
        · cases b1 <;> cases b2 <;> simp [hn, hpi] at h <;> exact ⟨_, _, h, by simp [hpi]⟩
      | false =>
        cases b1 <;> cases b2 <;> simp [hn] at h <;> exact ⟨_, _, h, by simp⟩
    obtain ⟨c1, printed1, h1, e1, e2, e3, e4, e5, e6, e7, e8⟩ := hstep
    have hp1 : PrintInv k i printed1 := by
      cases hn : k.noUi with
      | false =>
        have : printed1 = [] := by rw [e8, hn]; exact hp.ui hn
        rw [this]
        exact ⟨by intro pre _ _ _ h; simp at h, Or.inr (fun h => by rw [hn] at h; cases h), fun _ => rfl⟩
      | true =>
        rw [hn] at e8
        simp only [if_true] at e8
        refine ⟨?_, Or.inr fun _ => ?_, fun h => by rw [hn] at h; cases h⟩
        · intro pre j l post he
          -- either an old line or the new one
          have hq : ∃ q, printed1 = q ++ [.line i line] ∧ (q.filterMap headingOf).getLast? = some i ∧
              ∀ pre j l post, q = pre ++ .line j l :: post → (pre.filterMap headingOf).getLast? = some j := by
            by_cases hpi : prev = i
            · refine ⟨printed, by rw [e8, if_pos hpi], ?_, hp.under⟩
              rcases hp.last with ⟨h1, -⟩ | h1
              · omega
              · rw [h1 hn, hpi]
            · refine ⟨printed ++ [.heading i], by rw [e8, if_neg hpi], by simp [headingOf], ?_⟩
              intro pre j l post he
              rcases List.eq_nil_or_concat post with rfl | ⟨post', x, rfl⟩
              · have := (List.append_inj' he rfl).2
                simp at this
              · rw [List.concat_eq_append, ← List.cons_append, ← List.append_assoc] at he
                exact hp.under pre j l post' (List.append_inj' he rfl).1
          obtain ⟨q, hq1, hq2, hq3⟩ := hq
          rw [hq1] at he
          rcases List.eq_nil_or_concat post with rfl | ⟨post', x, rfl⟩
          · have h2 := List.append_inj' he rfl
            simp only [List.cons.injEq, Printed.line.injEq, and_true] at h2
            rw [← h2.1, hq2, h2.2.1]
          · rw [List.concat_eq_append, ← List.cons_append, ← List.append_assoc] at he
            exact hq3 pre j l post' (List.append_inj' he rfl).1
        · rw [e8]
          by_cases hpi : prev = i
          · rcases hp.last with ⟨h1, -⟩ | h1
            · omega
            · have := h1 hn
              rw [hpi] at this
              simp [hpi, headingOf, this]
          · simp [hpi, headingOf, List.filterMap_cons]
    obtain ⟨f1, f2, f3, f4, f5, f6, f7, f8, f9, f10⟩ := ih c1 i printed1 h1 hp1
    refine ⟨by rw [f1, e1], by rw [f2, e2], by rw [f3, e3], ?_, ?_, fun hn => by rw [f6 hn, e6 hn], fun hn => ?_,
      fun hn => ?_, fun j hj => ?_, f10⟩
    · rw [f4, e4, show line :: ls = [line] ++ ls from rfl, saysTimeLimit_append, or_assoc]
    · rw [f5, e5, show line :: ls = [line] ++ ls from rfl, saysAborted_append, or_assoc]
    · rw [f7 hn, e7 hn]; simp
    · rw [f8 hn, e8, hn]
      by_cases hpi : prev = i <;> simp [hpi, lineOf, List.filterMap_cons]
    · rw [f9 j hj, e8]
      have hj' : ¬ i = j := fun h => hj h.symm
      cases k.noUi <;> by_cases hpi : prev = i <;> simp [hpi, lineOf, hj', List.filterMap_cons]

theorem OInv.init (k : FCfg) : (FState.init k).OInv k := by
  refine ⟨⟨by intro pre _ _ _ h; simp [FState.init] at h, Or.inl ⟨rfl, rfl⟩, fun _ => rfl⟩, ?_⟩
  intro i c h
  have := List.mem_of_getElem? h
  simp only [FState.init, List.mem_replicate] at this
  cases this.2

theorem OInv.refresh {k : FCfg} {s s' : FState} {term} (hi : s.Inv k) (ho : s.OInv k)
    (h : refreshState k term s = .ok s') : s'.OInv k := by
  have hl : s.children.length = k.targets.length := by have := hi.len; simpa [occ, FCfg.n] using this
  obtain ⟨bufs, hs'⟩ := refreshState_eq h
  refine ⟨by rw [hs']; exact ho.1, fun i c' hc => ?_⟩
  obtain ⟨c, b, h1, h2, rfl⟩ := refreshState_child hl h hc
  have hp : s'.printed = s.printed := by rw [hs']
  rw [hp]
  obtain ⟨g1, g2, g3, g4, g5⟩ := ho.2 i c h1
  refine ⟨g1, g2, g3, fun hn => ⟨(g4 hn).1, ?_⟩, fun hn => h2.trans (g5 hn)⟩
  rw [(g4 hn).2] at h2
  exact List.suffix_nil.mp h2

theorem OInv.schedule {k : FCfg} {s s' : FState} {b : Bool} (ho : s.OInv k) (h : schedule k b s = .ok s') :
    s'.OInv k := by
  unfold TF.schedule at h
  split at h
  · cases h
  · simp only at h
    split at h
    · cases h; exact ho
    · split at h
      · cases h
      · cases hs : k.sufficient with
        | true => rw [hs] at h; cases h
        | false =>
          simp only [hs, assert, Bool.not_false, if_true, Out.ok_bind] at h
          cases h; exact ho
      · next hc =>
        cases ha : (decide (s.iTask < k.n) || !k.sufficient) with
        | false => rw [ha] at h; cases h
        | true =>
          rw [ha] at h
          simp only [assert, if_true, Out.ok_bind] at h
          cases b with
          | false => cases h
          | true =>
            simp only [if_true] at h
            cases h
            refine ⟨ho.1, fun i c hc' => ?_⟩
            simp only at hc' ⊢
            by_cases hx : s.iTask % k.n = i
            · subst hx
              rw [List.getElem?_set_self (List.getElem?_eq_some_iff.mp hc).1] at hc'
              simp only [Option.some.injEq] at hc'
              subst hc'
              exact ⟨output_nil, by simp [SaysTimeLimit], by simp [SaysAborted],
                fun _ => ⟨List.nil_suffix, rfl⟩, fun _ => List.nil_suffix⟩
            · rw [List.getElem?_set_ne hx] at hc'
              exact ho.2 i c hc'

theorem OInv.processRead {k : FCfg} {ev : Event} {s s' : FState} {c : FChild} (ho : s.OInv k)
    (h : processRead k ev s = .ok (s', c)) : s'.OInv k ∧ s'.children[ev.token]? = some (some c) := by
  obtain ⟨c0, b, text, rest, prev', printed', hc, hlt, hr, ht, hpl, rfl⟩ := processRead_occ h
  have hself : (s.children.set ev.token (some c))[ev.token]? = some (some c) :=
    List.getElem?_set_self (List.getElem?_eq_some_iff.mp hc).1
  obtain ⟨f1, f2, f3, f4, f5, f6, f7, f8, f9, f10⟩ := processLines_spec k _ _ _ _ _ _ _ _ hpl hlt ho.1
  simp only at f1 f2 f3 f4 f5 f6 f7
  refine ⟨⟨f10, fun i c' hc' => ?_⟩, hself⟩
  simp only at hc' ⊢
  by_cases hx : ev.token = i
  · subst hx
    rw [hself] at hc'
    simp only [Option.some.injEq] at hc'
    subst hc'
    obtain ⟨g1, g2, g3, g4, g5⟩ := ho.2 _ _ hc
    refine ⟨?_, ?_, ?_, fun hn => ⟨?_, ?_⟩, fun hn => ?_⟩
    · rw [f1, f2, f3]; exact output_append g1 (takeText_ok ht)
    · rw [f3, f4, saysTimeLimit_append, g2]
    · rw [f3, f5, saysAborted_append, g3]
    · rw [f3, f8 hn]
      obtain ⟨z, hz⟩ := (g4 hn).1
      exact ⟨z, by rw [← hz, List.append_assoc]⟩
    · rw [f6 hn]; exact (g4 hn).2
    · rw [f3, f7 hn, List.map_append]
      obtain ⟨z, hz⟩ := g5 hn
      exact ⟨z, by rw [← hz, List.append_assoc]⟩
  · rw [List.getElem?_set_ne hx] at hc'
    obtain ⟨g1, g2, g3, g4, g5⟩ := ho.2 _ _ hc'
    exact ⟨g1, g2, g3, fun hn => by rw [f9 i (Ne.symm hx)]; exact g4 hn, g5⟩

theorem OInv.processEvent {k : FCfg} {ev : Event} {s s' : FState} (ho : s.OInv k)
    (h : processEvent k ev s = .ok s') : s'.OInv k := by
  unfold TF.processEvent at h
  cases h1 : TF.processRead k ev s with
  | ok p =>
    obtain ⟨s1, c⟩ := p
    rw [h1, Out.ok_bind] at h
    simp only at h
    obtain ⟨ho1, -⟩ := OInv.processRead ho h1
    split at h
    · obtain ⟨e, -, rfl⟩ := reap_ok h
      refine ⟨ho1.1, fun i c hc => ?_⟩
      simp only at hc ⊢
      by_cases hx : ev.token = i
      · subst hx
        rw [List.getElem?_set] at hc
        simp only [if_true] at hc
        split at hc <;> simp at hc
      · rw [List.getElem?_set_ne hx] at hc
        exact ho1.2 i c hc
    · cases h; exact ho1
  | _ => rw [h1] at h; cases h

theorem OInv.processEvents {k : FCfg} {evs : List Event} {s s' : FState} (ho : s.OInv k)
    (h : processEvents k evs s = .ok s') : s'.OInv k := by
  induction evs generalizing s with
  | nil => cases h; exact ho
  | cons ev evs ih =>
    unfold TF.processEvents at h
    cases h1 : TF.processEvent k ev s with
    | ok s1 => rw [h1, Out.ok_bind] at h; exact ih (OInv.processEvent ho h1) h
    | _ => rw [h1] at h; cases h

theorem Spec.Reach.oinv {k : FCfg} {s : FState} (h : Reach k s) : s.OInv k := by
  induction h with
  | init => exact OInv.init k
  | step hr h ih =>
    obtain ⟨s1, h1, -, ⟨hw, h2⟩ | ⟨hw, hn, evs, -, h2⟩⟩ := iterate_cont h
    · exact OInv.schedule (OInv.refresh hr.inv ih h1) h2
    · have ho1 := OInv.refresh hr.inv ih h1
      exact OInv.processEvents (s := { s1 with log := s1.log ++ [.poll] }) ⟨ho1.1, ho1.2⟩ h2

end TF
