import Verif.Spec.RecordFail
import Verif.Props.Harness

/-!
# C04 for instrumented calls: what is left when a recording fails
-/

namespace TF

open Spec

variable {V R : Type}

theorem raise_world {α : Type} (s : Proc V R) : ((raise s : Out α × Proc V R)).2.world = s.world := by
  unfold raise
  split <;> rfl

theorem record_world (c : Setting) (k : RecKind) (x : IOm Unit) (s : Proc V R) :
    (record c k x s).2.world = (x c.plan s.world).2 := by
  unfold record
  split
  · next w h => rw [h]; rfl
  · next w h => rw [h]; rfl
  · next w h h1 => rw [raise_world, h1]; rfl

theorem writeData_damaged (dir : Path) (d : Bytes) (pl : Plan) (w : World) : Damaged dir d w (writeData dir d pl w).2 := by
  obtain ⟨fs1, hext, hfs⟩ := writeData_cases dir d pl w
  refine ⟨fileName d, by rw [fileName]; exact hexDecode_hexEncode _, ?_, ?_⟩
  · intro q hq
    rcases hfs with h | ⟨k, h⟩
    · rw [h]
      rcases hext q with h | ⟨h1, h2, h3⟩
      · exact .inl h
      · exact .inr ⟨h1, h2, h3.trans (List.prefix_append _ _)⟩
    · rw [h]
      have : ∀ n, (fs1.set (dataPath dir d) n) q = fs1 q := by
        intro n
        simp [FS.set, dataPath, hq]
      rw [this]
      rcases hext q with h | ⟨h1, h2, h3⟩
      · exact .inl h
      · exact .inr ⟨h1, h2, h3.trans (List.prefix_append _ _)⟩
  · rcases hfs with h | ⟨k, h⟩
    · right
      rw [h]
      rcases hext (dir ++ [fileName d]) with h | ⟨-, -, h⟩
      · exact h
      · exact absurd h (dataPath_not_prefix dir d)
    · left
      exact ⟨k, by simp [HasFile, h, FS.set, dataPath]⟩

/-- What is done for an item. -/
def Writes (i : RecItem) (x : IOm Unit) : Prop :=
  (∀ d b, i.dir = .ok d → i.data = .ok b → ∀ pl w, x pl w = IOm.unwrap (writeData d b) pl w) ∧
    ((∀ d b, i.dir = .ok d → i.data ≠ .ok b) → ∀ pl w, (∀ a, (x pl w).1 ≠ .ok a) ∧ (x pl w).2 = w)

theorem writes_dir {k : RecKind} {dir : Out Path} {b : Bytes} :
    Writes ⟨k, dir, .ok b⟩ (do let d ← IOm.lift dir; IOm.unwrap (writeData d b)) := by
  constructor
  · intro d b' h h' pl w
    cases h'
    simp only at h
    subst h
    rfl
  · intro h pl w
    cases dir with
    | ok d => exact absurd rfl (h d b rfl)
    | _ => exact ⟨nofun, rfl⟩

theorem writes_args (c : Setting) (t : Target V) (v : V) :
    Writes ⟨.args, corpusDirFromArgsType c.ctx t.typeName, t.ser v⟩ (recordArgs c t v) := by
  constructor
  · intro d b h h' pl w
    simp only at h h'
    simp only [recordArgs, writeArgs, h, h']
    rfl
  · intro h pl w
    simp only at h
    simp only [recordArgs, writeArgs]
    cases hv : t.ser v with
    | ok b =>
      cases hd : corpusDirFromArgsType c.ctx t.typeName with
      | ok d => exact absurd hv (h d b hd)
      | _ => exact ⟨nofun, rfl⟩
    | _ => exact ⟨nofun, rfl⟩

/-- Recordings one after another. -/
def recAll (c : Setting) : List (RecItem × IOm Unit) → Proc V R → Out Unit × Proc V R
  | [], s => (.ok (), s)
  | (i, x) :: l, s => andThen (record c i.kind x s) (recAll c l)

theorem andThen_last (x : Out Unit × Proc V R) : andThen x (fun s => (.ok (), s)) = x := by
  obtain ⟨o, s⟩ := x
  cases o <;> rfl

theorem recAll_spec (c : Setting) (l : List (RecItem × IOm Unit)) (hl : ∀ p ∈ l, Writes p.1 p.2) (s : Proc V R) :
    ∃ f, Recording (fun d b w w' => w' = (writeData d b c.plan w).2) (l.map (·.1)) s.world (recAll c l s).2.world f ∧
      (f = none → (recAll c l s).1 = .ok () ∧ (recAll c l s).2 = { s with
        world := (recAll c l s).2.world, log := s.log ++ l.map fun p => .recorded p.1.kind }) ∧
      ∀ k, f = some k → ((recAll c l s).1 = .panic ∨ (recAll c l s).1 = .crash) ∧
        ∃ l1 p l2 l', l = l1 ++ p :: l2 ∧ p.1.kind = k ∧ (recAll c l s).2.log = s.log ++ (l1.map fun p => .recorded p.1.kind) ++
          .recordFailed k :: l' ∧ ∀ a ∈ l', a = .panicked s.hook := by
  induction l generalizing s with
  | nil => exact ⟨none, .done _, fun _ => ⟨rfl, by simp [recAll]⟩, nofun⟩
  | cons p l ih =>
    obtain ⟨i, x⟩ := p
    have hw : Writes i x := hl (i, x) (by simp)
    have hl' : ∀ p ∈ l, Writes p.1 p.2 := fun p hp => hl p (by simp [hp])
    cases h1 : record c i.kind x s with | mk o s1 =>
    by_cases ho : o = .ok ()
    · subst ho
      obtain ⟨w1, hx, rfl⟩ := record_ok h1
      have e : recAll c ((i, x) :: l) s = recAll c l (({ s with world := w1 } : Proc V R).note [.recorded i.kind]) := by
        rw [recAll, h1]
        rfl
      rw [e]
      obtain ⟨f, hr, hn, hs⟩ := ih hl' (({ s with world := w1 } : Proc V R).note [.recorded i.kind])
      obtain ⟨k, dir, data⟩ := i
      have hdir : ∃ d b, dir = .ok d ∧ data = .ok b := by
        by_contra hno
        exact (hw.2 (fun d b h h' => hno ⟨d, b, h, h'⟩) c.plan s.world).1 () (by rw [hx])
      obtain ⟨d, b, rfl, rfl⟩ := hdir
      have hx' := hw.1 d b rfl rfl c.plan s.world
      rw [hx] at hx'
      have hwd : writeData d b c.plan s.world = (.ok (), w1) := by
        unfold IOm.unwrap at hx'
        split at hx'
        · cases hx'
        · exact hx'.symm
      obtain ⟨name, n1, -, n3, n4⟩ := C01_record_stores_data d b c.plan _ _ hwd
      refine ⟨f, .stored (w1 := w1) ⟨name, n1, n3, n4⟩ (by rw [hwd]) hr, fun h => ?_, fun k' h => ?_⟩
      · obtain ⟨h1, h2⟩ := hn h
        refine ⟨h1, h2.trans ?_⟩
        simp [Proc.note]
      · obtain ⟨h1, l1, p, l2, l', e1, e2, e3, e4⟩ := hs k' h
        refine ⟨h1, (⟨k, .ok d, .ok b⟩, x) :: l1, p, l2, l', by rw [e1]; rfl, e2, ?_, e4⟩
        rw [e3]
        simp [Proc.note]
    · have hwld : s1.world = (x c.plan s.world).2 := by rw [← record_world, h1]
      obtain ⟨ho', -, -, l', hl1, hl2⟩ := record_fails h1 ho
      have e : (recAll c ((i, x) :: l) s) = (o, s1) := by
        rw [recAll, h1]
        rcases ho' with rfl | rfl <;> rfl
      rw [e]
      refine ⟨some i.kind, ?_, nofun, fun k' h => ?_⟩
      · rw [hwld]
        obtain ⟨k, dir, data⟩ := i
        by_cases hdir : ∃ d b, dir = .ok d ∧ data = .ok b
        · obtain ⟨d, b, rfl, rfl⟩ := hdir
          have : (x c.plan s.world).2 = (writeData d b c.plan s.world).2 := by
            rw [hw.1 d b rfl rfl]
            unfold IOm.unwrap
            split
            · next h => rw [h]
            · rfl
          rw [this]
          exact .damaged (writeData_damaged d b c.plan s.world) rfl
        · have hno : ∀ d b, dir = .ok d → data ≠ .ok b := fun d b h h' => hdir ⟨d, b, h, h'⟩
          rw [(hw.2 hno c.plan s.world).2]
          exact .missing hno
      · cases h
        refine ⟨ho', [], (i, x), l, l', rfl, rfl, by simpa using hl1, ?_⟩
        rcases hl2 with rfl | rfl <;> simp

/-- **C04.** A call that has to be recorded, whatever happens while it is: the recItems are stored in order; if all are, the body runs; at
the first that cannot be, the call panics or the process ends, what was stored before is there, and of this one a prefix at most. -/
theorem C04_call (c : Setting) (t : Target V) (v : V) (body : Proc V R → Out R × Proc V R) (s : Proc V R)
    (h : Due c.ctx.env c.test t.macro_.enableInProduction) :
    ∃ f w', Recording (fun d b w w' => w' = (writeData d b c.plan w).2) (recItems c t v) s.world w' f ∧
      (f = none → callInstrumented c t v body s = body { s with
        world := w', log := s.log ++ ((recItems c t v).map fun i => .recorded i.kind) ++ [.body v] }) ∧
      ∀ k, f = some k → (callInstrumented c t v body s).2.world = w' ∧
        ((callInstrumented c t v body s).1 = .panic ∨ (callInstrumented c t v body s).1 = .crash) ∧
        ∃ l1 i l2 l', recItems c t v = l1 ++ i :: l2 ∧ i.kind = k ∧ (callInstrumented c t v body s).2.log =
          s.log ++ (l1.map fun i => .recorded i.kind) ++ .recordFailed k :: l' ∧ ∀ a ∈ l', a = .panicked s.hook := by
  obtain ⟨L, hL, hmap, hrec⟩ : ∃ L : List (RecItem × IOm Unit), (∀ p ∈ L, Writes p.1 p.2) ∧ L.map (·.1) = recItems c t v ∧
      (recording c t v s : Out Unit × Proc V R) = recAll c L s := by
    refine ⟨((recItems c t v).zip [writeImplGenericArgs c.ctx t.typeName (t.implTypes v),
      writeGenericArgs c.ctx t.typeName (t.types v), recordArgs c t v]), ?_, ?_, ?_⟩
    all_goals (unfold recItems; try unfold recording)
    all_goals cases t.macro_.onlyGenericArgs
    · intro p hp
      simp only [Bool.false_eq_true, if_false, List.cons_append, List.nil_append, List.zip_cons_cons, List.zip_nil_left,
        List.mem_cons, List.not_mem_nil, or_false] at hp
      rcases hp with rfl | rfl | rfl
      · exact writes_dir
      · exact writes_dir
      · exact writes_args c t v
    · intro p hp
      simp only [if_true, List.append_nil, List.zip_cons_cons, List.zip_nil_left, List.mem_cons, List.not_mem_nil, or_false] at hp
      rcases hp with rfl | rfl
      · exact writes_dir
      · exact writes_dir
    · rfl
    · rfl
    · simp only [Bool.false_eq_true, if_false, List.cons_append, List.nil_append, List.zip_cons_cons, List.zip_nil_left, recAll,
        andThen_last]
    · rfl
  obtain ⟨f, hr, hn, hs⟩ := recAll_spec c L hL s
  rw [callInstrumented_eq, if_pos h, hrec]
  refine ⟨f, (recAll c L s).2.world, hmap ▸ hr, fun hf => ?_, fun k hf => ?_⟩
  · obtain ⟨h1, h2⟩ := hn hf
    generalize hg : recAll c L s = r at *
    obtain ⟨o, s1⟩ := r
    simp only at h1 h2
    subst h1
    have hm : ((recItems c t v).map fun i => (.recorded i.kind : Ev V R)) = L.map fun p => .recorded p.1.kind := by
      rw [← hmap, List.map_map]
      rfl
    rw [hm]
    show body (s1.note [.body v]) = _
    rw [h2]
    rfl
  · obtain ⟨h1, l1, p, l2, l', e1, e2, e3, e4⟩ := hs k hf
    generalize hg : recAll c L s = r at *
    obtain ⟨o, s1⟩ := r
    simp only at h1 e3
    have e : (andThen ((o, s1) : Out Unit × Proc V R) fun s => body (s.note [.body v])).2 = s1 ∧
        ((andThen ((o, s1) : Out Unit × Proc V R) fun s => body (s.note [.body v])).1 = .panic ∨
          (andThen ((o, s1) : Out Unit × Proc V R) fun s => body (s.note [.body v])).1 = .crash) := by
      rcases h1 with rfl | rfl
      · exact ⟨rfl, .inl rfl⟩
      · exact ⟨rfl, .inr rfl⟩
    refine ⟨by rw [e.1], e.2, l1.map (·.1), p.1, l2.map (·.1), l', by rw [← hmap, e1]; simp, e2, ?_, e4⟩
    rw [e.1, e3, List.map_map]
    rfl

/-! ## A recording that fails is a panic -/

theorem writeFile_outcome (pl : Plan) (p : Path) (b : Bytes) (w : World) :
    ((writeFile p b pl w).1 = .ok () ∧ HasFile (writeFile p b pl w).2.fs p b) ∨ (∃ e, (writeFile p b pl w).1 = .err e) ∨
      ((writeFile p b pl w).1 = .crash ∧ ∃ n q, pl n = .crash q) := by
  unfold writeFile IOm.prim
  cases h : pl w.tick with
  | crash q => exact .inr (.inr ⟨rfl, _, q, h⟩)
  | err q => exact .inr (.inl ⟨_, rfl⟩)
  | ok =>
    by_cases hc : (p = [] || w.fs p == some .dir || !w.fs.isDir p.dropLast) = true
    · exact .inr (.inl ⟨c%"open failed", by simp only [hc, if_true]⟩)
    · simp only [hc]
      exact .inl ⟨rfl, by simp [HasFile, FS.set]⟩

theorem ignored_outcome (pl : Plan) (d : Path) (w : World) :
    (IOm.ignore (createDirAll d) pl w).1 = .ok () ∨ ((IOm.ignore (createDirAll d) pl w).1 = .crash ∧ ∃ n q, pl n = .crash q) := by
  unfold IOm.ignore createDirAll IOm.prim
  cases h : pl w.tick with
  | crash q => exact .inr ⟨rfl, _, q, h⟩
  | err q => exact .inl rfl
  | ok => rcases hm : mkdirs d.ancestors w.fs with ⟨fs', _ | _⟩ <;> simp [hm]

theorem unwrap_writeData (pl : Plan) (d : Path) (b : Bytes) (w : World) :
    StoredOrPanics pl d b (IOm.unwrap (writeData d b) pl w) := by
  have h1 := ignored_outcome pl d w
  unfold StoredOrPanics IOm.unwrap writeData
  simp only [Bind.bind, IOm.bind]
  rcases hg : IOm.ignore (createDirAll d) pl w with ⟨o, w1⟩
  rw [hg] at h1
  rcases h1 with h1 | ⟨h1, hp⟩ <;> simp only at h1 <;> subst h1
  · have h2 := writeFile_outcome pl (d ++ [fileName b]) b w1
    simp only
    rcases hf : writeFile (d ++ [fileName b]) b pl w1 with ⟨o, w2⟩
    rw [hf] at h2
    rcases h2 with ⟨h2, h3⟩ | ⟨e, h2⟩ | ⟨h2, hp⟩ <;> simp only at h2 <;> subst h2
    · exact .inl ⟨rfl, fileName b, h3⟩
    · exact .inr (.inl rfl)
    · exact .inr (.inr ⟨rfl, hp⟩)
  · exact .inr (.inr ⟨rfl, hp⟩)

/-- **C04.** Whatever the disk does, each of the three functions that record stores all of its data, or panics, or is killed. None
of them reports an error that a caller could overlook. -/
theorem C04_stored_or_panics (c : Ctx) (typeName : Str) (args : List Str) (data : Bytes) (pl : Plan) (w : World) :
    (∀ d, corpusDirFromArgsType c typeName = .ok d → StoredOrPanics pl d data (writeArgs c typeName data pl w)) ∧
    (∀ d, genericArgsDirFromArgsType c typeName = .ok d →
      StoredOrPanics pl d (utf8Encode (joinWith c%", " args)) (writeGenericArgs c typeName args pl w)) ∧
    ∀ d, implGenericArgsDirFromArgsType c typeName = .ok d →
      StoredOrPanics pl d (utf8Encode (joinWith c%", " args)) (writeImplGenericArgs c typeName args pl w) := by
  refine ⟨fun d h => ?_, fun d h => ?_, fun d h => ?_⟩
  · unfold writeArgs; rw [h]; exact unwrap_writeData pl d data w
  · unfold writeGenericArgs; rw [h]; exact unwrap_writeData pl d _ w
  · unfold writeImplGenericArgs; rw [h]; exact unwrap_writeData pl d _ w

/-! ## A case: the third recording fails -/

namespace RecordFailDemo

open HarnessDemo

/-- The disk is full from the fifth operation on: only the first two things can be recorded. -/
def full : Setting := { setting [] [] with plan := fun n => if n < 4 then .ok else .err ⟨0, fun _ => false⟩ }

example : Due full.ctx.env full.test target.macro_.enableInProduction := .inl ⟨rfl, fun h => by simp [On, full, setting] at h⟩

example : (callInstrumented full target 1 (fun s => (.ok 5, s)) start).2.log =
    [.recorded .implGenericArgs, .recorded .genericArgs, .recordFailed .args, .panicked (.other 7)] := by decide +kernel

/-- C04_stored_or_panics: a file where the corpus should be makes `write_args` panic; without it the bytes are stored. -/
example : (∃ d, corpusDirFromArgsType full.ctx target.typeName = .ok d ∧
      (writeArgs full.ctx target.typeName [1] Plan.clean ⟨fun p => if p = d then some (.file []) else some .dir, 0⟩).1 = .panic) ∧
    (writeArgs full.ctx target.typeName [1] Plan.clean ⟨fun _ => none, 0⟩).1 = .ok () :=
  ⟨⟨_, rfl, by decide +kernel⟩, by decide +kernel⟩

end RecordFailDemo

end TF
