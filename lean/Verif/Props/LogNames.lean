import Verif.Props.Log

/-!
# C55, in a whole crate: the names that the macros make up
-/

namespace TF

open Spec

namespace Spec

/-- The modules in an expansion. -/
def modulesOf : Expansion → List ModuleM
  | .fn _ mo => [mo]
  | .impl _ _ mos => mos

/-- The names of the fields of `Args` in a module. -/
def fieldNames (mo : ModuleM) : List Str := (mo.fields.getD []).map (·.ident)

/-- The functions that a use of the macros makes targets. -/
def targetsOf : MacroUse → FnIn → Prop
  | .fn _ f, g => g = f
  | .impl _ items, g => .fn g ∈ items ∧ IsTarget (.fn g)

/-- As Rust demands: the parameters have different names. None of them is `_` and a number. -/
def OwnNames (f : FnIn) : Prop := (ownNames f.inputs).Nodup ∧ ∀ i ∈ ownNames f.inputs, ¬ IsNumbered i

end Spec

/-- Names with numbers from `n` up to `n'`, each at most once; others do not matter. -/
def Fresh (n n' : Nat) (l : List Str) : Prop := n ≤ n' ∧ ∀ k, l.count (anonymousIdent k) ≤ if n ≤ k ∧ k < n' then 1 else 0

theorem Fresh.nil (n : Nat) : Fresh n n [] := ⟨Nat.le_refl _, by simp⟩

theorem Fresh.append {a b c : Nat} {l l' : List Str} (h : Fresh a b l) (h' : Fresh b c l') : Fresh a c (l ++ l') := by
  refine ⟨h.1.trans h'.1, fun k => ?_⟩
  have h1 := h.2 k
  have h2 := h'.2 k
  have h3 := h.1
  have h4 := h'.1
  rw [List.count_append]
  split at h1 <;> split at h2 <;> split <;> omega

theorem fresh_argsFields {x : ArgsIn} {n n' : Nat} {fs : List FieldM} (h : argsFields x n = .ok (fs, n'))
    (hd : (ownNames x.inputs).Nodup) (hn : ∀ i ∈ ownNames x.inputs, ¬ IsNumbered i) : Fresh n n' (fs.map (·.ident)) := by
  have hnd := C55_distinct x n n' fs h hd hn
  obtain ⟨fs1, c', h1, rfl, -⟩ := argsFields_ok h
  obtain ⟨g1, -, g3⟩ := mapArgs_idents h1
  obtain ⟨p1, p2, p3, -⟩ := phantomFields_idents x.generics n
  refine ⟨p1.trans g1, fun k => ?_⟩
  split
  · exact List.nodup_iff_count_le_one.mp hnd _
  · next hk =>
    rw [Nat.le_zero, List.count_eq_zero]
    intro hm
    apply hk
    rw [List.map_append, List.mem_append] at hm
    rcases hm with hm | hm
    · obtain ⟨f, hf, hfe⟩ := List.mem_map.mp hm
      rcases g3 f hf with h3 | ⟨j, h3, h4, h5⟩
      · exact absurd ⟨k, hfe⟩ (hn _ h3)
      · have := anonymousIdent_inj (hfe.symm.trans h5)
        omega
    · obtain ⟨f, hf, hfe⟩ := List.mem_map.mp hm
      obtain ⟨j, h3, h4, h5⟩ := p3 f hf
      have := anonymousIdent_inj (hfe.symm.trans h5)
      omega

theorem fresh_mapMethodOrFn {fz : Bool} {im : Option ImplIn} {o : AttrOpts} {f : FnIn} {n n' : Nat} {m : MethodM} {mo : ModuleM}
    (h : mapMethodOrFn fz im o f n = .ok (m, mo, n')) (hf : OwnNames f) : Fresh n n' (fieldNames mo) := by
  unfold mapMethodOrFn at h
  split at h
  · cases h
  · simp only [bind_eq_ok, Prod.exists, Out.ok.injEq, Prod.mk.injEq] at h
    obtain ⟨_, -, fs, k, h1, _, -, _, -, _, -, -, rfl, rfl⟩ := h
    have := fresh_argsFields h1 hf.1 hf.2
    unfold fieldNames
    split
    · exact ⟨this.1, by simp⟩
    · exact this

theorem fresh_mapImplItems {fz : Bool} {x : ImplIn} {items : List ItemIn} {n n' : Nat} {os : List ItemOut} {mos : List ModuleM}
    (h : mapImplItems fz x items n = .ok (os, mos, n')) (hf : ∀ f, .fn f ∈ items → IsTarget (.fn f) → OwnNames f) :
    Fresh n n' (mos.flatMap fieldNames) := by
  induction items generalizing n os mos with
  | nil => cases h; exact .nil _
  | cons it l ih =>
    simp only [mapImplItems, bind_eq_ok, Prod.exists, Out.ok.injEq, Prod.mk.injEq] at h
    obtain ⟨i, mo, k, h1, is, ms, k', h2, -, rfl, rfl⟩ := h
    rw [List.flatMap_append]
    refine Fresh.append (b := k) ?_ (ih h2 fun f hm => hf f (List.mem_cons_of_mem _ hm))
    cases it with
    | other s => cases h1; exact .nil _
    | fn f =>
      simp only [mapImplItem, mapImplItemFn] at h1
      split at h1
      · cases h1; exact .nil _
      · next j hj =>
        split at h1
        · cases h1
        · next a ha =>
          simp only [bind_eq_ok, Prod.exists, Out.ok.injEq, Prod.mk.injEq] at h1
          obtain ⟨o, -, m, mo', k'', h3, -, rfl, rfl⟩ := h1
          have ht : IsTarget (.fn f) := by
            obtain ⟨hlt, hp, -⟩ := List.findIdx?_eq_some_iff_getElem.mp hj
            exact ⟨_, List.getElem_mem hlt, (isTestFuzz_iff _).mp hp⟩
          have := fresh_mapMethodOrFn h3 (hf f (by simp) ht)
          simpa using this

/-- **C55 (in a crate).** The names that the macros make up are different in the whole crate, if no parameter of a target is
called like that. -/
theorem C55_crate (fz : Bool) (e : LogEnv) (us : List MacroUse) (n n' w : Nat) (xs ps : List Expansion)
    (h : expandCrate fz e us n = .ok (xs, ps, w, n')) (hf : ∀ u ∈ us, ∀ f, targetsOf u f → OwnNames f) (i : Str)
    (hi : IsNumbered i) : ((xs.flatMap modulesOf).flatMap fieldNames).count i ≤ 1 := by
  obtain ⟨k, rfl⟩ := hi
  suffices H : Fresh n n' ((xs.flatMap modulesOf).flatMap fieldNames) by
    have := H.2 k
    have h' : ((xs.flatMap modulesOf).flatMap fieldNames).count (anonymousIdent k) ≤ 1 := by split at this <;> omega
    exact h'
  induction us generalizing n xs ps w with
  | nil => cases h; exact .nil _
  | cons u l ih =>
    simp only [expandCrate, bind_eq_ok, Prod.exists, Out.ok.injEq, Prod.mk.injEq] at h
    obtain ⟨x, p, v, k', h1, ys, qs, vs, m, h2, rfl, -, -, rfl⟩ := h
    rw [List.flatMap_cons, List.flatMap_append]
    refine Fresh.append (b := k') ?_ (ih _ _ _ _ h2 fun u hu => hf u (List.mem_cons_of_mem _ hu))
    have hf := hf u (by simp)
    cases u with
    | fn args f =>
      simp only [expandUse, bind_eq_ok, Prod.exists, Out.ok.injEq, Prod.mk.injEq] at h1
      obtain ⟨m, mo, k, h1, -, -, rfl, -, -, rfl⟩ := h1
      obtain ⟨o, _, -, -, -, -, -, -, -, -, -, -, -, h3⟩ := C56_function fz args f _ _ m mo h1
      have := fresh_mapMethodOrFn h3 (hf f rfl)
      simpa [modulesOf] using this
    | impl y items =>
      simp only [expandUse, bind_eq_ok, Prod.exists, Out.ok.injEq, Prod.mk.injEq] at h1
      obtain ⟨m, mo, b, k, h1, -, -, rfl, -, -, rfl⟩ := h1
      simp only [testFuzzImpl, bind_eq_ok, Prod.exists, Out.ok.injEq, Prod.mk.injEq] at h1
      obtain ⟨_, _, _, h3, -, rfl, -, rfl⟩ := h1
      exact fresh_mapImplItems h3 fun f h1 h2 => hf f ⟨h1, h2⟩

namespace LogDemo

open ExpandDemo

/-- Two impls with a method each, which has a receiver, and a function with a parameter `_`: the numbers go on. -/
def numbered : List MacroUse :=
  [.impl x items, .impl x items, .fn .absent { plainFn with inputs := [.typed [] ⟨[], true⟩ (.name c%"u8")] }]

example : ∃ xs k, expandCrate true ⟨none, none⟩ numbered 0 = .ok (xs, [], 0, k) ∧
    (xs.flatMap modulesOf).flatMap fieldNames =
      [c%"_2", c%"w", c%"_0", c%"_1", c%"_5", c%"w", c%"_3", c%"_4", c%"_6"] :=
  ⟨_, _, rfl, rfl⟩

end LogDemo

end TF
