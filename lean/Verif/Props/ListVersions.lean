import Verif.Props.ListText
import Verif.Props.SemverText

/-! # Versions in the listing of targets (C102) -/

namespace TF

open Spec

/-- A version that cargo can have: it has been read from a text, without build metadata. -/
def Spec.RealVersion (v : Version) : Prop := ∃ s, VersionText v [] s

theorem text_eq (v : Version) : Version.text v = Semver.versionText v [] := by
  have : PreId.text = Semver.idText := by funext i; cases i <;> rfl
  unfold Version.text Semver.versionText
  rw [this]
  cases h : v.pre <;> simp [List.isEmpty]

theorem text_ne_nil (v : Version) : Version.text v ≠ [] := by
  simp [Version.text]

theorem shown_inj {a b : Option Version} (ha : ∀ v ∈ a, RealVersion v) (hb : ∀ v ∈ b, RealVersion v)
    (h : (a.map Version.text).getD [] = (b.map Version.text).getD []) : a = b := by
  cases a with
  | none =>
    cases b with
    | none => rfl
    | some b => exact absurd h.symm (text_ne_nil b)
  | some a =>
    cases b with
    | none => exact absurd h (text_ne_nil a)
    | some b =>
      obtain ⟨s, hs⟩ := ha a rfl
      obtain ⟨t, ht⟩ := hb b rfl
      have h1 := versionText_printed hs
      have h2 := versionText_printed ht
      simp only [Option.map_some, Option.getD_some, text_eq] at h
      rw [h] at h1
      rw [(C71_unambiguous h1 h2).1]

/-- **C102 (told apart, with versions).** Listings of executables whose versions were read from manifests print the same text
only if they are the same. -/
theorem C102_versions (pr : Char → Bool) (ets ets' : List (Exe × List Str))
    (hv : ∀ x ∈ ets ++ ets', ∀ v, x.1.versions.testFuzzVersion = some v ∨ x.1.versions.aflVersion = some v → RealVersion v)
    (h : listText pr ets = listText pr ets') : ets = ets' := by
  have h := C102_tells_apart pr ets ets' h
  clear * - h hv
  induction ets generalizing ets' with
  | nil => cases ets' with
    | nil => rfl
    | cons _ _ => cases h
  | cons x r ih =>
    cases ets' with
    | nil => cases h
    | cons x' r' =>
      simp only [List.map_cons, List.cons.injEq] at h
      obtain ⟨h1, h2⟩ := h
      rw [ih r' (fun z hz => hv z (by simp at hz ⊢; tauto)) h2]
      have hx := hv x (by simp)
      have hx' := hv x' (by simp)
      obtain ⟨⟨p, n, ⟨a, b⟩⟩, ts⟩ := x
      obtain ⟨⟨p', n', ⟨a', b'⟩⟩, ts'⟩ := x'
      simp only [entryOf, Entry.mk.injEq] at h1
      obtain ⟨rfl, rfl, h3, h4, rfl⟩ := h1
      have e3 : a = a' := shown_inj (fun v h => hx v (.inl h)) (fun v h => hx' v (.inl h)) h3
      have e4 : b = b' := shown_inj (fun v h => hx v (.inr h)) (fun v h => hx' v (.inr h)) h4
      rw [e3, e4]

/-- C102_versions: versions 7.0.1-rc.1 and 0.15.10 are real. -/
example : RealVersion ⟨7, 0, 1, [.alpha c%"rc", .num 1]⟩ ∧ RealVersion ⟨0, 15, 10, []⟩ := by
  refine ⟨⟨c%"7.0.1-rc.1", (C71_parse _ _ _).mp (by decide +kernel)⟩, ⟨c%"0.15.10", (C71_parse _ _ _).mp (by decide +kernel)⟩⟩

/-- Texts of other versions need not differ, so the hypothesis is needed. -/
example : Version.text ⟨1, 0, 0, [.alpha c%"a.b"]⟩ = Version.text ⟨1, 0, 0, [.alpha c%"a", .alpha c%"b"]⟩ := by decide +kernel

end TF
