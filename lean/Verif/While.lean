import Verif.Common

/-!
# Loops that need not terminate

A `while` loop as an outcome; a loop that does not terminate is undefined behaviour.  Models no particular function of MML.
-/

set_option autoImplicit false

namespace Verif

open Classical in
/-- `while (condition) body`, with `step` as for `whileFuel`; `ub` if the loop does not terminate. -/
noncomputable def whileLoop {σ : Type _} (step : σ → Option σ) (s : σ) : Outcome σ :=
  if h : ∃ t fuel, whileFuel step fuel s = some t then .ret h.choose else .ub

theorem whileLoop_eq {σ : Type _} {step : σ → Option σ} {s t : σ} {fuel : Nat} (h : whileFuel step fuel s = some t) :
    whileLoop step s = .ret t := by
  have hex : ∃ t fuel, whileFuel step fuel s = some t := ⟨t, fuel, h⟩
  rw [whileLoop, dif_pos hex]
  obtain ⟨m, hm⟩ := hex.choose_spec
  have h1 := whileFuel_mono step (Nat.le_max_left fuel m) h
  have h2 := whileFuel_mono step (Nat.le_max_right fuel m) hm
  rw [h1] at h2
  rw [← Option.some.inj h2]

/-- Partial correctness. -/
theorem whileLoop_inv {σ : Type _} {step : σ → Option σ} (I : σ → Prop) (hstep : ∀ s s', I s → step s = some s' → I s') {s t : σ}
    (h0 : I s) (h : whileLoop step s = .ret t) : I t ∧ step t = none := by
  rw [whileLoop] at h
  split at h
  case isFalse => simp at h
  case isTrue hex =>
    obtain ⟨fuel, hf⟩ := hex.choose_spec
    rw [Outcome.ret.inj h] at hf
    clear h hex
    induction fuel generalizing s with
    | zero => simp [whileFuel] at hf
    | succ n ih =>
      rw [whileFuel] at hf
      cases hs : step s with
      | none =>
        rw [hs] at hf
        rw [← Option.some.inj hf]
        exact ⟨h0, hs⟩
      | some s' =>
        rw [hs] at hf
        exact ih (hstep s s' h0 hs) hf

/-- A loop whose condition stays true does not terminate. -/
theorem whileLoop_ub {σ : Type _} {step : σ → Option σ} (I : σ → Prop) (hstep : ∀ s, I s → ∃ s', step s = some s' ∧ I s') {s : σ}
    (h0 : I s) : whileLoop step s = .ub := by
  rw [whileLoop, dif_neg]
  rintro ⟨t, fuel, h⟩
  induction fuel generalizing s with
  | zero => simp [whileFuel] at h
  | succ n ih =>
    obtain ⟨s', hs, hI⟩ := hstep s h0
    rw [whileFuel, hs] at h
    exact ih hI h

/-- A loop returns or does not terminate. -/
theorem whileLoop_cases {σ : Type _} (step : σ → Option σ) (s : σ) : (∃ t, whileLoop step s = .ret t) ∨ whileLoop step s = .ub := by
  rw [whileLoop]
  split
  · exact Or.inl ⟨_, rfl⟩
  · exact Or.inr rfl

end Verif
