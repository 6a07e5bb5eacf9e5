import Verif.Loops

/-!
# Loops that return from inside

`for` loops whose body can leave the function with a result.  Models no particular function of MML.
-/

set_option autoImplicit false

namespace Verif

/-- `for (i = j; i < j + n; i++) body`, where the body goes on with a new state (`inl`) or returns (`inr`). -/
def forExit {σ ρ : Type _} (body : Nat → σ → σ ⊕ ρ) : Nat → Nat → σ → σ ⊕ ρ
  | _, 0, s => .inl s
  | j, n + 1, s =>
    match body j s with
    | .inl s' => forExit body (j + 1) n s'
    | .inr r => .inr r

/-- Hoare rule: `P i` holds whenever round `i` is entered, `Q` holds of every result. -/
theorem forExit_rule {σ ρ : Type _} (P : Nat → σ → Prop) (Q : ρ → Prop) (body : Nat → σ → σ ⊕ ρ) (j n : Nat) (s : σ)
    (h0 : P j s) (hstep : ∀ i t, j ≤ i → i < j + n → P i t → Sum.elim (P (i + 1)) Q (body i t)) :
    Sum.elim (P (j + n)) Q (forExit body j n s) := by
  induction n generalizing j s with
  | zero => exact h0
  | succ n ih =>
    have h1 := hstep j s (Nat.le_refl j) (by omega) h0
    rw [forExit]
    cases hb : body j s with
    | inr r => rw [hb] at h1; exact h1
    | inl s' =>
      rw [hb] at h1
      have := ih (j + 1) s' h1 (fun i t hi hi' hP => hstep i t (by omega) (by omega) hP)
      rw [show j + 1 + n = j + (n + 1) by omega] at this
      exact this

end Verif
