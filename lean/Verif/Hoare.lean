import Verif.Loops

/-!
# Hoare rules for computations that may throw

`x.Sat P E`: the computation `x` has no undefined behaviour; if it returns, the result satisfies `P`; if it throws,
the exception satisfies `E`.  Proof infrastructure; models no function of MML.
-/

set_option autoImplicit false

namespace Verif

/-- No undefined behaviour, results in `P`, exceptions in `E`. -/
def Outcome.Sat {α : Type _} (x : Outcome α) (P : α → Prop) (E : Exn → Prop) : Prop :=
  match x with
  | .ret a => P a
  | .exn e => E e
  | .ub => False

namespace Outcome

variable {α β : Type _}

theorem Sat.bind {x : Outcome α} {f : α → Outcome β} {Q : α → Prop} {P : β → Prop} {E : Exn → Prop}
    (hx : x.Sat Q E) (hf : ∀ a, Q a → (f a).Sat P E) : (x >>= f).Sat P E := by
  cases x with
  | ret a => exact hf a hx
  | exn e => exact hx
  | ub => exact hx.elim

theorem Sat.mono {x : Outcome α} {P Q : α → Prop} {E F : Exn → Prop} (hx : x.Sat P E)
    (hP : ∀ a, P a → Q a) (hE : ∀ e, E e → F e) : x.Sat Q F := by
  cases x with
  | ret a => exact hP a hx
  | exn e => exact hE e hx
  | ub => exact hx.elim

theorem Sat.imp {x : Outcome α} {P Q : α → Prop} {E : Exn → Prop} (hx : x.Sat P E)
    (hP : ∀ a, P a → Q a) : x.Sat Q E := hx.mono hP fun _ h => h

theorem sat_ret {a : α} {P : α → Prop} {E : Exn → Prop} (h : P a) : (Outcome.ret a).Sat P E := h

theorem sat_exn {e : Exn} {P : α → Prop} {E : Exn → Prop} (h : E e) : (Outcome.exn e : Outcome α).Sat P E := h

/-- The three parts of `Sat`, spelled out. -/
theorem sat_iff {x : Outcome α} {P : α → Prop} {E : Exn → Prop} :
    x.Sat P E ↔ x ≠ .ub ∧ (∀ e, x = .exn e → E e) ∧ ∀ a, x = .ret a → P a := by
  cases x <;> simp [Sat]

theorem Sat.of_eq {x : Outcome α} {a : α} {P : α → Prop} {E : Exn → Prop} (hx : x = .ret a) (h : P a) :
    x.Sat P E := hx ▸ h

end Outcome

theorem forRange_sat {σ : Type _} (P : Nat → σ → Prop) (E : Exn → Prop) (n : Nat) (s : σ)
    (body : σ → Nat → Outcome σ) (h0 : P 0 s)
    (hs : ∀ i t, i < n → P i t → (body t i).Sat (P (i + 1)) E) :
    (forRange n s body).Sat (P n) E := by
  induction n with
  | zero => exact h0
  | succ n ih =>
    rw [forRange]
    exact (ih fun i t hi => hs i t (by omega)).bind fun t ht => hs n t (by omega) ht

/-- A loop that reaches a round with undefined behaviour has undefined behaviour. -/
theorem forRange_ub {σ : Type _} (P : Nat → σ → Prop) (n k : Nat) (hk : k < n) (s : σ) (body : σ → Nat → Outcome σ)
    (h0 : P 0 s) (hs : ∀ i t, i < k → P i t → ∃ t', body t i = .ret t' ∧ P (i + 1) t')
    (hub : ∀ t, P k t → body t k = .ub) : forRange n s body = .ub := by
  induction n with
  | zero => omega
  | succ n ih =>
    rw [forRange]
    rcases Nat.lt_succ_iff_lt_or_eq.1 hk with h | h
    · rw [ih h, Outcome.bind_ub]
    · subst h
      obtain ⟨t, ht, hP⟩ := forRange_rule P k s body h0 hs
      rw [ht, Outcome.bind_ret, hub t hP]

theorem forFromTo_ub {σ : Type _} (P : Nat → σ → Prop) (a b k : Nat) (hak : a ≤ k) (hk : k < b) (s : σ)
    (body : σ → Nat → Outcome σ) (h0 : P a s)
    (hs : ∀ i t, a ≤ i → i < k → P i t → ∃ t', body t i = .ret t' ∧ P (i + 1) t')
    (hub : ∀ t, P k t → body t k = .ub) : forFromTo a b s body = .ub := by
  refine forRange_ub (fun i t => P (a + i) t) (b - a) (k - a) (by omega) s (fun s i => body s (a + i)) (by simpa using h0)
    (fun i t hi hP => hs (a + i) t (by omega) (by omega) hP) (fun t hP => ?_)
  have e : a + (k - a) = k := by omega
  rw [e] at hP ⊢
  exact hub t hP

theorem forFromTo_sat {σ : Type _} (P : Nat → σ → Prop) (E : Exn → Prop) (a b : Nat) (hab : a ≤ b) (s : σ)
    (body : σ → Nat → Outcome σ) (h0 : P a s)
    (hs : ∀ i t, a ≤ i → i < b → P i t → (body t i).Sat (P (i + 1)) E) :
    (forFromTo a b s body).Sat (P b) E := by
  have := forRange_sat (fun i t => P (a + i) t) E (b - a) s (fun s i => body s (a + i)) (by simpa using h0)
    (fun i t hi hP => hs (a + i) t (by omega) (by omega) hP)
  have e : a + (b - a) = b := by omega
  rw [e] at this
  exact this

theorem forDown_sat {σ : Type _} (P : Nat → σ → Prop) (E : Exn → Prop) (a b : Nat) (hab : a ≤ b) (s : σ)
    (body : σ → Nat → Outcome σ) (h0 : P b s)
    (hs : ∀ i t, a ≤ i → i < b → P (i + 1) t → (body t i).Sat (P i) E) :
    (forDown a b s body).Sat (P a) E := by
  have := forRange_sat (fun i t => P (b - i) t) E (b - a) s (fun s i => body s (b - 1 - i)) (by simpa using h0)
    (fun i t hi hP => by
      have h1 : b - i = (b - 1 - i) + 1 := by omega
      rw [h1] at hP
      have := hs (b - 1 - i) t (by omega) (by omega) hP
      have e : b - (i + 1) = b - 1 - i := by omega
      rw [e]
      exact this)
  have e : b - (b - a) = a := by omega
  rw [e] at this
  exact this

end Verif
