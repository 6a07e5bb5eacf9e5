import Verif.Interp.Lemmas
import Mathlib.Analysis.Calculus.Deriv.Basic
import Mathlib.Topology.Order.Basic

/-!
# Functions given by pieces
-/

set_option autoImplicit false

namespace Verif.Interp

open Filter Topology

variable {σ : ℝ} {n : ℕ} {x : ℕ → ℝ}

theorem Cell.eq_or {z : ℝ} {i j : ℕ} (hx : Ordered σ n x) (hi : Cell σ n x z i) (hj : Cell σ n x z j) (hij : i < j) :
    j = i + 1 ∧ z = x j := by
  have h1 : σ * z ≤ σ * x (i + 1) := hi.high.resolve_left (by have := hj.lt; omega)
  have h2 : σ * x j ≤ σ * z := hj.low.resolve_left (by omega)
  have hj1 := hj.lt
  have hji : j = i + 1 := by
    by_contra hne
    have := hx.lt (i + 1) j (by omega) (by omega)
    linarith
  refine ⟨hji, ?_⟩
  rw [← hji] at h1
  have h3 : σ * z = σ * x j := le_antisymm h1 h2
  have := hx.sq
  have h4 : σ * (σ * z) = σ * (σ * x j) := by rw [h3]
  rw [← mul_assoc, ← mul_assoc, this, one_mul, one_mul] at h4
  exact h4

/-- Pieces which agree at the knots agree wherever two of them apply. -/
theorem Cell.agree {z : ℝ} {i j : ℕ} (hx : Ordered σ n x) (hi : Cell σ n x z i) (hj : Cell σ n x z j) {β : Type} (P : ℕ → ℝ → β)
    (hP : ∀ i, i + 2 < n → P i (x (i + 1)) = P (i + 1) (x (i + 1))) : P i z = P j z := by
  rcases lt_trichotomy i j with h | rfl | h
  · obtain ⟨rfl, rfl⟩ := hi.eq_or hx hj h
    exact hP i (by have := hj.lt; omega)
  · rfl
  · obtain ⟨rfl, rfl⟩ := hj.eq_or hx hi h
    exact (hP j (by have := hi.lt; omega)).symm

theorem eventually_cell (σ : ℝ) (n : ℕ) (x : ℕ → ℝ) (z0 : ℝ) : ∀ᶠ z in 𝓝 z0, ∀ i, Cell σ n x z i → Cell σ n x z0 i := by
  have hcl : ∀ i, IsClosed {z | Cell σ n x z i} := by
    intro i
    have h1 : IsClosed {z : ℝ | i + 1 < n} := isClosed_const
    have h2 : IsClosed {z : ℝ | i = 0 ∨ σ * x i ≤ σ * z} :=
      IsClosed.union isClosed_const (isClosed_le continuous_const (continuous_const.mul continuous_id))
    have h3 : IsClosed {z : ℝ | i + 2 = n ∨ σ * z ≤ σ * x (i + 1)} :=
      IsClosed.union isClosed_const (isClosed_le (continuous_const.mul continuous_id) continuous_const)
    have e : {z | Cell σ n x z i} = {z : ℝ | i + 1 < n} ∩ ({z : ℝ | i = 0 ∨ σ * x i ≤ σ * z} ∩
        {z : ℝ | i + 2 = n ∨ σ * z ≤ σ * x (i + 1)}) := by
      ext z
      exact ⟨fun h => ⟨h.lt, h.low, h.high⟩, fun h => ⟨h.1, h.2.1, h.2.2⟩⟩
    rw [e]
    exact h1.inter (h2.inter h3)
  have h : ∀ i ∈ Finset.range n, ∀ᶠ z in 𝓝 z0, Cell σ n x z i → Cell σ n x z0 i := by
    intro i _
    by_cases hi : Cell σ n x z0 i
    · exact Eventually.of_forall fun _ _ => hi
    · have h0 : ∀ᶠ z in 𝓝 z0, z ∈ {z | Cell σ n x z i}ᶜ := (hcl i).isOpen_compl.mem_nhds hi
      exact h0.mono fun z hz h => absurd h hz
  filter_upwards [(Filter.eventually_all_finset _).mpr h] with z hz i hi
  exact hz i (Finset.mem_range.mpr (by have := hi.lt; omega)) hi

variable {S : ℝ → ℝ} {P : ℕ → ℝ → ℝ}

/-- A function that is given by pieces. -/
structure Pieces (σ : ℝ) (n : ℕ) (x : ℕ → ℝ) (S : ℝ → ℝ) (P : ℕ → ℝ → ℝ) : Prop where
  eq : ∀ z i, Cell σ n x z i → S z = P i z
  ex : ∀ z, ∃ i, Cell σ n x z i

theorem Pieces.of_loc (hx : Ordered σ n x) (loc : ℝ → ℕ) (hloc : ∀ z, Cell σ n x z (loc z)) (hS : ∀ z, S z = P (loc z) z)
    (hP : ∀ i, i + 2 < n → P i (x (i + 1)) = P (i + 1) (x (i + 1))) : Pieces σ n x S P :=
  ⟨fun z _ hi => (hS z).trans ((hloc z).agree hx hi P hP), fun z => ⟨loc z, hloc z⟩⟩

theorem Pieces.continuousAt (h : Pieces σ n x S P) {z0 : ℝ} (hP : ∀ i, Cell σ n x z0 i → ContinuousAt (P i) z0) :
    ContinuousAt S z0 := by
  rw [Metric.continuousAt_iff']
  intro ε hε
  have h1 : ∀ i ∈ Finset.range n, ∀ᶠ z in 𝓝 z0, Cell σ n x z0 i → dist (P i z) (P i z0) < ε := by
    intro i _
    by_cases hi : Cell σ n x z0 i
    · exact ((Metric.continuousAt_iff'.mp (hP i hi)) ε hε).mono fun z hz _ => hz
    · exact Eventually.of_forall fun _ h => absurd h hi
  filter_upwards [(Filter.eventually_all_finset _).mpr h1, eventually_cell σ n x z0] with z hz hc
  obtain ⟨i, hi⟩ := h.ex z
  rw [h.eq z i hi, h.eq z0 i (hc i hi)]
  exact hz i (Finset.mem_range.mpr (by have := hi.lt; omega)) (hc i hi)

theorem Pieces.hasDerivAt (h : Pieces σ n x S P) {z0 d : ℝ} (hP : ∀ i, Cell σ n x z0 i → HasDerivAt (P i) d z0) :
    HasDerivAt S d z0 := by
  rw [hasDerivAt_iff_isLittleO, Asymptotics.isLittleO_iff]
  intro c hc0
  have h1 : ∀ i ∈ Finset.range n, ∀ᶠ z in 𝓝 z0, Cell σ n x z0 i → ‖P i z - P i z0 - (z - z0) • d‖ ≤ c * ‖z - z0‖ := by
    intro i _
    by_cases hi : Cell σ n x z0 i
    · exact ((Asymptotics.isLittleO_iff.mp (hasDerivAt_iff_isLittleO.mp (hP i hi))) hc0).mono fun z hz _ => hz
    · exact Eventually.of_forall fun _ h => absurd h hi
  filter_upwards [(Filter.eventually_all_finset _).mpr h1, eventually_cell σ n x z0] with z hz hc
  obtain ⟨i, hi⟩ := h.ex z
  rw [h.eq z i hi, h.eq z0 i (hc i hi)]
  exact hz i (Finset.mem_range.mpr (by have := hi.lt; omega)) (hc i hi)

end Verif.Interp
