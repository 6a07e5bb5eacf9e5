import Verif.Interp.Model
import Verif.Interp.Spec
import Verif.LoopLemmas
import Mathlib.Tactic.FieldSimp
import Mathlib.Tactic.Linarith
import Mathlib.Tactic.NormNum
import Mathlib.Tactic.Ring

/-!
# Facts about the search for an interval
-/

set_option autoImplicit false

namespace Verif.Interp

open Verif

/-- A direction: the table increases after multiplication by `σ`. -/
structure Ordered (σ : ℝ) (n : ℕ) (x : ℕ → ℝ) : Prop where
  dir : σ = 1 ∨ σ = -1
  lt : ∀ i j, i < j → j < n → σ * x i < σ * x j

theorem Increasing.ordered {n : ℕ} {x : ℕ → ℝ} (h : Increasing n x) : Ordered 1 n x :=
  ⟨Or.inl rfl, fun i j hij hj => by simpa using h i j hij hj⟩

theorem Decreasing.ordered {n : ℕ} {x : ℕ → ℝ} (h : Decreasing n x) : Ordered (-1) n x :=
  ⟨Or.inr rfl, fun i j hij hj => by simpa using h i j hij hj⟩

theorem Ordered.ne {σ : ℝ} {n : ℕ} {x : ℕ → ℝ} (h : Ordered σ n x) {i j : ℕ} (hij : i < j) (hj : j < n) : x i ≠ x j := by
  intro e
  have := h.lt i j hij hj
  rw [e] at this
  exact lt_irrefl _ this

theorem Ordered.distinct {σ : ℝ} {n : ℕ} {x : ℕ → ℝ} (h : Ordered σ n x) : Distinct n x := fun _ _ hij hj => h.ne hij hj

theorem Ordered.le {σ : ℝ} {n : ℕ} {x : ℕ → ℝ} (h : Ordered σ n x) {i j : ℕ} (hij : i ≤ j) (hj : j < n) : σ * x i ≤ σ * x j := by
  rcases hij.lt_or_eq with h1 | rfl
  · exact (h.lt i j h1 hj).le
  · exact le_rfl

theorem Ordered.sq {σ : ℝ} {n : ℕ} {x : ℕ → ℝ} (h : Ordered σ n x) : σ * σ = 1 := by rcases h.dir with rfl | rfl <;> norm_num

theorem nodup_tab {n : ℕ} {x : ℕ → ℝ} : (tab n x).Nodup ↔ Distinct n x := by
  rw [tab, List.nodup_iff_pairwise_ne, List.pairwise_map]
  constructor
  · intro h i j hij hj
    have := List.pairwise_iff_getElem.mp h i j (by simp; omega) (by simpa using hj) hij
    simpa using this
  · intro h
    rw [List.pairwise_iff_getElem]
    intro i j hi hj hij
    simpa using h i j hij (by simpa using hj)

/-- The interval that is found: the first inequality fails only before the table, the second only after it. -/
structure Cell (σ : ℝ) (n : ℕ) (x : ℕ → ℝ) (z : ℝ) (i : ℕ) : Prop where
  lt : i + 1 < n
  low : i = 0 ∨ σ * x i ≤ σ * z
  high : i + 2 = n ∨ σ * z ≤ σ * x (i + 1)

/-- The bounds of the search stay in range whatever the table is. -/
theorem search_lt (xs : List ℝ) (z : ℝ) (h : 2 ≤ xs.length) : search xs z + 1 < xs.length := by
  obtain ⟨s, hs, ⟨h1, h2⟩, h3⟩ := whileFuel_rule (locateStep xs z) (fun s => s.1 < s.2 ∧ s.2 < xs.length) (fun s => s.2 - s.1)
    (by
      rintro ⟨a, b⟩ ⟨a', b'⟩ ⟨h1, h2⟩ h3
      simp only [locateStep] at h3
      dsimp only at h1 h2 ⊢
      split at h3
      · split at h3
        · simp only [Option.some.injEq, Prod.mk.injEq] at h3
          omega
        · simp only [Option.some.injEq, Prod.mk.injEq] at h3
          omega
      · cases h3) (xs.length + 1) (0, xs.length - 1) ⟨by dsimp only; omega, by dsimp only; omega⟩ (by dsimp only; omega)
  rw [search, hs]
  dsimp only
  omega

theorem search_cell {σ : ℝ} {n : ℕ} {x : ℕ → ℝ} (hx : Ordered σ n x) (hn : 2 ≤ n) (z : ℝ) : Cell σ n x z (search (tab n x) z) := by
  have hasc : (tab n x).getD ((tab n x).length - 1) 0 ≥ (tab n x).getD 0 0 ↔ σ = 1 := by
    rw [length_tab, getD_tab _ _ _ (by omega), getD_tab _ _ _ (by omega)]
    have := hx.lt 0 (n - 1) (by omega) (by omega)
    rcases hx.dir with rfl | rfl
    · simp only [iff_true]
      linarith
    · constructor
      · intro h
        exfalso
        linarith
      · intro h
        norm_num at h
  obtain ⟨s, hs, ⟨h1, h2, h4, h5⟩, h3⟩ := whileFuel_rule (locateStep (tab n x) z)
    (fun s => s.1 < s.2 ∧ s.2 < n ∧ (s.1 = 0 ∨ σ * x s.1 ≤ σ * z) ∧ (s.2 + 1 = n ∨ σ * z ≤ σ * x s.2)) (fun s => s.2 - s.1)
    (by
      rintro ⟨a, b⟩ ⟨a', b'⟩ ⟨h1, h2, h4, h5⟩ h3
      simp only [locateStep] at h3
      dsimp only at h1 h2 h4 h5 ⊢
      split at h3
      · rename_i hgt
        have hm : (b + a) / 2 < n := by omega
        split at h3
        · rename_i hc
          rw [hasc, getD_tab _ _ _ hm] at hc
          simp only [Option.some.injEq, Prod.mk.injEq] at h3
          obtain ⟨rfl, rfl⟩ := h3
          refine ⟨⟨by omega, h2, Or.inr ?_, h5⟩, by omega⟩
          rcases hx.dir with rfl | rfl
          · have := hc.mpr rfl
            linarith
          · have : ¬ z ≥ x ((b + a) / 2) := fun h => by
              have := hc.mp h
              norm_num at this
            rw [ge_iff_le, not_le] at this
            linarith
        · rename_i hc
          rw [hasc, getD_tab _ _ _ hm] at hc
          simp only [Option.some.injEq, Prod.mk.injEq] at h3
          obtain ⟨rfl, rfl⟩ := h3
          refine ⟨⟨by omega, hm, h4, Or.inr ?_⟩, by omega⟩
          rcases hx.dir with rfl | rfl
          · have : ¬ z ≥ x ((b + a) / 2) := fun h => hc ⟨fun _ => rfl, fun _ => h⟩
            rw [ge_iff_le, not_le] at this
            linarith
          · have : z ≥ x ((b + a) / 2) := by
              by_contra h
              exact hc ⟨fun h' => absurd h' h, fun h' => by norm_num at h'⟩
            linarith
      · cases h3) ((tab n x).length + 1) (0, (tab n x).length - 1)
      ⟨by simp only [length_tab]; omega, by simp only [length_tab]; omega, Or.inl rfl, Or.inl (by simp only [length_tab]; omega)⟩ (by simp only [length_tab]; omega)
  have h6 : s.2 = s.1 + 1 := by
    simp only [locateStep] at h3
    split at h3
    · split at h3 <;> cases h3
    · omega
  rw [search, hs]
  dsimp only
  refine ⟨by omega, h4, ?_⟩
  rw [h6] at h5
  rcases h5 with h5 | h5
  · exact Or.inl (by omega)
  · exact Or.inr h5

end Verif.Interp
