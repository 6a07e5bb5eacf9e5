import Verif.Interp.PolyLemmas
import Verif.Interp.LinearProps

/-!
# Polynomial interpolation (C82)

The points used at `z` are those with the indices from `t.locate z` to `t.locate z + used - 1` (see `locate_brackets`).
-/

set_option autoImplicit false

namespace Verif.Interp

open Verif Polynomial Set

/-- C82: for every table, ordered or not, the value returned at `z` is that of the polynomial of degree below the number of points
used which passes through the points used. -/
theorem poly_value (n : ℕ) (x y : ℕ → ℝ) (used : ℤ) (t : Table) (h : Table.new (tab n x) (tab n y) used = .ret t) (z : ℝ)
    (p : ℝ[X]) (hdeg : p.degree < t.used) (hp : ∀ i, t.locate z ≤ i → i < t.locate z + t.used → p.eval (x i) = y i) :
    ∃ e, polyEval t z = .ret (p.eval z, e) := by
  have hwin := locate_window _ _ _ _ h z
  rw [table_new_spec, length_tab] at h
  rw [length_tab] at hwin
  split at h
  · rename_i hc
    cases h
    have hK : 2 ≤ used.toNat := by omega
    have hx := nodup_tab.mp hc.2.2.2
    dsimp only at hwin hp hdeg
    rw [polyEval]
    generalize Table.locate _ z = s at *
    obtain ⟨e, he, -⟩ := polyCalc_eq x y hx used.toNat s hK hwin z
    refine ⟨e, he.trans ?_⟩
    congr 2
    have hin : Set.InjOn x (Finset.Icc s (s + (used.toNat - 1))) := by
      intro a ha b hb hab
      simp only [Finset.coe_Icc, Set.mem_Icc] at ha hb
      by_contra hne
      rcases lt_or_gt_of_ne hne with hl | hl
      · exact hx a b hl (by omega) hab
      · exact hx b a hl (by omega) hab.symm
    rw [← Lagrange.eq_interpolate_of_eval_eq y hin (f := p) ?_ ?_]
    · rw [Nat.card_Icc]
      rw [show s + (used.toNat - 1) + 1 - s = used.toNat by omega]
      exact hdeg
    · intro i hi
      rw [Finset.mem_Icc] at hi
      exact hp i hi.1 (by omega)
  · cases h

/-- C82: such a polynomial exists, so an evaluation always returns. -/
theorem poly_total (n : ℕ) (x y : ℕ → ℝ) (used : ℤ) (t : Table) (h : Table.new (tab n x) (tab n y) used = .ret t) (z : ℝ) :
    ∃ p : ℝ[X], p.degree < t.used ∧ (∀ i, t.locate z ≤ i → i < t.locate z + t.used → p.eval (x i) = y i) ∧
      ∃ e, polyEval t z = .ret (p.eval z, e) := by
  have hwin := locate_window _ _ _ _ h z
  have hx : Distinct n x := by
    rw [table_new_spec] at h
    split at h
    · rename_i hc
      exact nodup_tab.mp hc.2.2.2
    · cases h
  rw [length_tab] at hwin
  have hin : Set.InjOn x (Finset.Ico (t.locate z) (t.locate z + t.used)) := by
    intro a ha b hb hab
    simp only [Finset.coe_Ico, Set.mem_Ico] at ha hb
    by_contra hne
    rcases lt_or_gt_of_ne hne with hl | hl
    · exact hx a b hl (by omega) hab
    · exact hx b a hl (by omega) hab.symm
  have hdeg := Lagrange.degree_interpolate_lt y hin
  rw [Nat.card_Ico, Nat.add_sub_cancel_left] at hdeg
  have hp : ∀ i, t.locate z ≤ i → i < t.locate z + t.used →
      (Lagrange.interpolate (Finset.Ico (t.locate z) (t.locate z + t.used)) x y).eval (x i) = y i := fun i h1 h2 =>
    Lagrange.eval_interpolate_at_node y hin (Finset.mem_Ico.mpr ⟨h1, h2⟩)
  exact ⟨_, hdeg, hp, poly_value n x y used t h z _ hdeg hp⟩

/-- C82: the error estimate is the difference to the value obtained with one point less, the first or the last of those used. -/
theorem poly_estimate (n : ℕ) (x y : ℕ → ℝ) (used : ℤ) (t : Table) (h : Table.new (tab n x) (tab n y) used = .ret t) (z : ℝ) :
    ∃ v e, polyEval t z = .ret (v, e) ∧ ∃ o, (o = 0 ∨ o = 1) ∧ ∀ q : ℝ[X], q.degree < ((t.used - 1 : ℕ) : WithBot ℕ) →
      (∀ i, t.locate z + o ≤ i → i + 1 < t.locate z + o + t.used → q.eval (x i) = y i) → e = v - q.eval z := by
  have hwin := locate_window _ _ _ _ h z
  rw [table_new_spec, length_tab] at h
  rw [length_tab] at hwin
  split at h
  · rename_i hc
    cases h
    have hK : 2 ≤ used.toNat := by omega
    have hx := nodup_tab.mp hc.2.2.2
    dsimp only at hwin ⊢
    rw [polyEval]
    generalize Table.locate _ z = s at *
    obtain ⟨e, he, hor⟩ := polyCalc_eq x y hx used.toNat s hK hwin z
    refine ⟨_, e, he, ?_⟩
    have hin : ∀ o, o = 0 ∨ o = 1 → Set.InjOn x (Finset.Icc (s + o) (s + o + (used.toNat - 2))) := by
      intro o ho a ha b hb hab
      simp only [Finset.coe_Icc, Set.mem_Icc] at ha hb
      by_contra hne
      rcases lt_or_gt_of_ne hne with hl | hl
      · exact hx a b hl (by omega) hab
      · exact hx b a hl (by omega) hab.symm
    have key : ∀ o, o = 0 ∨ o = 1 → ∀ q : ℝ[X], q.degree < ((used.toNat - 1 : ℕ) : WithBot ℕ) →
        (∀ i, s + o ≤ i → i + 1 < s + o + used.toNat → q.eval (x i) = y i) →
        q.eval z = (Lagrange.interpolate (Finset.Icc (s + o) (s + o + (used.toNat - 2))) x y).eval z := by
      intro o ho q hq hqi
      congr 1
      refine Lagrange.eq_interpolate_of_eval_eq y (hin o ho) ?_ fun i hi => ?_
      · rw [Nat.card_Icc, show s + o + (used.toNat - 2) + 1 - (s + o) = used.toNat - 1 by omega]
        exact hq
      · rw [Finset.mem_Icc] at hi
        exact hqi i hi.1 (by omega)
    rcases hor with hor | hor
    · refine ⟨0, Or.inl rfl, fun q hq hqi => ?_⟩
      rw [key 0 (Or.inl rfl) q hq hqi]
      exact hor
    · refine ⟨1, Or.inr rfl, fun q hq hqi => ?_⟩
      rw [key 1 (Or.inr rfl) q hq hqi]
      exact hor
  · cases h

/-- C82: values of a polynomial of low degree are reproduced everywhere, outside the table too. -/
theorem poly_exact (n : ℕ) (x : ℕ → ℝ) (p : ℝ[X]) (used : ℤ) (t : Table)
    (h : Table.new (tab n x) (tab n fun i => p.eval (x i)) used = .ret t) (hdeg : p.degree < t.used) (z : ℝ) :
    ∃ e, polyEval t z = .ret (p.eval z, e) :=
  poly_value n x _ used t h z p hdeg fun _ _ _ => rfl

/-- C82: a point of an ordered table is among the points used for it. -/
theorem locate_node (n : ℕ) (x : ℕ → ℝ) (y : List ℝ) (hx : Increasing n x ∨ Decreasing n x) (used : ℤ) (t : Table)
    (h : Table.new (tab n x) y used = .ret t) (k : ℕ) (hk : k < n) : t.locate (x k) ≤ k ∧ k < t.locate (x k) + t.used := by
  obtain ⟨i, hi, h1, h2, h3, -⟩ := locate_brackets n x _ hx used t h (x k)
  have hin : Between (x 0) (x k) (x (n - 1)) := by
    rcases hx with hx | hx
    · have := hx.ordered.le (Nat.zero_le k) hk
      have := hx.ordered.le (show k ≤ n - 1 by omega) (by omega)
      exact Or.inl ⟨by linarith, by linarith⟩
    · have := hx.ordered.le (Nat.zero_le k) hk
      have := hx.ordered.le (show k ≤ n - 1 by omega) (by omega)
      exact Or.inr ⟨by linarith, by linarith⟩
  have hb : Between (x i) (x k) (x (i + 1)) := by
    rcases h3 with h3 | h3 | h3
    · exact h3
    · exact absurd hin h3.2
    · exact absurd hin h3.2
  have hki : k = i ∨ k = i + 1 := by
    by_contra hne
    rcases hx with hx | hx
    · have h4 := hx i (i + 1) (by omega) hi
      rcases Nat.lt_or_ge k i with hl | hl
      · have := hx k i hl (by omega)
        rcases hb with ⟨b1, b2⟩ | ⟨b1, b2⟩ <;> linarith
      · have := hx (i + 1) k (by omega) hk
        rcases hb with ⟨b1, b2⟩ | ⟨b1, b2⟩ <;> linarith
    · have h4 := hx i (i + 1) (by omega) hi
      rcases Nat.lt_or_ge k i with hl | hl
      · have := hx k i hl (by omega)
        rcases hb with ⟨b1, b2⟩ | ⟨b1, b2⟩ <;> linarith
      · have := hx (i + 1) k (by omega) hk
        rcases hb with ⟨b1, b2⟩ | ⟨b1, b2⟩ <;> linarith
  omega

/-- C82: at the points of an ordered table the values given are returned. -/
theorem poly_interpolates (n : ℕ) (x y : ℕ → ℝ) (hx : Increasing n x ∨ Decreasing n x) (used : ℤ) (t : Table)
    (h : Table.new (tab n x) (tab n y) used = .ret t) (k : ℕ) (hk : k < n) :
    ∃ e, polyEval t (x k) = .ret (y k, e) := by
  obtain ⟨p, hdeg, hp, e, he⟩ := poly_total n x y used t h (x k)
  obtain ⟨h1, h2⟩ := locate_node n x _ hx used t h k hk
  exact ⟨e, by rw [he, hp k h1 h2]⟩

/-- C82: for a table of values of a function the error is at most the bound of its derivative, divided by a factorial and multiplied by
the distances to the points used. -/
theorem poly_error (n : ℕ) (x : ℕ → ℝ) (g : ℝ → ℝ) (used : ℤ) (t : Table)
    (h : Table.new (tab n x) (tab n fun i => g (x i)) used = .ret t) (a b : ℝ) (hab : a < b) (hg : ContDiffOn ℝ t.used g (Icc a b))
    (M : ℝ) (hM : ∀ ξ ∈ Icc a b, |iteratedDerivWithin t.used g (Icc a b) ξ| ≤ M) (z : ℝ) (hz : z ∈ Icc a b)
    (hw : ∀ i, t.locate z ≤ i → i < t.locate z + t.used → x i ∈ Icc a b) :
    ∃ v e, polyEval t z = .ret (v, e) ∧
      |g z - v| ≤ M / t.used.factorial * ∏ i ∈ Finset.Ico (t.locate z) (t.locate z + t.used), |z - x i| := by
  have hwin := locate_window _ _ _ _ h z
  have hx : Distinct n x := by
    rw [table_new_spec] at h
    split at h
    · rename_i hc
      exact nodup_tab.mp hc.2.2.2
    · cases h
  rw [length_tab] at hwin
  have hin : Set.InjOn x (Finset.Ico (t.locate z) (t.locate z + t.used)) := by
    intro a ha b hb hab
    simp only [Finset.coe_Ico, Set.mem_Ico] at ha hb
    by_contra hne
    rcases lt_or_gt_of_ne hne with hl | hl
    · exact hx a b hl (by omega) hab
    · exact hx b a hl (by omega) hab.symm
  have hcard : (Finset.Ico (t.locate z) (t.locate z + t.used)).card = t.used := by
    rw [Nat.card_Ico, Nat.add_sub_cancel_left]
  obtain ⟨p, hdeg, hp, e, he⟩ := poly_total n x _ used t h z
  refine ⟨_, e, he, ?_⟩
  have hpe : p = Lagrange.interpolate (Finset.Ico (t.locate z) (t.locate z + t.used)) x fun i => g (x i) := by
    refine Lagrange.eq_interpolate_of_eval_eq _ hin (by rw [hcard]; exact hdeg) fun i hi => ?_
    rw [Finset.mem_Ico] at hi
    exact hp i hi.1 hi.2
  obtain ⟨ξ, hξ, herr⟩ := interp_error _ x hin hab g (by rw [hcard]; exact hg)
    (fun i hi => by rw [Finset.mem_Ico] at hi; exact hw i hi.1 hi.2) hz
  rw [hcard] at herr
  rw [hpe, herr, abs_mul, abs_div, Finset.abs_prod, Nat.abs_cast]
  refine mul_le_mul_of_nonneg_right ?_ (Finset.prod_nonneg fun _ _ => abs_nonneg _)
  exact div_le_div_of_nonneg_right (hM ξ hξ) (Nat.cast_nonneg _)

/-- Non-vacuity: the cubes at `0, 1, 4, 9, 16` with four points used are reproduced at 2. -/
example : ∃ t e, Table.new (tab 5 fun i => (i : ℝ) ^ 2) (tab 5 fun i => ((i : ℝ) ^ 2) ^ 3) 4 = .ret t ∧ polyEval t 2 = .ret (8, e) := by
  have hinc : Increasing 5 fun i => (i : ℝ) ^ 2 := by
    intro i j hij hj
    dsimp only
    have h1 : (i : ℝ) < j := by exact_mod_cast hij
    have h0 : (0 : ℝ) ≤ i := Nat.cast_nonneg i
    nlinarith
  have ht : Table.new (tab 5 fun i => (i : ℝ) ^ 2) (tab 5 fun i => (X ^ 3 : ℝ[X]).eval ((i : ℝ) ^ 2)) 4 =
      .ret ⟨tab 5 fun i => (i : ℝ) ^ 2, tab 5 fun i => (X ^ 3 : ℝ[X]).eval ((i : ℝ) ^ 2), 4⟩ := by
    rw [table_new_spec, if_pos]
    · rfl
    simp only [length_tab]
    exact ⟨by norm_num, by norm_num, by norm_num, nodup_tab.mpr hinc.ordered.distinct⟩
  obtain ⟨e, he⟩ := poly_exact 5 (fun i => (i : ℝ) ^ 2) (X ^ 3) 4 _ ht (by rw [degree_X_pow]; norm_num) 2
  simp only [eval_pow, eval_X] at ht he
  refine ⟨_, e, ht, ?_⟩
  rw [he]
  norm_num

end Verif.Interp
