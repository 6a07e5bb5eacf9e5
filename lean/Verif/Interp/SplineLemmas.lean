import Verif.Interp.Lemmas
import Mathlib.Tactic.LinearCombination

/-!
# Facts about the second derivatives computed by `SplineInterpRealFunc`
-/

set_option autoImplicit false

namespace Verif.Interp

open Verif

/-- The condition at the left end. -/
def FirstEq (x y : ℕ → ℝ) (yp1 : ℝ) (M : ℕ → ℝ) : Prop :=
  if yp1 > 99 / 100 * 10 ^ 99 then M 0 = 0 else (x 1 - x 0) * (2 * M 0 + M 1) = 6 * ((y 1 - y 0) / (x 1 - x 0) - yp1)

/-- The condition at the right end, the last index being `l + 1`. -/
def LastEq (x y : ℕ → ℝ) (l : ℕ) (ypn : ℝ) (M : ℕ → ℝ) : Prop :=
  if ypn > 99 / 100 * 10 ^ 99 then M (l + 1) = 0
  else (x (l + 1) - x l) * (M l + 2 * M (l + 1)) = 6 * (ypn - (y (l + 1) - y l) / (x (l + 1) - x l))

/-- The condition at an inner point. -/
def InnerEq (x y M : ℕ → ℝ) (i : ℕ) : Prop :=
  (x (i + 1) - x i) * M i + 2 * (x (i + 2) - x i) * M (i + 1) + (x (i + 2) - x (i + 1)) * M (i + 2) =
    6 * ((y (i + 2) - y (i + 1)) / (x (i + 2) - x (i + 1)) - (y (i + 1) - y i) / (x (i + 1) - x i))

theorem splineFirst_eq {n : ℕ} (x y : ℕ → ℝ) (hn : 2 ≤ n) (hne : x 0 ≠ x 1) (yp1 : ℝ) :
    ∃ s u, splineFirst ⟨tab n x, tab n y, 2⟩ yp1 = .ret (s, u) ∧ -1 < s ∧ s ≤ 0 ∧
      ∀ M : ℕ → ℝ, M 0 = s * M 1 + u → FirstEq x y yp1 M := by
  have h1 : x 1 - x 0 ≠ 0 := sub_ne_zero.mpr hne.symm
  rw [splineFirst]
  by_cases hc : yp1 > 99 / 100 * 10 ^ 99
  · rw [if_pos hc]
    refine ⟨0, 0, rfl, by norm_num, le_rfl, fun M hM => ?_⟩
    rw [FirstEq, if_pos hc, hM]
    ring
  · rw [if_neg hc]
    simp only [Table.X, Table.Y]
    rw [index_tab x (by omega), index_tab x (by omega), index_tab y (by omega), index_tab y (by omega)]
    simp only [Outcome.bind_ret, fdiv, if_neg h1]
    refine ⟨_, _, rfl, by norm_num, by norm_num, fun M hM => ?_⟩
    rw [FirstEq, if_neg hc, hM]
    field_simp
    ring

theorem splineLast_eq {l : ℕ} (x y : ℕ → ℝ) (hne : x l ≠ x (l + 1)) (ypn : ℝ) :
    ∃ q u, splineLast ⟨tab (l + 2) x, tab (l + 2) y, 2⟩ ypn = .ret (q, u) ∧ 0 ≤ q ∧ q < 1 ∧
      ∀ M : ℕ → ℝ, M (l + 1) + q * M l = u → LastEq x y l ypn M := by
  have h1 : x (l + 1) - x l ≠ 0 := sub_ne_zero.mpr hne.symm
  rw [splineLast]
  by_cases hc : ypn > 99 / 100 * 10 ^ 99
  · rw [if_pos hc]
    refine ⟨0, 0, rfl, le_rfl, by norm_num, fun M hM => ?_⟩
    rw [LastEq, if_pos hc]
    linarith
  · rw [if_neg hc]
    simp only [Table.X, Table.Y, length_tab]
    rw [show l + 2 - 2 = l by omega, show l + 2 - 1 = l + 1 by omega, index_tab x (by omega), index_tab x (by omega),
      index_tab y (by omega), index_tab y (by omega)]
    simp only [Outcome.bind_ret, fdiv, if_neg h1]
    refine ⟨_, _, rfl, by norm_num, by norm_num, fun M hM => ?_⟩
    rw [LastEq, if_neg hc]
    have : M l = 2 * (3 / (x (l + 1) - x l) * (ypn - (y (l + 1) - y l) / (x (l + 1) - x l)) - M (l + 1)) := by
      rw [← hM]
      ring
    rw [this]
    field_simp
    ring

theorem sig_mem {σ : ℝ} {n : ℕ} {x : ℕ → ℝ} (hx : Ordered σ n x) {i : ℕ} (hi : i + 2 < n) :
    0 < (x (i + 1) - x i) / (x (i + 2) - x i) ∧ (x (i + 1) - x i) / (x (i + 2) - x i) < 1 := by
  have h1 := hx.lt i (i + 1) (by omega) (by omega)
  have h2 := hx.lt (i + 1) (i + 2) (by omega) hi
  have e : (x (i + 1) - x i) / (x (i + 2) - x i) = (σ * x (i + 1) - σ * x i) / (σ * x (i + 2) - σ * x i) := by
    rw [← mul_sub, ← mul_sub, mul_div_mul_left]
    rcases hx.dir with rfl | rfl <;> norm_num
  rw [e]
  have h3 : 0 < σ * x (i + 2) - σ * x i := by linarith
  exact ⟨div_pos (by linarith) h3, by rw [div_lt_one h3]; linarith⟩

/-- What the forward sweep establishes. -/
structure Fwd (x y s u : ℕ → ℝ) (i : ℕ) : Prop where
  sec : ((x (i + 1) - x i) / (x (i + 2) - x i) * s i + 2) * s (i + 1) = (x (i + 1) - x i) / (x (i + 2) - x i) - 1
  rhs : ((x (i + 1) - x i) / (x (i + 2) - x i) * s i + 2) * u (i + 1) =
    6 * ((y (i + 2) - y (i + 1)) / (x (i + 2) - x (i + 1)) - (y (i + 1) - y i) / (x (i + 1) - x i)) / (x (i + 2) - x i) -
      (x (i + 1) - x i) / (x (i + 2) - x i) * u i

theorem forward_eq {σ : ℝ} {n : ℕ} (x y : ℕ → ℝ) (hx : Ordered σ n x) (hn : 2 ≤ n) (s0 u0 : ℝ) (h0 : -1 < s0 ∧ s0 ≤ 0)
    (sv uv : ℕ → ℝ) (hs0 : sv 0 = s0) (hu0 : uv 0 = u0) :
    ∃ s u, forFromTo 1 (n - 1) (tab n sv, tab (n - 1) uv) (splineForward ⟨tab n x, tab n y, 2⟩) = .ret (tab n s, tab (n - 1) u) ∧
      s 0 = s0 ∧ u 0 = u0 ∧ (∀ i, i < n - 1 → -1 < s i ∧ s i ≤ 0) ∧ ∀ i, i + 2 < n → Fwd x y s u i := by
  obtain ⟨t, ht, s, u, rfl, h1, h2, h3, h4⟩ := forFromTo_rule
    (fun k (t : List ℝ × List ℝ) => ∃ s u, t = (tab n s, tab (n - 1) u) ∧ s 0 = s0 ∧ u 0 = u0 ∧
      (∀ i, i < k → -1 < s i ∧ s i ≤ 0) ∧ ∀ i, i + 1 < k → Fwd x y s u i)
    1 (n - 1) (by omega) (tab n sv, tab (n - 1) uv) (splineForward ⟨tab n x, tab n y, 2⟩)
    ⟨sv, uv, rfl, hs0, hu0, fun i hi => by
      obtain rfl : i = 0 := by omega
      rw [hs0]
      exact h0, fun i hi => by omega⟩
    (by
      rintro k t hk1 hkn ⟨s, u, rfl, h1, h2, h3, h4⟩
      obtain ⟨k, rfl⟩ : ∃ j, k = j + 1 := ⟨k - 1, by omega⟩
      obtain ⟨g1, g2⟩ := sig_mem hx (show k + 2 < n by omega)
      obtain ⟨b1, b2⟩ := h3 k (by omega)
      have hp : 1 < (x (k + 1) - x k) / (x (k + 2) - x k) * s k + 2 := by nlinarith
      have e1 : x (k + 2) - x k ≠ 0 := sub_ne_zero.mpr (hx.ne (show k < k + 2 by omega) (by omega)).symm
      have e2 : x (k + 2) - x (k + 1) ≠ 0 := sub_ne_zero.mpr (hx.ne (show k + 1 < k + 2 by omega) (by omega)).symm
      have e3 : x (k + 1) - x k ≠ 0 := sub_ne_zero.mpr (hx.ne (show k < k + 1 by omega) (by omega)).symm
      have e4 : (x (k + 1) - x k) / (x (k + 2) - x k) * s k + 2 ≠ 0 := by linarith
      generalize hv : ((x (k + 1) - x k) / (x (k + 2) - x k) - 1) / ((x (k + 1) - x k) / (x (k + 2) - x k) * s k + 2) = v
      generalize hw : (6 * ((y (k + 2) - y (k + 1)) / (x (k + 2) - x (k + 1)) - (y (k + 1) - y k) / (x (k + 1) - x k)) /
        (x (k + 2) - x k) - (x (k + 1) - x k) / (x (k + 2) - x k) * u k) / ((x (k + 1) - x k) / (x (k + 2) - x k) * s k + 2) = w
      have hv' : ((x (k + 1) - x k) / (x (k + 2) - x k) * s k + 2) * v = (x (k + 1) - x k) / (x (k + 2) - x k) - 1 := by
        rw [← hv, mul_div_cancel₀ _ e4]
      have hw' : ((x (k + 1) - x k) / (x (k + 2) - x k) * s k + 2) * w =
          6 * ((y (k + 2) - y (k + 1)) / (x (k + 2) - x (k + 1)) - (y (k + 1) - y k) / (x (k + 1) - x k)) / (x (k + 2) - x k) -
            (x (k + 1) - x k) / (x (k + 2) - x k) * u k := by
        rw [← hw, mul_div_cancel₀ _ e4]
      refine ⟨(tab n fun i => if i = k + 1 then v else s i, tab (n - 1) fun i => if i = k + 1 then w else u i), ?_, _, _, rfl, ?_, ?_, ?_, ?_⟩
      · rw [splineForward]
        simp only [Table.X, Table.Y, Nat.add_sub_cancel]
        rw [index_tab x (show k < n by omega), index_tab x (show k + 1 < n by omega), index_tab x (show k + 1 + 1 < n by omega),
          index_tab y (show k < n by omega), index_tab y (show k + 1 < n by omega), index_tab y (show k + 1 + 1 < n by omega),
          index_tab s (show k < n by omega), index_tab u (show k < n - 1 by omega)]
        simp only [Outcome.bind_ret, fdiv, show k + 1 + 1 = k + 2 from rfl, if_neg e1, if_neg e2, if_neg e3, if_neg e4]
        rw [store_tab s (show k + 1 < n by omega), store_tab u (show k + 1 < n - 1 by omega)]
        simp only [Outcome.bind_ret, hv, hw]
      · rw [if_neg (by omega), h1]
      · rw [if_neg (by omega), h2]
      · intro i hi
        split
        · constructor
          · by_contra hcon
            rw [not_lt] at hcon
            nlinarith
          · by_contra hcon
            rw [not_le] at hcon
            nlinarith
        · exact h3 i (by omega)
      · intro i hi
        rcases Nat.lt_or_ge i k with hik | hik
        · obtain ⟨f1, f2⟩ := h4 i (by omega)
          constructor
          · rw [if_neg (by omega), if_neg (by omega)]
            exact f1
          · rw [if_neg (by omega), if_neg (by omega), if_neg (by omega)]
            exact f2
        · obtain rfl : i = k := by omega
          constructor
          · rw [if_neg (by omega), if_pos rfl]
            exact hv'
          · rw [if_neg (by omega), if_pos rfl, if_neg (by omega)]
            exact hw')
  exact ⟨s, u, ht, h1, h2, h3, fun i hi => h4 i (by omega)⟩

theorem back_eq {n : ℕ} (hn : 1 ≤ n) (s u : ℕ → ℝ) :
    ∃ M, forDown 0 (n - 1) (tab n s) (splineBack (tab (n - 1) u)) = .ret (tab n M) ∧ M (n - 1) = s (n - 1) ∧
      ∀ i, i + 1 < n → M i = s i * M (i + 1) + u i := by
  obtain ⟨t, ht, M, rfl, -, h2, h3⟩ := forDown_rule
    (fun k (t : List ℝ) => ∃ M, t = tab n M ∧ (∀ i, i < k → M i = s i) ∧ M (n - 1) = s (n - 1) ∧
      ∀ i, k ≤ i → i + 1 < n → M i = s i * M (i + 1) + u i)
    0 (n - 1) (Nat.zero_le _) (tab n s) (splineBack (tab (n - 1) u))
    ⟨s, rfl, fun _ _ => rfl, rfl, fun i h1 h2 => by omega⟩
    (by
      rintro k t - hk ⟨M, rfl, h1, h2, h3⟩
      refine ⟨tab n fun i => if i = k then s k * M (k + 1) + u k else M i, ?_, _, rfl, ?_, ?_, ?_⟩
      · rw [splineBack, index_tab M (show k < n by omega), index_tab M (show k + 1 < n by omega), index_tab u hk]
        simp only [Outcome.bind_ret]
        rw [store_tab M (show k < n by omega), h1 k (by omega)]
      · intro i hi
        rw [if_neg (by omega)]
        exact h1 i (by omega)
      · rw [if_neg (by omega)]
        exact h2
      · intro i hki hi
        rcases hki.lt_or_eq with h | rfl
        · rw [if_neg (by omega), if_neg (by omega)]
          exact h3 i (by omega) hi
        · rw [if_pos rfl, if_neg (by omega)])
  exact ⟨M, ht, h2, fun i hi => h3 i (Nat.zero_le _) hi⟩

/-- The second derivatives solve the equations of the cubic spline. -/
theorem initSecDerivs_eq {σ : ℝ} {l : ℕ} (x y : ℕ → ℝ) (hx : Ordered σ (l + 2) x) (yp1 ypn : ℝ) :
    ∃ M, initSecDerivs ⟨tab (l + 2) x, tab (l + 2) y, 2⟩ yp1 ypn = .ret (tab (l + 2) M) ∧ FirstEq x y yp1 M ∧
      LastEq x y l ypn M ∧ ∀ i, i < l → InnerEq x y M i := by
  obtain ⟨s0, u0, hf, b1, b2, hfirst⟩ := splineFirst_eq (n := l + 2) x y (by omega) (hx.ne (show 0 < 1 by omega) (by omega)) yp1
  obtain ⟨q, un, hlst, q1, q2, hlast⟩ := splineLast_eq x y (hx.ne (show l < l + 1 by omega) (by omega)) ypn
  obtain ⟨s, u, hfw, hs0, hu0, hb, hrec⟩ := forward_eq x y hx (by omega) s0 u0 ⟨b1, b2⟩ (fun k => if k = 0 then s0 else 0)
    (fun k => if k = 0 then u0 else 0) rfl rfl
  obtain ⟨c1, c2⟩ := hb l (by omega)
  have e1 : q * s l + 1 ≠ 0 := by nlinarith
  obtain ⟨M, hbk, hMl, hM⟩ := back_eq (n := l + 2) (by omega) (fun i => if i = l + 1 then (un - q * u l) / (q * s l + 1) else s i) u
  have hM' : ∀ i, i ≤ l → M i = s i * M (i + 1) + u i := by
    intro i hi
    have := hM i (by omega)
    rwa [if_neg (by omega)] at this
  refine ⟨M, ?_, hfirst M ?_, hlast M ?_, fun i hi => ?_⟩
  · rw [initSecDerivs, hf]
    simp only [Outcome.bind_ret, length_tab]
    rw [replicate_eq_tab, replicate_eq_tab, store_tab _ (by omega), store_tab _ (by omega)]
    simp only [Outcome.bind_ret]
    rw [hfw]
    simp only [Outcome.bind_ret]
    rw [hlst]
    simp only [Outcome.bind_ret]
    rw [show l + 2 - 2 = l by omega, show l + 2 - 1 = l + 1 by omega, index_tab u (by omega), index_tab s (by omega)]
    simp only [Outcome.bind_ret, fdiv, if_neg e1]
    rw [store_tab s (by omega)]
    simp only [Outcome.bind_ret]
    exact hbk
  · rw [hM' 0 (by omega), hs0, hu0]
  · have h1 : M (l + 1) = (un - q * u l) / (q * s l + 1) := by
      rw [show l + 2 - 1 = l + 1 by omega, if_pos rfl] at hMl
      exact hMl
    have h2 : M (l + 1) * (q * s l + 1) = un - q * u l := by
      rw [h1, div_mul_cancel₀ _ e1]
    rw [hM' l le_rfl]
    linear_combination h2
  · obtain ⟨f1, f2⟩ := hrec i (by omega)
    have d1 : x (i + 2) - x i ≠ 0 := sub_ne_zero.mpr (hx.ne (show i < i + 2 by omega) (by omega)).symm
    have m0 := hM' i (by omega)
    have m1 := hM' (i + 1) (by omega)
    rw [InnerEq]
    generalize 6 * ((y (i + 2) - y (i + 1)) / (x (i + 2) - x (i + 1)) - (y (i + 1) - y i) / (x (i + 1) - x i)) = w at *
    generalize hg : (x (i + 1) - x i) / (x (i + 2) - x i) = g at *
    have hg' : x (i + 1) - x i = g * (x (i + 2) - x i) := by rw [← hg, div_mul_cancel₀ _ d1]
    have hw : w = w / (x (i + 2) - x i) * (x (i + 2) - x i) := by rw [div_mul_cancel₀ _ d1]
    generalize w / (x (i + 2) - x i) = w' at *
    have hx2 : x (i + 2) - x (i + 1) = (1 - g) * (x (i + 2) - x i) := by linear_combination -hg'
    have key : g * M i + 2 * M (i + 1) + (1 - g) * M (i + 2) = w' := by
      rw [m0]
      have : (g * s i + 2) * M (i + 1) = (g - 1) * M (i + 2) + (w' - g * u i) := by
        rw [← f1, ← f2, m1]
        ring
      linear_combination this
    rw [hg', hx2, hw]
    linear_combination (x (i + 2) - x i) * key

end Verif.Interp
