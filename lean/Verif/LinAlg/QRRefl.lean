import Mathlib.LinearAlgebra.Matrix.SchurComplement
import Mathlib.LinearAlgebra.Matrix.Block
import Mathlib.Analysis.SpecialFunctions.Sqrt
import Mathlib.Tactic

/-! # Helper lemmas: sequences of Householder reflections -/

set_option autoImplicit false

namespace Verif.LinAlg.QR

open Finset

/-- The inner product of the first `m` elements. -/
noncomputable def dot (m : ℕ) (x y : ℕ → ℝ) : ℝ := ∑ i ∈ range m, x i * y i

/-- The reflection `x - (v·x / c) v`. -/
noncomputable def house (m : ℕ) (v : ℕ → ℝ) (c : ℝ) (x : ℕ → ℝ) : ℕ → ℝ := fun i => x i - dot m v x / c * v i

/-- The `k`-th reflection, absent when its divisor is zero. -/
noncomputable def H (m : ℕ) (V : ℕ → ℕ → ℝ) (c : ℕ → ℝ) (k : ℕ) (x : ℕ → ℝ) : ℕ → ℝ :=
  if c k ≠ 0 then house m (V k) (c k) x else x

/-- The first `k` reflections, in order. -/
noncomputable def Qt (m : ℕ) (V : ℕ → ℕ → ℝ) (c : ℕ → ℝ) : ℕ → (ℕ → ℝ) → ℕ → ℝ
  | 0, x => x
  | k + 1, x => H m V c k (Qt m V c k x)

/-- The first `k` reflections, in reverse order. -/
noncomputable def Qm (m : ℕ) (V : ℕ → ℕ → ℝ) (c : ℕ → ℝ) : ℕ → (ℕ → ℝ) → ℕ → ℝ
  | 0, x => x
  | k + 1, x => Qm m V c k (H m V c k x)

/-- The divisors belong to the vectors. -/
def Good (m : ℕ) (V : ℕ → ℕ → ℝ) (c : ℕ → ℝ) (L : ℕ) : Prop := ∀ k < L, c k ≠ 0 → dot m (V k) (V k) = 2 * c k

variable {m : ℕ} {V : ℕ → ℕ → ℝ} {c : ℕ → ℝ}

theorem dot_congr {x x' y y' : ℕ → ℝ} (hx : ∀ i < m, x i = x' i) (hy : ∀ i < m, y i = y' i) : dot m x y = dot m x' y' :=
  sum_congr rfl fun i hi => by rw [hx i (mem_range.1 hi), hy i (mem_range.1 hi)]

theorem dot_comb (v : ℕ → ℝ) (s : Finset ℕ) (a : ℕ → ℝ) (X : ℕ → ℕ → ℝ) :
    dot m v (fun i => ∑ j ∈ s, a j * X j i) = ∑ j ∈ s, a j * dot m v (X j) := by
  simp only [dot, mul_sum]
  rw [sum_comm]
  exact sum_congr rfl fun j _ => sum_congr rfl fun i _ => by ring

theorem dot_sub (v x y : ℕ → ℝ) : dot m v (fun i => x i - y i) = dot m v x - dot m v y := by
  simp only [dot, mul_sub, sum_sub_distrib]

theorem house_sub (v : ℕ → ℝ) (c : ℝ) (x y : ℕ → ℝ) :
    house m v c (fun i => x i - y i) = fun i => house m v c x i - house m v c y i := by
  funext i
  simp only [house, dot_sub]
  ring

theorem house_comb (v : ℕ → ℝ) (c : ℝ) (s : Finset ℕ) (a : ℕ → ℝ) (X : ℕ → ℕ → ℝ) :
    house m v c (fun i => ∑ j ∈ s, a j * X j i) = fun i => ∑ j ∈ s, a j * house m v c (X j) i := by
  funext i
  simp only [house, dot_comb, mul_sub, sum_sub_distrib, sum_div, sum_mul]
  congr 1
  exact sum_congr rfl fun j _ => by ring

theorem dot_shift (v x y : ℕ → ℝ) (p q : ℝ) :
    dot m (fun i => x i - p * v i) (fun i => y i - q * v i) =
      dot m x y - q * dot m v x - p * dot m v y + p * q * dot m v v := by
  simp only [dot, mul_sum]
  rw [← sum_sub_distrib, ← sum_sub_distrib, ← sum_add_distrib]
  exact sum_congr rfl fun i _ => by ring

theorem dot_house {v : ℕ → ℝ} {c : ℝ} (hc : c ≠ 0) (hv : dot m v v = 2 * c) (x y : ℕ → ℝ) :
    dot m (house m v c x) (house m v c y) = dot m x y := by
  have e := dot_shift (m := m) v x y (dot m v x / c) (dot m v y / c)
  rw [hv] at e
  refine e.trans ?_
  field_simp
  ring

theorem house_house {v : ℕ → ℝ} {c : ℝ} (hc : c ≠ 0) (hv : dot m v v = 2 * c) (x : ℕ → ℝ) :
    house m v c (house m v c x) = x := by
  have e : dot m v (house m v c x) = - dot m v x := by
    have e := dot_shift (m := m) v v x 0 (dot m v x / c)
    simp only [zero_mul, sub_zero, add_zero] at e
    rw [hv] at e
    refine e.trans ?_
    field_simp
    ring
  funext i
  show x i - dot m v x / c * v i - dot m v (house m v c x) / c * v i = x i
  rw [e]
  ring

theorem house_congr {v : ℕ → ℝ} {c : ℝ} {x y : ℕ → ℝ} (h : ∀ i < m, x i = y i) {i : ℕ} (hi : i < m) :
    house m v c x i = house m v c y i := by
  rw [house, house, h i hi, dot_congr (fun _ _ => rfl) h]

theorem H_sub (k : ℕ) (x y : ℕ → ℝ) : H m V c k (fun i => x i - y i) = fun i => H m V c k x i - H m V c k y i := by
  unfold H
  split_ifs
  · exact house_sub ..
  · rfl

theorem H_comb (k : ℕ) (s : Finset ℕ) (a : ℕ → ℝ) (X : ℕ → ℕ → ℝ) :
    H m V c k (fun i => ∑ j ∈ s, a j * X j i) = fun i => ∑ j ∈ s, a j * H m V c k (X j) i := by
  unfold H
  split_ifs
  · exact house_comb ..
  · rfl

theorem H_congr (k : ℕ) {x y : ℕ → ℝ} (h : ∀ i < m, x i = y i) {i : ℕ} (hi : i < m) :
    H m V c k x i = H m V c k y i := by
  unfold H
  split_ifs
  · exact house_congr h hi
  · exact h i hi

theorem dot_H {k L : ℕ} (hg : Good m V c L) (hk : k < L) (x y : ℕ → ℝ) :
    dot m (H m V c k x) (H m V c k y) = dot m x y := by
  unfold H
  split_ifs with h
  · exact dot_house h (hg k hk h) x y
  · rfl

theorem H_H {k L : ℕ} (hg : Good m V c L) (hk : k < L) (x : ℕ → ℝ) : H m V c k (H m V c k x) = x := by
  by_cases h : c k ≠ 0
  · rw [H, if_pos h, H, if_pos h, house_house h (hg k hk h)]
  · rw [H, if_neg h, H, if_neg h]

theorem Qt_congr (k : ℕ) {x y : ℕ → ℝ} (h : ∀ i < m, x i = y i) : ∀ i < m, Qt m V c k x i = Qt m V c k y i := by
  induction k with
  | zero => exact h
  | succ k ih => exact fun i hi => H_congr k ih hi

theorem Qm_congr (k : ℕ) : ∀ {x y : ℕ → ℝ}, (∀ i < m, x i = y i) → ∀ i < m, Qm m V c k x i = Qm m V c k y i := by
  induction k with
  | zero => exact fun h => h
  | succ k ih => exact fun h => ih fun i hi => H_congr k h hi

theorem Qt_data {V' : ℕ → ℕ → ℝ} {c' : ℕ → ℝ} (k : ℕ) (hV : ∀ j < k, V' j = V j) (hc : ∀ j < k, c' j = c j)
    (x : ℕ → ℝ) : Qt m V' c' k x = Qt m V c k x := by
  induction k with
  | zero => rfl
  | succ k ih =>
    rw [Qt, Qt, ih (fun j hj => hV j (by omega)) (fun j hj => hc j (by omega)), H, H, hV k (by omega), hc k (by omega)]

theorem Qt_sub (k : ℕ) (x y : ℕ → ℝ) : Qt m V c k (fun i => x i - y i) = fun i => Qt m V c k x i - Qt m V c k y i := by
  induction k with
  | zero => rfl
  | succ k ih => rw [Qt, ih, H_sub]; rfl

theorem Qm_sub (k : ℕ) : ∀ (x y : ℕ → ℝ),
    Qm m V c k (fun i => x i - y i) = fun i => Qm m V c k x i - Qm m V c k y i := by
  induction k with
  | zero => exact fun _ _ => rfl
  | succ k ih => intro x y; rw [Qm, H_sub, ih]; rfl

theorem Qt_comb (k : ℕ) (s : Finset ℕ) (a : ℕ → ℝ) (X : ℕ → ℕ → ℝ) :
    Qt m V c k (fun i => ∑ j ∈ s, a j * X j i) = fun i => ∑ j ∈ s, a j * Qt m V c k (X j) i := by
  induction k with
  | zero => rfl
  | succ k ih => rw [Qt, ih, H_comb]; rfl

theorem Qm_comb (k : ℕ) (s : Finset ℕ) (a : ℕ → ℝ) : ∀ (X : ℕ → ℕ → ℝ),
    Qm m V c k (fun i => ∑ j ∈ s, a j * X j i) = fun i => ∑ j ∈ s, a j * Qm m V c k (X j) i := by
  induction k with
  | zero => exact fun _ => rfl
  | succ k ih => intro X; rw [Qm, H_comb, ih]; rfl

theorem dot_Qt {L : ℕ} (hg : Good m V c L) {k : ℕ} (hk : k ≤ L) (x y : ℕ → ℝ) :
    dot m (Qt m V c k x) (Qt m V c k y) = dot m x y := by
  induction k with
  | zero => rfl
  | succ k ih => rw [Qt, Qt, dot_H hg (by omega), ih (by omega)]

theorem dot_Qm {L : ℕ} (hg : Good m V c L) {k : ℕ} (hk : k ≤ L) : ∀ (x y : ℕ → ℝ),
    dot m (Qm m V c k x) (Qm m V c k y) = dot m x y := by
  induction k with
  | zero => exact fun _ _ => rfl
  | succ k ih => intro x y; rw [Qm, Qm, ih (by omega), dot_H hg (by omega)]

theorem Qm_Qt {L : ℕ} (hg : Good m V c L) {k : ℕ} (hk : k ≤ L) (x : ℕ → ℝ) : Qm m V c k (Qt m V c k x) = x := by
  induction k with
  | zero => rfl
  | succ k ih => rw [Qm, Qt, H_H hg (by omega), ih (by omega)]

theorem Qt_Qm {L : ℕ} (hg : Good m V c L) {k : ℕ} (hk : k ≤ L) : ∀ (x : ℕ → ℝ), Qt m V c k (Qm m V c k x) = x := by
  induction k with
  | zero => exact fun _ => rfl
  | succ k ih => intro x; rw [Qm, Qt, ih (by omega), H_H hg (by omega)]

theorem Qt_stop {L n : ℕ} (hLn : L ≤ n) (hz : ∀ k, L ≤ k → k < n → c k = 0) (x : ℕ → ℝ) : Qt m V c n x = Qt m V c L x := by
  induction n, hLn using Nat.le_induction with
  | base => rfl
  | succ n h ih =>
    rw [Qt, ih (fun k h1 h2 => hz k h1 (by omega)), H, if_neg (by simpa using hz n h (by omega))]

theorem Qm_stop {L n : ℕ} (hLn : L ≤ n) (hz : ∀ k, L ≤ k → k < n → c k = 0) (x : ℕ → ℝ) : Qm m V c n x = Qm m V c L x := by
  induction n, hLn using Nat.le_induction with
  | base => rfl
  | succ n h ih =>
    rw [Qm, H, if_neg (by simpa using hz n h (by omega)), ih (fun k h1 h2 => hz k h1 (by omega))]

/-- A vector orthogonal to the reflection vector stays. -/
theorem H_fix (k : ℕ) {x : ℕ → ℝ} (h : dot m (V k) x = 0) : H m V c k x = x := by
  unfold H
  split_ifs
  · funext i; rw [house, h]; ring
  · rfl

/-- A reflection changes the sign of the determinant. -/
theorem det_house {n : ℕ} {v : ℕ → ℝ} {c : ℝ} (hc : c ≠ 0) (hv : dot n v v = 2 * c) (X : ℕ → ℕ → ℝ) :
    (Matrix.of fun i j : Fin n => house n v c (X j) i).det = -(Matrix.of fun i j : Fin n => X j i).det := by
  have e : (Matrix.of fun i j : Fin n => house n v c (X j) i) =
      ((1 : Matrix (Fin n) (Fin n) ℝ) + Matrix.replicateCol Unit (fun i : Fin n => -(v i / c)) *
        Matrix.replicateRow Unit (fun i : Fin n => v i)) * (Matrix.of fun i j : Fin n => X j i) := by
    ext i j
    rw [add_mul, one_mul, Matrix.add_apply, Matrix.of_apply, Matrix.of_apply, Matrix.mul_assoc, Matrix.mul_apply]
    simp only [Matrix.replicateCol_apply, Finset.univ_unique, Finset.sum_singleton, Matrix.mul_apply,
      Matrix.replicateRow_apply, Matrix.of_apply, house]
    rw [Fin.sum_univ_eq_sum_range (fun t => v t * X j t) n, dot]
    ring
  rw [e, Matrix.det_mul, Matrix.det_one_add_replicateCol_mul_replicateRow]
  have : (fun i : Fin n => v i) ⬝ᵥ (fun i : Fin n => -(v i / c)) = -2 := by
    simp only [dotProduct]
    rw [Fin.sum_univ_eq_sum_range (fun t => v t * -(v t / c)) n]
    have : ∑ t ∈ range n, v t * -(v t / c) = -(dot n v v) / c := by
      rw [dot, ← sum_neg_distrib, sum_div]
      exact sum_congr rfl fun t _ => by ring
    rw [this, hv]
    field_simp
  rw [this]
  ring

theorem det_Qt {n L : ℕ} (hg : Good n V c L) {k : ℕ} (hk : k ≤ L) (hc : ∀ j < k, c j ≠ 0) (X : ℕ → ℕ → ℝ) :
    (Matrix.of fun i j : Fin n => Qt n V c k (X j) i).det = (-1) ^ k * (Matrix.of fun i j : Fin n => X j i).det := by
  induction k with
  | zero => simp [Qt]
  | succ k ih =>
    have h1 := hc k (by omega)
    have : (Matrix.of fun i j : Fin n => Qt n V c (k + 1) (X j) i) =
        Matrix.of fun i j : Fin n => house n (V k) (c k) (Qt n V c k (X j)) i := by
      ext i j
      simp only [Matrix.of_apply, Qt, H, if_pos h1]
    rw [this, det_house h1 (hg k (by omega) h1) (fun j => Qt n V c k (X j)), ih (by omega) fun j hj => hc j (by omega)]
    ring

end Verif.LinAlg.QR
