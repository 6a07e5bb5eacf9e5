import Verif.Eigen.Jacobi
import Verif.Mat.DenseMore
import Verif.Mat.SymProps
import Verif.LinAlg.SVDLemmas
import Mathlib.Tactic

/-! # Helper lemmas: rotations, sweeps and the sort of the Jacobi solver -/

set_option autoImplicit false

namespace Verif.Eigen

open Verif.Mat Verif.LinAlg Finset

/-- The rotation of the coordinates `p` and `q`. -/
noncomputable def rot (p q : ℕ) (c s : ℝ) (f : ℕ → ℝ) (j : ℕ) : ℝ :=
  if j = p then c * f p - s * f q else if j = q then s * f p + c * f q else f j

theorem rot_inner {n p q : ℕ} (hp : p < n) (hq : q < n) (hpq : p ≠ q) {c s : ℝ} (h : c * c + s * s = 1) (f g : ℕ → ℝ) :
    ∑ k ∈ range n, rot p q c s f k * rot p q c s g k = ∑ k ∈ range n, f k * g k := by
  have e : ∀ k ∈ range n, rot p q c s f k * rot p q c s g k = f k * g k
      + (if k = p then (c * f p - s * f q) * (c * g p - s * g q) - f p * g p else 0)
      + (if k = q then (s * f p + c * f q) * (s * g p + c * g q) - f q * g q else 0) := by
    intro k _
    rw [rot, rot]
    by_cases h1 : k = p
    · rw [if_pos h1, if_pos h1, if_pos h1, if_neg (by omega), h1]; ring
    · by_cases h2 : k = q
      · rw [if_neg h1, if_neg h1, if_neg h1, if_pos h2, if_pos h2, if_pos h2, h2]; ring
      · rw [if_neg h1, if_neg h1, if_neg h1, if_neg h2, if_neg h2, if_neg h2]; ring
  rw [Finset.sum_congr rfl e, Finset.sum_add_distrib, Finset.sum_add_distrib, Finset.sum_ite_eq', Finset.sum_ite_eq',
    if_pos (mem_range.2 hp), if_pos (mem_range.2 hq)]
  linear_combination (f p * g p + f q * g q) * h

theorem rot_sum {n p q : ℕ} (c s : ℝ) (F : ℕ → ℕ → ℝ) (g : ℕ → ℝ) (k : ℕ) :
    rot p q c s (fun k => ∑ l ∈ range n, F k l * g l) k = ∑ l ∈ range n, rot p q c s (fun k => F k l) k * g l := by
  unfold rot
  by_cases h1 : k = p
  · simp only [if_pos h1, Finset.mul_sum, ← Finset.sum_sub_distrib]
    exact Finset.sum_congr rfl fun l _ => by ring
  · by_cases h2 : k = q
    · simp only [if_neg h1, if_pos h2, Finset.mul_sum, ← Finset.sum_add_distrib]
      exact Finset.sum_congr rfl fun l _ => by ring
    · simp only [if_neg h1, if_neg h2]

/-- `Jᵀ D J` for the rotation `J`. -/
noncomputable def conj (p q : ℕ) (c s : ℝ) (D : ℕ → ℕ → ℝ) (i j : ℕ) : ℝ := rot p q c s (fun k => rot p q c s (D k) j) i

/-- What the working matrices satisfy all the time: `D` is symmetric, the rows of `V` are orthonormal and `A = V D Vᵀ`. -/
structure Inv (n : ℕ) (A D V : ℕ → ℕ → ℝ) : Prop where
  symm : ∀ i < n, ∀ j < n, D i j = D j i
  rows : ∀ i < n, ∀ j < n, ∑ k ∈ range n, V i k * V j k = if i = j then 1 else 0
  prod : ∀ i < n, ∀ j < n, A i j = ∑ k ∈ range n, V i k * ∑ l ∈ range n, D k l * V j l

/-- The sum of the squares above the diagonal. -/
noncomputable def upper (n : ℕ) (D : ℕ → ℕ → ℝ) : ℝ := ∑ i ∈ range n, ∑ j ∈ range n, if i < j then D i j ^ 2 else 0

theorem upper_nonneg (n : ℕ) (D : ℕ → ℕ → ℝ) : 0 ≤ upper n D :=
  Finset.sum_nonneg fun i _ => Finset.sum_nonneg fun j _ => by split_ifs <;> positivity

/-- Twice the upper sum is the sum of all squares off the diagonal. -/
theorem upper_off {n : ℕ} {D : ℕ → ℕ → ℝ} (h : ∀ i < n, ∀ j < n, D i j = D j i) :
    2 * upper n D = ∑ i ∈ range n, ∑ j ∈ range n, if i = j then 0 else D i j ^ 2 := by
  have e : upper n D = ∑ i ∈ range n, ∑ j ∈ range n, if j < i then D i j ^ 2 else 0 := by
    rw [upper, Finset.sum_comm]
    refine Finset.sum_congr rfl fun i hi => Finset.sum_congr rfl fun j hj => ?_
    rw [h i (mem_range.1 hi) j (mem_range.1 hj)]
  rw [two_mul]
  nth_rw 2 [e]
  rw [upper, ← Finset.sum_add_distrib]
  refine Finset.sum_congr rfl fun i _ => ?_
  rw [← Finset.sum_add_distrib]
  refine Finset.sum_congr rfl fun j _ => ?_
  rcases lt_trichotomy i j with h1 | h1 | h1
  · rw [if_pos h1, if_neg (by omega), if_neg (by omega), add_zero]
  · rw [if_neg (by omega), if_neg (by omega), if_pos h1, add_zero]
  · rw [if_neg (by omega), if_pos h1, if_neg (by omega), zero_add]

theorem off_eq (n : ℕ) (D : ℕ → ℕ → ℝ) : (∑ i ∈ range n, ∑ j ∈ range n, if i = j then 0 else D i j ^ 2) =
    ∑ i ∈ range n, ∑ j ∈ range n, D i j * D i j - ∑ i ∈ range n, D i i ^ 2 := by
  rw [← Finset.sum_sub_distrib]
  refine Finset.sum_congr rfl fun i hi => ?_
  have : ∀ j ∈ range n, (if i = j then 0 else D i j ^ 2) = D i j * D i j - if i = j then D i i ^ 2 else 0 := fun j _ => by
    by_cases h : i = j
    · rw [if_pos h, if_pos h, ← h]; ring
    · rw [if_neg h, if_neg h]; ring
  rw [Finset.sum_congr rfl this, Finset.sum_sub_distrib, Finset.sum_ite_eq, if_pos hi]

section
variable {n p q : ℕ} {A D V : ℕ → ℕ → ℝ} {c s : ℝ}

theorem conj_pq (hpq : p ≠ q) (hs : D q p = D p q) : conj p q c s D p q = s * c * (D p p - D q q) + (c * c - s * s) * D p q := by
  simp only [conj, rot, if_true, if_neg hpq.symm, hs]; ring

theorem conj_symm (h : ∀ i < n, ∀ j < n, D i j = D j i) (hp : p < n) (hq : q < n) {i j : ℕ} (hi : i < n) (hj : j < n) :
    conj p q c s D i j = conj p q c s D j i := by
  have h1 := h i hi j hj
  have h2 := h i hi p hp
  have h3 := h i hi q hq
  have h4 := h j hj p hp
  have h5 := h j hj q hq
  have h6 := h p hp q hq
  simp only [conj, rot]
  by_cases i1 : i = p
  · by_cases j1 : j = p
    · rw [i1, j1]
    · by_cases j2 : j = q
      · have h7 : q ≠ p := by rw [← j2]; exact j1
        simp only [i1, j2, if_true, if_neg h7]
        linear_combination (s * s + c * c) * h6
      · simp only [i1, if_true, if_neg j1, if_neg j2]
        linear_combination -c * h4 + s * h5
  · by_cases i2 : i = q
    · have h7 : q ≠ p := by rw [← i2]; exact i1
      by_cases j1 : j = p
      · simp only [i2, j1, if_true, if_neg h7]
        linear_combination -(s * s + c * c) * h6
      · by_cases j2 : j = q
        · rw [i2, j2]
        · simp only [i2, if_true, if_neg j1, if_neg j2, if_neg h7]
          linear_combination -s * h4 - c * h5
    · by_cases j1 : j = p
      · simp only [j1, if_true, if_neg i1, if_neg i2]
        linear_combination c * h2 - s * h3
      · by_cases j2 : j = q
        · have h7 : q ≠ p := by rw [← j2]; exact j1
          simp only [j2, if_true, if_neg i1, if_neg i2, if_neg h7]
          linear_combination s * h2 + c * h3
        · simp only [if_neg i1, if_neg i2, if_neg j1, if_neg j2]
          exact h1

theorem Inv.rotate (h : Inv n A D V) (hp : p < n) (hq : q < n) (hpq : p ≠ q) (hcs : c * c + s * s = 1) :
    Inv n A (conj p q c s D) (fun i => rot p q c s (V i)) := by
  refine ⟨fun i hi j hj => conj_symm h.symm hp hq hi hj, fun i hi j hj => ?_, fun i hi j hj => ?_⟩
  · rw [rot_inner hp hq hpq hcs]; exact h.rows i hi j hj
  · rw [h.prod i hi j hj]
    have e : ∀ k ∈ range n, rot p q c s (V i) k * ∑ l ∈ range n, conj p q c s D k l * rot p q c s (V j) l =
        rot p q c s (V i) k * rot p q c s (fun k => ∑ l ∈ range n, D k l * V j l) k := by
      intro k _
      congr 1
      rw [rot_sum c s D (V j) k]
      simp only [conj]
      rw [← rot_sum c s (fun k l => rot p q c s (D k) l) (rot p q c s (V j)) k, ← rot_sum c s D (V j) k]
      congr 1
      funext k
      exact rot_inner hp hq hpq hcs _ _
    rw [Finset.sum_congr rfl e, rot_inner hp hq hpq hcs]

/-- A rotation that makes the element `(p, q)` vanish reduces the sum of the squares by that of the element. -/
theorem upper_rotate (h : ∀ i < n, ∀ j < n, D i j = D j i) (hp : p < n) (hq : q < n) (hpq : p ≠ q) (hcs : c * c + s * s = 1)
    (hz : s * c * (D p p - D q q) + (c * c - s * s) * D p q = 0) :
    upper n (conj p q c s D) = upper n D - D p q ^ 2 := by
  have h1 := upper_off h
  have h2 := upper_off (D := conj p q c s D) fun i hi j hj => conj_symm h hp hq hi hj
  rw [off_eq] at h1 h2
  have hF : ∑ i ∈ range n, ∑ j ∈ range n, conj p q c s D i j * conj p q c s D i j = ∑ i ∈ range n, ∑ j ∈ range n, D i j * D i j := by
    rw [Finset.sum_comm]
    have e : ∀ j ∈ range n, ∑ i ∈ range n, conj p q c s D i j * conj p q c s D i j =
        ∑ i ∈ range n, rot p q c s (D i) j * rot p q c s (D i) j := fun j _ => rot_inner hp hq hpq hcs _ _
    rw [Finset.sum_congr rfl e, Finset.sum_comm]
    exact Finset.sum_congr rfl fun i _ => rot_inner hp hq hpq hcs _ _
  have hD : ∑ i ∈ range n, conj p q c s D i i ^ 2 = ∑ i ∈ range n, D i i ^ 2 + 2 * D p q ^ 2 := by
    have hs : D q p = D p q := h q hq p hp
    have e : ∀ i ∈ range n, conj p q c s D i i ^ 2 = D i i ^ 2 + (if i = p then conj p q c s D p p ^ 2 - D p p ^ 2 else 0)
        + (if i = q then conj p q c s D q q ^ 2 - D q q ^ 2 else 0) := by
      intro i _
      by_cases h1 : i = p
      · rw [if_pos h1, if_neg (by omega), h1]; ring
      · by_cases h2 : i = q
        · rw [if_neg h1, if_pos h2, h2]; ring
        · rw [if_neg h1, if_neg h2]
          simp only [conj, rot, if_neg h1, if_neg h2]; ring
    rw [Finset.sum_congr rfl e, Finset.sum_add_distrib, Finset.sum_add_distrib, Finset.sum_ite_eq', Finset.sum_ite_eq',
      if_pos (mem_range.2 hp), if_pos (mem_range.2 hq)]
    have e1 : conj p q c s D p p = c * c * D p p - 2 * s * c * D p q + s * s * D q q := by
      simp only [conj, rot, if_true, hs]; ring
    have e2 : conj p q c s D q q = s * s * D p p + 2 * s * c * D p q + c * c * D q q := by
      simp only [conj, rot, if_true, if_neg hpq.symm, hs]; ring
    rw [e1, e2]
    generalize D p p = a at *
    generalize D q q = b at *
    generalize D p q = x at *
    have key : (c * c * a - 2 * s * c * x + s * s * b) ^ 2 + (s * s * a + 2 * s * c * x + c * c * b) ^ 2
        = (c * c + s * s) ^ 2 * (a ^ 2 + b ^ 2 + 2 * x ^ 2) - 2 * (s * c * (a - b) + (c * c - s * s) * x) ^ 2 := by ring
    rw [hz, hcs] at key
    linarith
  linarith

end

/-! ## The functions of the solver -/

theorem rotateEntry_loop {n p q : ℕ} (D : ℕ → ℕ → ℝ) (c s : ℝ) (hp : p < n) (hq : q < n) (hpq : p ≠ q) :
    forRange n (Dense.ofFn n n D) (rotateEntry p q c s) = .ret (Dense.ofFn n n fun i j =>
      if i ≠ p ∧ i ≠ q ∧ j = p then c * D i p - s * D i q
      else if i ≠ p ∧ i ≠ q ∧ j = q then s * D i p + c * D i q
      else if j ≠ p ∧ j ≠ q ∧ i = p then c * D j p - s * D j q
      else if j ≠ p ∧ j ≠ q ∧ i = q then s * D j p + c * D j q else D i j) := by
  obtain ⟨t, ht, rfl⟩ := forRange_rule (fun k (m : Dense ℝ) => m = Dense.ofFn n n fun i j =>
      if i ≠ p ∧ i ≠ q ∧ j = p ∧ i < k then c * D i p - s * D i q
      else if i ≠ p ∧ i ≠ q ∧ j = q ∧ i < k then s * D i p + c * D i q
      else if j ≠ p ∧ j ≠ q ∧ i = p ∧ j < k then c * D j p - s * D j q
      else if j ≠ p ∧ j ≠ q ∧ i = q ∧ j < k then s * D j p + c * D j q else D i j) n (Dense.ofFn n n D) (rotateEntry p q c s)
    (by simp) (by
      rintro k _ hk rfl
      by_cases h : k ≠ p ∧ k ≠ q
      · rw [rotateEntry, if_pos h, Dense.get_ofFn _ hk hp, Outcome.bind_ret, Dense.get_ofFn _ hk hq, Outcome.bind_ret,
          Dense.set_ofFn _ hk hp, Outcome.bind_ret, Dense.get_ofFn _ hk hp, Outcome.bind_ret, Dense.set_ofFn _ hp hk, Outcome.bind_ret,
          Dense.set_ofFn _ hk hq, Outcome.bind_ret, Dense.get_ofFn _ hk hq, Outcome.bind_ret, Dense.set_ofFn _ hq hk]
        refine ⟨_, rfl, Dense.ofFn_congr fun i _ j _ => ?_⟩
        grind (splits := 40)
      · rw [rotateEntry, if_neg h]
        refine ⟨_, rfl, Dense.ofFn_congr fun i _ j _ => ?_⟩
        grind (splits := 40))
  rw [ht]
  congr 1
  refine Dense.ofFn_congr fun i hi j hj => ?_
  grind (splits := 40)

theorem rotateVec_loop {n p q : ℕ} (V : ℕ → ℕ → ℝ) (c s : ℝ) (hp : p < n) (hq : q < n) (hpq : p ≠ q) :
    forRange n (Dense.ofFn n n V) (rotateVec p q c s) = .ret (Dense.ofFn n n fun i => rot p q c s (V i)) := by
  rw [Dense.forRange_row n V (fun i => rot p q c s (V i)) le_rfl]
  · congr 1
    exact Dense.ofFn_congr fun i hi j _ => by rw [if_pos hi]
  · intro i hi g hg
    rw [rotateVec, Dense.get_ofFn _ hi hp, Outcome.bind_ret, Dense.get_ofFn _ hi hq, Outcome.bind_ret, Dense.set_ofFn _ hi hp,
      Outcome.bind_ret, Dense.set_ofFn _ hi hq, hg i le_rfl p hp, hg i le_rfl q hq]
    congr 1
    refine Dense.ofFn_congr fun a _ b hb => ?_
    by_cases ha : a = i
    · subst ha
      rw [if_pos rfl, rot, ← hg a le_rfl b hb]
      grind
    · rw [if_neg ha, if_neg (by tauto), if_neg (by tauto)]

theorem applyRotation_eq {n p q : ℕ} {D V : ℕ → ℕ → ℝ} {c s : ℝ} (hp : p < n) (hq : q < n) (hpq : p ≠ q)
    (h : ∀ i < n, ∀ j < n, D i j = D j i) (hz : s * c * (D p p - D q q) + (c * c - s * s) * D p q = 0) :
    applyRotation n p q c s ⟨Dense.ofFn n n D, Dense.ofFn n n V⟩ =
      .ret ⟨Dense.ofFn n n (conj p q c s D), Dense.ofFn n n fun i => rot p q c s (V i)⟩ := by
  rw [applyRotation]
  simp only
  rw [rotateEntry_loop D c s hp hq hpq, Outcome.bind_ret, rotateDiag, Dense.get_ofFn _ hp hp, Outcome.bind_ret,
    Dense.get_ofFn _ hq hq, Outcome.bind_ret, Dense.get_ofFn _ hp hq, Outcome.bind_ret, Dense.set_ofFn _ hp hp, Outcome.bind_ret,
    Dense.set_ofFn _ hq hq, Outcome.bind_ret, Dense.set_ofFn _ hp hq, Outcome.bind_ret, Dense.set_ofFn _ hq hp, Outcome.bind_ret,
    rotateVec_loop V c s hp hq hpq, Outcome.bind_ret]
  congr 2
  refine Dense.ofFn_congr fun i hi j hj => ?_
  have hs : D q p = D p q := h q hq p hp
  have e0 : conj p q c s D p q = 0 := by rw [conj_pq hpq hs, hz]
  have e0' : conj p q c s D q p = 0 := by rw [conj_symm h hp hq hq hp, e0]
  have e1 : conj p q c s D p p = c * c * D p p - 2 * s * c * D p q + s * s * D q q := by
    simp only [conj, rot, if_true, hs]; ring
  have e2 : conj p q c s D q q = s * s * D p p + 2 * s * c * D p q + c * c * D q q := by
    simp only [conj, rot, if_true, if_neg hpq.symm, hs]; ring
  have hqp := hpq.symm
  by_cases i1 : i = p
  · by_cases j1 : j = p
    · rw [i1, j1, e1]; simp [hpq]
    · by_cases j2 : j = q
      · rw [i1, j2, e0]; simp [hpq]
      · rw [i1]
        simp only [conj, rot, h j hj p hp, h j hj q hq]
        simp [hpq, j1, j2]
  · by_cases i2 : i = q
    · by_cases j1 : j = p
      · rw [i2, j1, e0']; simp
      · by_cases j2 : j = q
        · rw [i2, j2, e2]; simp [hqp]
        · rw [i2]
          simp only [conj, rot, h j hj p hp, h j hj q hq]
          simp [hqp, j1, j2]
    · simp only [conj, rot]
      simp [i1, i2]

theorem tangent_spec (tau : ℝ) : ∃ t, tangent tau = .ret t ∧ t ^ 2 + 2 * tau * t - 1 = 0 := by
  have hpos : 0 ≤ 1 + tau * tau := by nlinarith [mul_self_nonneg tau]
  have hsq := Real.sq_sqrt hpos
  have hs : |tau| < Real.sqrt (1 + tau * tau) := by
    rw [← Real.sqrt_sq_eq_abs]
    exact Real.sqrt_lt_sqrt (sq_nonneg _) (by linarith [sq tau])
  rw [tangent]
  generalize Real.sqrt (1 + tau * tau) = r at *
  have h1 := (abs_lt.1 hs).1
  have h2 := (abs_lt.1 hs).2
  by_cases h : tau ≥ 0
  · have hne : tau + r ≠ 0 := by linarith
    rw [if_pos h, divU, if_neg hne]
    refine ⟨_, rfl, ?_⟩
    field_simp
    linear_combination -hsq
  · have hne : -tau + r ≠ 0 := by linarith
    rw [if_neg h, divU, if_neg hne]
    refine ⟨_, rfl, ?_⟩
    field_simp
    linear_combination -hsq

theorem angle_spec {n p q : ℕ} {thr : ℝ} (ht : 0 < thr) (D : ℕ → ℕ → ℝ) (hp : p < n) (hq : q < n) (hx : ¬ |D p q| < thr) :
    ∃ θ, angle thr (Dense.ofFn n n D) p q = .ret θ ∧
      Real.sin θ * Real.cos θ * (D p p - D q q) + (Real.cos θ * Real.cos θ - Real.sin θ * Real.sin θ) * D p q = 0 := by
  have hne : D p q ≠ 0 := fun e => hx (by rw [e, abs_zero]; exact ht)
  obtain ⟨t, h1, h2⟩ := tangent_spec ((D q q - D p p) / (2 * D p q))
  rw [angle, Dense.get_ofFn _ hp hq, Outcome.bind_ret, if_neg hx, Dense.get_ofFn _ hq hq, Outcome.bind_ret,
    Dense.get_ofFn _ hp hp, Outcome.bind_ret, divU, if_neg (mul_ne_zero two_ne_zero hne), Outcome.bind_ret, h1, Outcome.bind_ret]
  refine ⟨_, rfl, ?_⟩
  have hc := Real.cos_arctan_pos t
  have hs : Real.sin (Real.arctan t) = t * Real.cos (Real.arctan t) := by
    rw [← Real.tan_mul_cos hc.ne', Real.tan_arctan]
  rw [hs]
  have h3 : (1 - t ^ 2) * D p q = t * (D q q - D p p) := by
    field_simp at h2
    linear_combination -h2
  linear_combination (Real.cos (Real.arctan t)) ^ 2 * h3

/-- The working matrices with elements `D` and `V`. -/
noncomputable def work (n : ℕ) (D V : ℕ → ℕ → ℝ) : Work := ⟨Dense.ofFn n n D, Dense.ofFn n n V⟩

theorem rotateOne_spec {n p q : ℕ} {thr : ℝ} (ht : 0 < thr) {A D V : ℕ → ℕ → ℝ} (h : Inv n A D V) (hp : p < n) (hq : q < n)
    (hpq : p ≠ q) : ∃ D' V', rotateOne thr n p (work n D V) q = .ret (work n D' V') ∧ Inv n A D' V' ∧
      upper n D' ≤ upper n D ∧ (|D p q| < thr → D' = D ∧ V' = V) ∧ (¬ |D p q| < thr → upper n D' = upper n D - D p q ^ 2 ∧ D' p q = 0) := by
  rw [rotateOne]
  simp only [work]
  rw [Dense.get_ofFn _ hp hq, Outcome.bind_ret]
  by_cases hx : |D p q| < thr
  · rw [if_pos hx]
    exact ⟨D, V, rfl, h, le_rfl, fun _ => ⟨rfl, rfl⟩, fun h => absurd hx h⟩
  · obtain ⟨θ, h1, h2⟩ := angle_spec ht D hp hq hx
    have hcs : Real.cos θ * Real.cos θ + Real.sin θ * Real.sin θ = 1 := by
      rw [← sq, ← sq]; exact Real.cos_sq_add_sin_sq θ
    rw [if_neg hx, h1, Outcome.bind_ret, applyRotation_eq hp hq hpq h.symm h2]
    have hu := upper_rotate h.symm hp hq hpq hcs h2
    exact ⟨_, _, rfl, h.rotate hp hq hpq hcs, by rw [hu]; nlinarith [sq_nonneg (D p q)], fun h => absurd h hx,
      fun _ => ⟨hu, by rw [conj_pq hpq (h.symm q hq p hp), h2]⟩⟩

/-- After some rotations: either none was needed so far, or the sum of the squares is smaller by at least `thr²`. -/
def Step (thr : ℝ) (n : ℕ) (A D V : ℕ → ℕ → ℝ) (P : ℕ → ℕ → Prop) (w : Work) : Prop :=
  ∃ D' V', w = work n D' V' ∧ Inv n A D' V' ∧
    ((D' = D ∧ V' = V ∧ ∀ p q, P p q → |D p q| < thr) ∨ (upper n D' ≤ upper n D - thr ^ 2 ∧ ∃ p < n, ∃ q < n, p ≠ q ∧ ¬ |D p q| < thr))

theorem Step.weaken {thr : ℝ} {n : ℕ} {A D V : ℕ → ℕ → ℝ} {P Q : ℕ → ℕ → Prop} {w : Work} (h : Step thr n A D V P w)
    (hQ : ∀ p q, Q p q → P p q) : Step thr n A D V Q w := by
  obtain ⟨D', V', h1, h2, h3⟩ := h
  exact ⟨D', V', h1, h2, h3.imp (fun ⟨a, b, c⟩ => ⟨a, b, fun p q h => c p q (hQ p q h)⟩) id⟩

theorem sweep_step {n : ℕ} {thr : ℝ} (ht : 0 < thr) {A D V : ℕ → ℕ → ℝ} (h : Inv n A D V) :
    ∃ w, sweep thr n (work n D V) = .ret w ∧ Step thr n A D V (fun p q => p < q ∧ q < n) w := by
  rw [sweep]
  obtain ⟨t, h1, h2⟩ := forRange_rule (fun b (w : Work) => Step thr n A D V (fun p q => p < b ∧ p < q ∧ q < n) w)
    (n - 1) (work n D V) (fun w p => forFromTo (p + 1) n w (rotateOne thr n p))
    ⟨D, V, rfl, h, .inl ⟨rfl, rfl, fun p q h => absurd h.1 (by omega)⟩⟩ (by
      rintro p w hp hw
      obtain ⟨t, h1, h2⟩ := forFromTo_rule (fun b (w : Work) => Step thr n A D V (fun i q => (i < p ∧ i < q ∧ q < n) ∨ (i = p ∧ p < q ∧ q < b)) w)
        (p + 1) n (by omega) w (rotateOne thr n p) (hw.weaken fun i q h => by omega) (by
          rintro q _ hq1 hq2 ⟨D2, V2, rfl, g3, g4⟩
          obtain ⟨D3, V3, e1, e2, e3, e4, e5⟩ := rotateOne_spec ht g3 (show p < n by omega) hq2 (show p ≠ q by omega)
          refine ⟨_, e1, D3, V3, rfl, e2, ?_⟩
          rcases g4 with ⟨rfl, rfl, g5⟩ | ⟨g5, g6⟩
          · by_cases hx : |D2 p q| < thr
            · left
              obtain ⟨rfl, rfl⟩ := e4 hx
              refine ⟨rfl, rfl, fun i j hij => ?_⟩
              by_cases hj : i = p ∧ j = q
              · rw [hj.1, hj.2]; exact hx
              · exact g5 i j (by omega)
            · right
              refine ⟨?_, p, by omega, q, hq2, by omega, hx⟩
              rw [(e5 hx).1]
              have : thr ^ 2 ≤ D2 p q ^ 2 := by rw [← sq_abs (D2 p q)]; exact pow_le_pow_left₀ ht.le (not_lt.1 hx) 2
              linarith
          · exact .inr ⟨e3.trans g5, g6⟩)
      exact ⟨t, h1, h2.weaken fun i q h => by omega⟩)
  exact ⟨t, h1, h2.weaken fun p q h => by omega⟩

theorem upper_lt {n : ℕ} {D : ℕ → ℕ → ℝ} {thr : ℝ} (h : ∀ p q, p < q ∧ q < n → |D p q| < thr) :
    upper n D ≤ n * (n - 1) / 2 * thr ^ 2 := by
  have e : ∀ i ∈ range n, (∑ j ∈ range n, if i < j then D i j ^ 2 else 0) ≤ ((n : ℝ) - 1 - i) * thr ^ 2 := by
    intro i hi
    have hi := mem_range.1 hi
    rw [← Finset.sum_filter]
    have hc : (Finset.filter (fun j => i < j) (range n)).card = n - 1 - i := by
      have : Finset.filter (fun j => i < j) (range n) = Finset.Ico (i + 1) n := by
        ext j
        simp only [Finset.mem_Ico, Finset.mem_filter, mem_range]
        omega
      rw [this, Nat.card_Ico]; omega
    have := Finset.sum_le_card_nsmul (Finset.filter (fun j => i < j) (range n)) (fun j => D i j ^ 2) (thr ^ 2) (by
      intro j hj
      have hj := Finset.mem_filter.1 hj
      have := h i j ⟨hj.2, mem_range.1 hj.1⟩
      rw [← sq_abs]
      exact pow_le_pow_left₀ (abs_nonneg _) this.le 2)
    rw [hc, nsmul_eq_mul, Nat.cast_sub (by omega), Nat.cast_sub (by omega)] at this
    simpa using this
  refine (Finset.sum_le_sum e).trans (le_of_eq ?_)
  rw [← Finset.sum_mul, Finset.sum_sub_distrib, Finset.sum_const, Finset.card_range, nsmul_eq_mul]
  congr 1
  have := Finset.sum_range_id_mul_two n
  have h2 : (∑ i ∈ range n, (i : ℝ)) * 2 = n * (n - 1) := by
    rcases Nat.eq_zero_or_pos n with rfl | hn
    · simp
    have : (((∑ i ∈ range n, i) * 2 : ℕ) : ℝ) = ((n * (n - 1) : ℕ) : ℝ) := by rw [this]
    push_cast [Nat.cast_sub hn] at this
    exact this
  linarith

theorem offNorm_eq (n : ℕ) (D : ℕ → ℕ → ℝ) : offNorm n (Dense.ofFn n n D) = .ret (Real.sqrt (upper n D)) := by
  rw [offNorm, forRange_sum (n - 1) 0 _ (fun i => ∑ j ∈ Finset.Ico (i + 1) n, D i j ^ 2), zero_add, Outcome.bind_ret, upper]
  · congr 2
    rcases Nat.eq_zero_or_pos n with rfl | hn
    · simp
    conv_rhs => rw [show n = n - 1 + 1 by omega, Finset.sum_range_succ]
    rw [show n - 1 + 1 = n by omega]
    have e0 : ∑ j ∈ range n, (if n - 1 < j then D (n - 1) j ^ 2 else 0) = 0 := Finset.sum_eq_zero fun j hj => by
      have := mem_range.1 hj
      rw [if_neg (by omega)]
    rw [e0, add_zero]
    refine Finset.sum_congr rfl fun i hi => ?_
    rw [← Finset.sum_filter]
    refine Finset.sum_congr ?_ fun _ _ => rfl
    ext j
    simp only [Finset.mem_Ico, Finset.mem_filter, mem_range]
    omega
  · intro i hi s
    have hi' : i < n := by omega
    rw [forFromTo_sum (i + 1) n s _ (fun j => D i j ^ 2)]
    intro j h1 h2 s
    rw [Dense.get_ofFn _ hi' h2, Outcome.bind_ret, Outcome.bind_ret, sq]

theorem iterate_spec {n : ℕ} {thr tol : ℝ} (ht : 0 < thr) {A : ℕ → ℕ → ℝ} (m : ℕ) (D V : ℕ → ℕ → ℝ) (k : ℕ) (h : Inv n A D V) :
    ∃ D' V' k', iterate thr tol n m (work n D V) k = .ret (work n D' V', k', Real.sqrt (upper n D')) ∧ Inv n A D' V' ∧
      upper n D' ≤ upper n D ∧ k ≤ k' ∧ k' ≤ k + m ∧ (k' < k + m → Real.sqrt (upper n D') ≤ tol) ∧
      (Real.sqrt (upper n D) ≤ tol → k' = k) ∧ (Real.sqrt (upper n D) > tol → 0 < m → k < k') ∧
      (Real.sqrt (upper n D) ≤ tol ∨ (∀ i < n, ∀ j < n, i ≠ j → |D i j| < thr) → D' = D ∧ V' = V) ∧
      (0 ≤ tol → n * (n - 1) / 2 * thr ^ 2 ≤ tol ^ 2 → upper n D ≤ tol ^ 2 + m * thr ^ 2 → Real.sqrt (upper n D') ≤ tol) := by
  induction m generalizing D V k with
  | zero =>
    rw [iterate]
    simp only [work]
    rw [offNorm_eq, Outcome.bind_ret]
    refine ⟨D, V, k, rfl, h, le_rfl, le_rfl, le_rfl, fun h => absurd h (lt_irrefl _), fun _ => rfl, fun _ h => absurd h (lt_irrefl _),
      fun _ => ⟨rfl, rfl⟩, fun h0 _ h2 => ?_⟩
    rw [Real.sqrt_le_left h0]
    simpa using h2
  | succ m ih =>
    rw [iterate]
    have e : offNorm n (work n D V).d = _ := offNorm_eq n D
    rw [e, Outcome.bind_ret]
    by_cases hr : Real.sqrt (upper n D) > tol
    · obtain ⟨_, g1, D1, V1, rfl, g2, g3⟩ := sweep_step ht h
      obtain ⟨D', V', k', f1, f2, f3, f4, f5, f6, f7, f8, f9, f10⟩ := ih D1 V1 (k + 1) g2
      have g4 : upper n D1 ≤ upper n D := by
        rcases g3 with ⟨rfl, -⟩ | ⟨g3, -⟩
        · rfl
        · linarith [sq_nonneg thr]
      rw [if_pos hr, g1, Outcome.bind_ret]
      refine ⟨D', V', k', f1, f2, f3.trans g4, by omega, by omega, fun h => f6 (by omega), fun h => absurd hr (not_lt.2 h), fun _ _ => by omega,
        fun hs => ?_, fun h0 h1 h2 => ?_⟩
      · rcases hs with hs | hs
        · exact absurd hr (not_lt.2 hs)
        · rcases g3 with ⟨rfl, rfl, -⟩ | ⟨-, p, hp, q, hq, hpq, g3⟩
          · exact f9 (.inr hs)
          · exact absurd (hs p hp q hq hpq) g3
      · rcases g3 with ⟨rfl, rfl, g3⟩ | ⟨g3, -⟩
        · have := upper_lt g3
          exact absurd (Real.sqrt_le_left h0 |>.2 (this.trans h1)) (not_le.2 hr)
        · refine f10 h0 h1 ?_
          push_cast at h2
          linarith
    · rw [if_neg hr]
      exact ⟨D, V, k, rfl, h, le_rfl, le_rfl, by omega, fun _ => not_lt.1 hr, fun _ => rfl, fun h => absurd h hr, fun _ => ⟨rfl, rfl⟩,
        fun _ _ _ => not_lt.1 hr⟩

/-! ## The sort -/

theorem minIndex_spec {n : ℕ} (e : ℕ → ℝ) {i : ℕ} (hi : i < n) :
    ∃ k, minIndex n (tab n e) i = .ret k ∧ i ≤ k ∧ k < n ∧ ∀ j, i ≤ j → j < n → e k ≤ e j := by
  obtain ⟨k, h1, h2, h3, h4⟩ := forFromTo_rule (fun b k => i ≤ k ∧ k < n ∧ ∀ j, i ≤ j → j < b → e k ≤ e j) (i + 1) n (by omega) i
    (fun k j => do
      let x ← Outcome.index (tab n e) j
      let y ← Outcome.index (tab n e) k
      .ret (if x < y then j else k)) ⟨le_rfl, hi, fun j h1 h2 => by rw [show j = i by omega]⟩ (by
      rintro b k hb1 hb2 ⟨g1, g2, g3⟩
      rw [index_tab _ hb2, Outcome.bind_ret, index_tab _ g2, Outcome.bind_ret]
      refine ⟨_, rfl, ?_⟩
      by_cases h : e b < e k
      · rw [if_pos h]
        refine ⟨by omega, hb2, fun j j1 j2 => ?_⟩
        by_cases hj : j = b
        · rw [hj]
        · exact h.le.trans (g3 j j1 (by omega))
      · rw [if_neg h]
        refine ⟨g1, g2, fun j j1 j2 => ?_⟩
        by_cases hj : j = b
        · rw [hj]; exact not_lt.1 h
        · exact g3 j j1 (by omega))
  exact ⟨k, h1, h2, h3, h4⟩

theorem swapCols_eq {n i k : ℕ} (W : ℕ → ℕ → ℝ) (hi : i < n) (hk : k < n) :
    swapCols n i k (Dense.ofFn n n W) = .ret (Dense.ofFn n n fun p q => W p (Equiv.swap i k q)) := by
  rw [swapCols, Dense.forRange_row n W (fun p q => W p (Equiv.swap i k q)) le_rfl]
  · congr 1
    exact Dense.ofFn_congr fun p hp q _ => by rw [if_pos hp]
  · intro r hr g hg
    rw [Dense.swap_ofFn _ hr hi hr hk, hg r le_rfl i hi, hg r le_rfl k hk]
    congr 1
    refine Dense.ofFn_congr fun p _ q hq => ?_
    by_cases hp : p = r
    · subst hp
      rw [if_pos rfl, Equiv.swap_apply_def]
      by_cases h1 : q = k
      · by_cases h2 : q = i
        · rw [if_pos ⟨rfl, h1⟩, if_pos h2, ← h1, h2]
        · rw [if_pos ⟨rfl, h1⟩, if_neg h2, if_pos h1]
      · by_cases h2 : q = i
        · rw [if_neg (by tauto), if_pos ⟨rfl, h2⟩, if_pos h2]
        · rw [if_neg (by tauto), if_neg (by tauto), if_neg h2, if_neg h1, hg p le_rfl q hq]
    · rw [if_neg (by tauto), if_neg (by tauto), if_neg hp]

theorem sortEigen_spec {n : ℕ} (e : ℕ → ℝ) (W : ℕ → ℕ → ℝ) :
    ∃ π : Equiv.Perm ℕ, (∀ k, π k < n ↔ k < n) ∧
      sortEigen (tab n e) (Dense.ofFn n n W) = .ret (tab n fun k => e (π k), Dense.ofFn n n fun i k => W i (π k)) ∧
      ∀ i j, i < j → j < n → e (π i) ≤ e (π j) := by
  rw [sortEigen, length_tab]
  obtain ⟨t, h1, π, h2, rfl, h3⟩ := forRange_rule (fun b (s : List ℝ × Dense ℝ) => ∃ π : Equiv.Perm ℕ, (∀ k, π k < n ↔ k < n) ∧
      s = (tab n fun k => e (π k), Dense.ofFn n n fun i k => W i (π k)) ∧ ∀ i j, i < b → i < j → j < n → e (π i) ≤ e (π j))
    (n - 1) (tab n e, Dense.ofFn n n W) (sortRound n) ⟨Equiv.refl ℕ, fun _ => Iff.rfl, rfl, fun i j h => absurd h (by omega)⟩ (by
      rintro b _ hb ⟨π, g1, rfl, g2⟩
      have hbn : b < n := by omega
      obtain ⟨k, f1, f2, f3, f4⟩ := minIndex_spec (fun k => e (π k)) hbn
      have hm : ∀ (σ : Equiv.Perm ℕ), σ = Equiv.swap b k → (∀ k, (σ.trans π) k < n ↔ k < n) ∧
          ∀ i j, i < b + 1 → i < j → j < n → e ((σ.trans π) i) ≤ e ((σ.trans π) j) := by
        rintro σ rfl
        have hlt : ∀ j, b ≤ j → j < n → b ≤ Equiv.swap b k j ∧ Equiv.swap b k j < n := fun j h1 h2 => by
          rw [Equiv.swap_apply_def]
          split_ifs <;> omega
        refine ⟨fun j => ?_, fun i j hi hij hj => ?_⟩
        · rw [Equiv.trans_apply, g1, Equiv.swap_apply_def]
          split_ifs <;> omega
        · rw [Equiv.trans_apply, Equiv.trans_apply]
          by_cases hib : i = b
          · subst hib
            rw [Equiv.swap_apply_left]
            obtain ⟨a1, a2⟩ := hlt j (by omega) hj
            exact f4 _ a1 a2
          · rw [Equiv.swap_apply_of_ne_of_ne hib (by omega)]
            refine g2 i _ (by omega) ?_ ?_
            · rw [Equiv.swap_apply_def]; split_ifs <;> omega
            · rw [Equiv.swap_apply_def]; split_ifs <;> omega
      obtain ⟨m1, m2⟩ := hm _ rfl
      rw [sortRound]
      simp only
      rw [f1, Outcome.bind_ret]
      by_cases hk : k ≠ b
      · rw [if_pos hk, index_tab _ hbn, Outcome.bind_ret, index_tab _ f3, Outcome.bind_ret, store_tab _ hbn, Outcome.bind_ret,
          store_tab _ f3, Outcome.bind_ret, swapCols_eq _ hbn f3, Outcome.bind_ret]
        refine ⟨_, rfl, (Equiv.swap b k).trans π, m1, ?_, m2⟩
        congr 1
        refine tab_congr fun j hj => ?_
        rw [Equiv.trans_apply, Equiv.swap_apply_def]
        by_cases j1 : j = k
        · rw [if_pos j1, if_neg (by omega), if_pos j1]
        · by_cases j2 : j = b
          · rw [if_neg j1, if_pos j2, if_pos j2]
          · rw [if_neg j1, if_neg j2, if_neg j2, if_neg j1]
      · rw [if_neg hk]
        have hk := not_not.1 hk
        subst hk
        refine ⟨_, rfl, π, g1, rfl, ?_⟩
        simpa using m2)
  refine ⟨π, h2, h1, fun i j hij hj => h3 i j (by omega) hij hj⟩

end Verif.Eigen
