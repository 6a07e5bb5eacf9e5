import Verif.Mat.FaddeevProps
import Mathlib.LinearAlgebra.Matrix.Charpoly.Coeff
import Mathlib.Tactic

/-!
# Structure tests, norms and the similarity transform

Property C144.
-/

set_option autoImplicit false

namespace Verif.Mat.Utils

open Verif.Mat
open Verif.Mat.Dense (Is Shape ofFn)

section
variable {K : Type} [Field K] [LinearOrder K] [IsStrictOrderedRing K]

omit [IsStrictOrderedRing K] in
theorem small_ofFn {r c : ℕ} (f : ℕ → ℕ → K) (tol : K) {i j : ℕ} (hi : i < r) (hj : j < c) :
    small (ofFn r c f) tol i j = .ret (decide (|f i j| ≤ tol)) := by
  rw [small, Dense.get_ofFn f hi hj, Outcome.bind_ret]
  simp

/-- **C144.**  What the structure tests decide for a square matrix. -/
theorem structure_spec (a : Dense K) (n : ℕ) (f : ℕ → ℕ → K) (ha : Is a n n f) (tol : K) (ht : 0 ≤ tol) :
    (∃ b, isUpperHessenberg a tol = .ret b ∧ (b = true ↔ ∀ i < n, ∀ j < n, j + 1 < i → |f i j| ≤ tol)) ∧
    (∃ b, isUpperTriangular a tol = .ret b ∧ (b = true ↔ ∀ i < n, ∀ j < n, j < i → |f i j| ≤ tol)) ∧
    (∃ b, isLowerTriangular a tol = .ret b ∧ (b = true ↔ ∀ i < n, ∀ j < n, i < j → |f i j| ≤ tol)) ∧
    (∃ b, isDiagonal a tol = .ret b ∧ (b = true ↔ ∀ i < n, ∀ j < n, i ≠ j → |f i j| ≤ tol)) ∧
    (∃ b, isSymmetric a tol = .ret b ∧ (b = true ↔ ∀ i < n, ∀ j < n, |f i j - f j i| ≤ tol)) ∧
    (∃ b, isSkewSymmetric a tol = .ret b ∧
      (b = true ↔ (∀ i < n, |f i i| ≤ tol) ∧ ∀ i < n, ∀ j < n, i ≠ j → |f i j + f j i| ≤ tol)) := by
  obtain ⟨hs, rfl⟩ := Dense.is_unique.1 ha
  refine ⟨?_, ?_, ?_, ?_, ?_, ?_⟩
  · obtain ⟨b, hb, hP⟩ := Dense.allEntries_spec n (fun _ => 0) (fun i => i - 1) (small (ofFn n n f) tol)
      (fun i j => |f i j| ≤ tol)
      (by intro i hi j _ hj; rw [small_ofFn f tol hi (by omega)])
    refine ⟨b, hb, hP.trans ⟨fun h i hi j hj hij => h i hi j (by omega) (by omega), fun h i hi j _ hj => h i hi j (by omega) (by omega)⟩⟩
  · obtain ⟨b, hb, hP⟩ := Dense.allEntries_spec n (fun _ => 0) (fun i => i) (small (ofFn n n f) tol)
      (fun i j => |f i j| ≤ tol)
      (by intro i hi j _ hj; rw [small_ofFn f tol hi (by omega)])
    refine ⟨b, hb, hP.trans ⟨fun h i hi j hj hij => h i hi j (by omega) (by omega), fun h i hi j _ hj => h i hi j (by omega) (by omega)⟩⟩
  · obtain ⟨b, hb, hP⟩ := Dense.allEntries_spec n (fun i => i + 1) (fun _ => n) (small (ofFn n n f) tol)
      (fun i j => |f i j| ≤ tol)
      (by intro i hi j _ hj; rw [small_ofFn f tol hi (by omega)])
    refine ⟨b, hb, hP.trans ⟨fun h i hi j hj hij => h i hi j (by omega) (by omega), fun h i hi j h1 hj => h i hi j (by omega) (by omega)⟩⟩
  · obtain ⟨b, hb, hP⟩ := Dense.allEntries_spec n (fun _ => 0) (fun _ => n) (offDiagSmall (ofFn n n f) tol)
      (fun i j => i ≠ j → |f i j| ≤ tol)
      (by
        intro i hi j _ hj
        rw [offDiagSmall]
        by_cases h : i = j
        · simp [h]
        · rw [if_pos h, small_ofFn f tol hi hj]; simp [h])
    refine ⟨b, hb, hP.trans ⟨fun h i hi j hj hij => h i hi j (by omega) (by omega) hij, fun h i hi j _ hj hij => h i hi j (by omega) hij⟩⟩
  · obtain ⟨b, hb, hP⟩ := Dense.allEntries_spec n (fun i => i + 1) (fun _ => n) (symSmall (ofFn n n f) tol)
      (fun i j => |f i j - f j i| ≤ tol)
      (by
        intro i hi j _ hj
        rw [symSmall, Dense.get_ofFn f hi hj, Outcome.bind_ret, Dense.get_ofFn f hj hi, Outcome.bind_ret]
        simp)
    refine ⟨b, by rw [isSymmetric, if_neg (by simp)]; exact hb, hP.trans ⟨fun h i hi j hj => ?_, fun h i hi j _ hj => h i hi j (by omega)⟩⟩
    rcases Nat.lt_trichotomy i j with hij | hij | hij
    · exact h i hi j (by omega) hj
    · subst hij; simpa using ht
    · rw [abs_sub_comm]; exact h j hj i (by omega) hi
  · obtain ⟨b, hb, hP⟩ := Dense.allEntries_spec n (fun i => i) (fun _ => n) (skewSmall (ofFn n n f) tol)
      (fun i j => (j = i → |f i i| ≤ tol) ∧ (j ≠ i → |f i j + f j i| ≤ tol))
      (by
        intro i hi j _ hj
        rw [skewSmall]
        by_cases h : j = i
        · rw [if_pos h, small_ofFn f tol hi hi]; simp [h]
        · rw [if_neg h, Dense.get_ofFn f hi hj, Outcome.bind_ret, Dense.get_ofFn f hj hi, Outcome.bind_ret]
          simp [h])
    refine ⟨b, by rw [isSkewSymmetric, if_neg (by simp)]; exact hb, hP.trans ⟨fun h => ⟨fun i hi => ?_, fun i hi j hj hij => ?_⟩, fun h i hi j _ hj => ?_⟩⟩
    · exact (h i hi i le_rfl hi).1 rfl
    · rcases Nat.lt_or_ge i j with hlt | hge
      · exact (h i hi j hlt.le hj).2 (by omega)
      · rw [add_comm]; exact (h j hj i hge hi).2 hij
    · exact ⟨fun _ => h.1 i hi, fun hne => h.2 i hi j hj (by omega)⟩

omit [IsStrictOrderedRing K] in
/-- **C144.**  A matrix that is not square is never symmetric nor skew-symmetric. -/
theorem structure_nonsquare (a : Dense K) (tol : K) (h : a.rows ≠ a.cols) :
    isSymmetric a tol = .ret false ∧ isSkewSymmetric a tol = .ret false := by
  simp [isSymmetric, isSkewSymmetric, Ne.symm h]

/-- Cases of `structure_spec`. -/
example : isUpperTriangular (⟨2, 2, [1, 2, 0, 4]⟩ : Dense ℚ) 0 = .ret true ∧
    isLowerTriangular (⟨2, 2, [1, 2, 0, 4]⟩ : Dense ℚ) 0 = .ret false ∧
    isSkewSymmetric (⟨2, 2, [0, 2, -2, 0]⟩ : Dense ℚ) 0 = .ret true ∧
    isUpperHessenberg (⟨3, 3, [1, 2, 3, 4, 5, 6, 0, 8, 9]⟩ : Dense ℚ) 0 = .ret true := by
  decide +kernel

/-- **C144, finding.**  The tests for triangular and diagonal matrices do not look at the number of columns.  A
`1 × 2` matrix with an element off the diagonal is reported as diagonal and lower triangular, a `2 × 1` lower
triangular matrix is refused, and the test of a `3 × 1` matrix reads outside the storage. -/
theorem structure_rectangular :
    isDiagonal (⟨1, 2, [1, 5]⟩ : Dense ℚ) 0 = .ret true ∧
    isLowerTriangular (⟨1, 2, [1, 5]⟩ : Dense ℚ) 0 = .ret true ∧
    isLowerTriangular (⟨2, 1, [1, 5]⟩ : Dense ℚ) 0 = .ret false ∧
    isUpperTriangular (⟨3, 1, [1, 0, 0]⟩ : Dense ℚ) 0 = .ub := by
  decide +kernel

/-! ## Norms -/

theorem forRange_max (n : ℕ) (body : K → ℕ → Outcome K) (g : ℕ → K) (m0 : K)
    (h : ∀ i < n, ∀ m, body m i = .ret (max m (g i))) :
    ∃ v, forRange n m0 body = .ret v ∧ m0 ≤ v ∧ (∀ i < n, g i ≤ v) ∧ (v = m0 ∨ ∃ i < n, g i = v) := by
  obtain ⟨v, hv, h1, h2, h3⟩ := forRange_rule
    (fun k (v : K) => m0 ≤ v ∧ (∀ i < k, g i ≤ v) ∧ (v = m0 ∨ ∃ i < k, g i = v)) n m0 body
    ⟨le_rfl, fun i hi => absurd hi (by omega), Or.inl rfl⟩
    (by
      rintro k v hk ⟨h1, h2, h3⟩
      refine ⟨_, h k hk v, h1.trans (le_max_left _ _), fun i hi => ?_, ?_⟩
      · by_cases hik : i = k
        · subst hik; exact le_max_right _ _
        · exact (h2 i (by omega)).trans (le_max_left _ _)
      · rcases le_total v (g k) with hle | hle
        · exact Or.inr ⟨k, by omega, (max_eq_right hle).symm⟩
        · rw [max_eq_left hle]
          rcases h3 with h3 | ⟨i, hi, h3⟩
          · exact Or.inl h3
          · exact Or.inr ⟨i, by omega, h3⟩)
  exact ⟨v, hv, h1, h2, h3⟩

/-- `v` is the largest of the numbers `g 0, …, g (n-1)`, or zero when there are none. -/
def IsMaxOf (v : K) (n : ℕ) (g : ℕ → K) : Prop :=
  (∀ i < n, g i ≤ v) ∧ (0 < n → ∃ i < n, g i = v) ∧ (n = 0 → v = 0)

omit [IsStrictOrderedRing K] in
theorem isMaxOf_of {v : K} {n : ℕ} {g : ℕ → K} (hg : ∀ i < n, 0 ≤ g i) (h0 : 0 ≤ v) (h1 : ∀ i < n, g i ≤ v)
    (h2 : v = 0 ∨ ∃ i < n, g i = v) : IsMaxOf v n g := by
  refine ⟨h1, fun hn => ?_, fun hn => ?_⟩
  · rcases h2 with h2 | h2
    · exact ⟨0, hn, le_antisymm (h1 0 hn) (h2 ▸ hg 0 hn)⟩
    · exact h2
  · rcases h2 with h2 | ⟨i, hi, _⟩
    · exact h2
    · omega

/-- **C144.**  The trace, the largest absolute row sum and the largest absolute column sum. -/
theorem norms_spec (a : Dense K) (r c : ℕ) (f : ℕ → ℕ → K) (ha : Is a r c f) :
    trace a = .ret (∑ i ∈ Finset.range (min r c), f i i) ∧
    (∃ v, infinityNorm a = .ret v ∧ IsMaxOf v r (fun i => ∑ j ∈ Finset.range c, |f i j|)) ∧
    (∃ v, oneNorm a = .ret v ∧ IsMaxOf v c (fun j => ∑ i ∈ Finset.range r, |f i j|)) := by
  obtain ⟨hs, rfl⟩ := Dense.is_unique.1 ha
  refine ⟨?_, ?_, ?_⟩
  · unfold trace
    simp only [Dense.ofFn_rows, Dense.ofFn_cols]
    rw [forRange_sum _ 0 _ (fun i => f i i), zero_add]
    intro i hi s
    rw [Dense.get_ofFn f (by omega) (by omega), Outcome.bind_ret]
  · unfold infinityNorm
    simp only [Dense.ofFn_rows, Dense.ofFn_cols]
    obtain ⟨v, hv, h0, h1, h2⟩ := forRange_max r (fun m i => do
      let s ← forRange c 0 (fun s j => do
        let x ← (ofFn r c f).get i j
        .ret (s + |x|))
      .ret (max m s)) (fun i => ∑ j ∈ Finset.range c, |f i j|) 0
      (by
        intro i hi m
        rw [forRange_sum c 0 _ (fun j => |f i j|), zero_add, Outcome.bind_ret]
        intro j hj s
        rw [Dense.get_ofFn f hi hj, Outcome.bind_ret])
    exact ⟨v, hv, isMaxOf_of (fun i _ => Finset.sum_nonneg fun j _ => abs_nonneg _) h0 h1 h2⟩
  · unfold oneNorm
    simp only [Dense.ofFn_rows, Dense.ofFn_cols]
    obtain ⟨v, hv, h0, h1, h2⟩ := forRange_max c (fun m j => do
      let s ← forRange r 0 (fun s i => do
        let x ← (ofFn r c f).get i j
        .ret (s + |x|))
      .ret (max m s)) (fun j => ∑ i ∈ Finset.range r, |f i j|) 0
      (by
        intro j hj m
        rw [forRange_sum r 0 _ (fun i => |f i j|), zero_add, Outcome.bind_ret]
        intro i hi s
        rw [Dense.get_ofFn f hi hj, Outcome.bind_ret])
    exact ⟨v, hv, isMaxOf_of (fun i _ => Finset.sum_nonneg fun j _ => abs_nonneg _) h0 h1 h2⟩

/-- **C144.**  The infinity norm bounds the effect of the matrix on a vector, and no smaller number does. -/
theorem infinityNorm_operator (a : Dense K) (r c : ℕ) (f : ℕ → ℕ → K) (ha : Is a r c f) :
    ∃ v, infinityNorm a = .ret v ∧ 0 ≤ v ∧
      (∀ (x : ℕ → K) (M : K), (∀ j < c, |x j| ≤ M) → ∀ i < r, |∑ j ∈ Finset.range c, f i j * x j| ≤ v * M) ∧
      (0 < r → ∃ x : ℕ → K, (∀ j < c, |x j| ≤ 1) ∧ ∃ i < r, |∑ j ∈ Finset.range c, f i j * x j| = v) := by
  obtain ⟨v, hv, h1, h2, h3⟩ := (norms_spec a r c f ha).2.1
  have hv0 : 0 ≤ v := by
    rcases Nat.eq_zero_or_pos r with hr | hr
    · rw [h3 hr]
    · exact (Finset.sum_nonneg fun j _ => abs_nonneg _).trans (h1 0 hr)
  refine ⟨v, hv, hv0, fun x M hx i hi => ?_, fun hr => ?_⟩
  · have hM : 0 ≤ M ∨ c = 0 := by
      rcases Nat.eq_zero_or_pos c with hc | hc
      · exact Or.inr hc
      · exact Or.inl ((abs_nonneg _).trans (hx 0 hc))
    rcases hM with hM | hc
    · calc |∑ j ∈ Finset.range c, f i j * x j| ≤ ∑ j ∈ Finset.range c, |f i j * x j| := Finset.abs_sum_le_sum_abs _ _
        _ ≤ ∑ j ∈ Finset.range c, |f i j| * M := by
            refine Finset.sum_le_sum fun j hj => ?_
            rw [abs_mul]
            exact mul_le_mul_of_nonneg_left (hx j (Finset.mem_range.1 hj)) (abs_nonneg _)
        _ = (∑ j ∈ Finset.range c, |f i j|) * M := (Finset.sum_mul _ _ _).symm
        _ ≤ v * M := mul_le_mul_of_nonneg_right (h1 i hi) hM
    · exfalso
      have hsh := (Dense.is_unique.1 ha).1
      rcases hsh with ⟨h, _⟩ | ⟨_, h, _⟩ <;> omega
  · obtain ⟨i, hi, hiv⟩ := h2 hr
    refine ⟨fun j => if 0 ≤ f i j then 1 else -1, fun j _ => ?_, i, hi, ?_⟩
    · simp only
      split <;> simp
    · have e : ∑ j ∈ Finset.range c, f i j * (if 0 ≤ f i j then 1 else -1) = v := by
        rw [← hiv]
        refine Finset.sum_congr rfl fun j _ => ?_
        by_cases h : 0 ≤ f i j
        · rw [if_pos h, abs_of_nonneg h, mul_one]
        · rw [if_neg h, abs_of_neg (not_le.1 h)]; ring
      rw [e, abs_of_nonneg hv0]

/-- **C144.**  The largest difference of two matrices of one shape is zero only when they are equal. -/
theorem maxAbsDiff_spec (a b : Dense K) (r c : ℕ) (f g : ℕ → ℕ → K) (ha : Is a r c f) (hb : Is b r c g) :
    ∃ v, maxAbsDiff a b = .ret v ∧ (∀ i < r, ∀ j < c, |f i j - g i j| ≤ v) ∧
      (0 < r → ∃ i < r, ∃ j < c, |f i j - g i j| = v) ∧ (v = 0 ↔ a = b) := by
  obtain ⟨hs, rfl⟩ := Dense.is_unique.1 ha
  obtain ⟨_, rfl⟩ := Dense.is_unique.1 hb
  unfold maxAbsDiff
  simp only [Dense.ofFn_rows, Dense.ofFn_cols, min_self]
  obtain ⟨v, hv, h0, h1, h2⟩ := forRange_rule
    (fun k (v : K) => 0 ≤ v ∧ (∀ i < k, ∀ j < c, |f i j - g i j| ≤ v) ∧
      (v = 0 ∨ ∃ i < k, ∃ j < c, |f i j - g i j| = v)) r (0 : K)
    (fun m i => forRange c m (fun m j => do
      let x ← (ofFn r c f).get i j
      let y ← (ofFn r c g).get i j
      .ret (max m |x - y|)))
    ⟨le_rfl, fun i hi => absurd hi (by omega), Or.inl rfl⟩
    (by
      rintro k m hk ⟨q0, q1, q2⟩
      obtain ⟨v, hv, p0, p1, p2⟩ := forRange_max c (fun m j => do
          let x ← (ofFn r c f).get k j
          let y ← (ofFn r c g).get k j
          .ret (max m |x - y|)) (fun j => |f k j - g k j|) m
        (by
          intro j hj m
          rw [Dense.get_ofFn f hk hj, Outcome.bind_ret, Dense.get_ofFn g hk hj, Outcome.bind_ret])
      refine ⟨v, hv, q0.trans p0, fun i hi j hj => ?_, ?_⟩
      · by_cases hik : i = k
        · subst hik; exact p1 j hj
        · exact (q1 i (by omega) j hj).trans p0
      · rcases p2 with p2 | ⟨j, hj, p2⟩
        · rcases q2 with q2 | ⟨i, hi, j, hj, q2⟩
          · exact Or.inl (p2.trans q2)
          · exact Or.inr ⟨i, by omega, j, hj, q2.trans p2.symm⟩
        · exact Or.inr ⟨k, by omega, j, hj, p2⟩)
  refine ⟨v, hv, h1, fun hr => ?_, ?_, ?_⟩
  · have hc : 0 < c := by
      rcases hs with ⟨h, _⟩ | ⟨_, h, _⟩ <;> omega
    rcases h2 with h2 | h2
    · exact ⟨0, hr, 0, hc, le_antisymm (h1 0 hr 0 hc) (h2 ▸ abs_nonneg _)⟩
    · exact h2
  · intro hv0
    refine Dense.ofFn_congr fun i hi j hj => ?_
    have := h1 i hi j hj
    rw [hv0] at this
    exact sub_eq_zero.1 (abs_eq_zero.1 (le_antisymm this (abs_nonneg _)))
  · intro hab
    rcases h2 with h2 | ⟨i, hi, j, hj, h2⟩
    · exact h2
    · have e1 := Dense.get_ofFn f hi hj
      rw [hab, Dense.get_ofFn g hi hj] at e1
      rw [← h2, Outcome.ret.inj e1, sub_self, abs_zero]

/-- **C144, finding.**  Matrices of different shapes are compared on their common corner only, so the largest
difference can be zero although they differ. -/
theorem maxAbsDiff_shapes :
    maxAbsDiff (⟨1, 1, [1]⟩ : Dense ℚ) ⟨1, 2, [1, 5]⟩ = .ret 0 := by
  decide +kernel

/-- Cases of the norms. -/
example : infinityNorm (⟨2, 2, [1, -2, 3, 4]⟩ : Dense ℚ) = .ret 7 ∧ oneNorm (⟨2, 2, [1, -2, 3, 4]⟩ : Dense ℚ) = .ret 6 ∧
    maxAbsDiff (⟨2, 2, [1, -2, 3, 4]⟩ : Dense ℚ) ⟨2, 2, [1, 1, 3, 5]⟩ = .ret 3 := by
  decide +kernel

/-! ## Similarity transform -/

omit [IsStrictOrderedRing K] in
theorem accum_spec {n : ℕ} (g : ℕ → ℕ → K) {i j : ℕ} (hi : i < n) (hj : j < n) (term : ℕ → Outcome K) (T : ℕ → K)
    (hT : ∀ k < n, term k = .ret (T k)) :
    accum n i j (ofFn n n g) term =
      .ret (ofFn n n (fun p q => if p = i ∧ q = j then ∑ k ∈ Finset.range n, T k else g p q)) := by
  unfold accum
  rw [Dense.set_ofFn g hi hj, Outcome.bind_ret]
  obtain ⟨t, ht, rfl⟩ := forRange_rule
    (fun m (r : Dense K) => r = ofFn n n (fun p q => if p = i ∧ q = j then ∑ k ∈ Finset.range m, T k else g p q))
    n (ofFn n n (fun p q => if p = i ∧ q = j then 0 else g p q))
    (fun r k => do
      let s ← r.get i j
      let t ← term k
      r.set i j (s + t))
    (by simp)
    (by
      rintro m _ hm rfl
      refine ⟨_, by rw [Dense.get_ofFn _ hi hj, Outcome.bind_ret, hT m hm, Outcome.bind_ret, Dense.set_ofFn _ hi hj], ?_⟩
      refine Dense.ofFn_congr fun p _ q _ => ?_
      by_cases h : p = i ∧ q = j
      · rw [if_pos h, if_pos h, if_pos ⟨rfl, rfl⟩, Finset.sum_range_succ]
      · rw [if_neg h, if_neg h, if_neg h])
  exact ht

omit [IsStrictOrderedRing K] in
theorem accumLoop_spec {n : ℕ} (f : ℕ → ℕ → K) (term : ℕ → ℕ → ℕ → Outcome K) (T : ℕ → ℕ → ℕ → K)
    (hT : ∀ i < n, ∀ j < n, ∀ k < n, term i j k = .ret (T i j k)) :
    forRange n (ofFn n n f) (fun t i => forRange n t (fun t j => accum n i j t (term i j))) =
      .ret (ofFn n n (fun i j => ∑ k ∈ Finset.range n, T i j k)) := by
  rw [Dense.forRange_row n f (fun i j => ∑ k ∈ Finset.range n, T i j k) le_rfl]
  · congr 1
    exact Dense.ofFn_congr fun i hi j _ => by rw [if_pos hi]
  · intro i hi g _
    obtain ⟨t, ht, rfl⟩ := forRange_rule
      (fun m (r : Dense K) => r = ofFn n n (fun p q => if p = i ∧ q < m then ∑ k ∈ Finset.range n, T i q k else g p q))
      n (ofFn n n g) (fun t j => accum n i j t (term i j))
      (by simp)
      (by
        rintro j _ hj rfl
        refine ⟨_, accum_spec _ hi hj _ (T i j) (fun k hk => hT i hi j hj k hk), ?_⟩
        refine Dense.ofFn_congr fun p _ q _ => ?_
        by_cases h : p = i ∧ q = j
        · obtain ⟨rfl, rfl⟩ := h
          rw [if_pos ⟨rfl, rfl⟩, if_pos ⟨rfl, by omega⟩]
        · rw [if_neg h]
          by_cases h2 : p = i ∧ q < j
          · rw [if_pos h2, if_pos (by omega)]
          · rw [if_neg h2, if_neg (by omega)])
    rw [ht]
    congr 1
    refine Dense.ofFn_congr fun p _ q hq => ?_
    by_cases h : p = i
    · rw [if_pos ⟨h, hq⟩, if_pos h]
    · rw [if_neg (by tauto), if_neg h]

omit [IsStrictOrderedRing K] in
/-- **C144.**  The similarity transform returns `QᵀAQ`.  When `Q` is orthogonal the result has the characteristic
polynomial of `A`, hence its trace, determinant and eigenvalues. -/
theorem similarity_spec (q a : Dense K) (n : ℕ) (Q A : ℕ → ℕ → K) (hq : Is q n n Q) (ha : Is a n n A) :
    ∃ b B, similarity q a = .ret b ∧ Is b n n B ∧
      toMat n B = (toMat n Q).transpose * toMat n A * toMat n Q ∧
      ((toMat n Q).transpose * toMat n Q = 1 → (toMat n B).charpoly = (toMat n A).charpoly) := by
  obtain ⟨hs, rfl⟩ := Dense.is_unique.1 ha
  obtain ⟨_, rfl⟩ := Dense.is_unique.1 hq
  have e1 := accumLoop_spec (fun _ _ => (0 : K)) (termAQ (ofFn n n A) (ofFn n n Q)) (fun i j k => A i k * Q k j)
    (by
      intro i hi j hj k hk
      rw [termAQ, Dense.get_ofFn _ hi hk, Outcome.bind_ret, Dense.get_ofFn _ hk hj, Outcome.bind_ret])
  have e2 := accumLoop_spec (fun _ _ => (0 : K))
    (termQT (ofFn n n Q) (ofFn n n (fun i j => ∑ k ∈ Finset.range n, A i k * Q k j)))
    (fun i j k => Q k i * ∑ l ∈ Finset.range n, A k l * Q l j)
    (by
      intro i hi j hj k hk
      rw [termQT, Dense.get_ofFn _ hk hi, Outcome.bind_ret, Dense.get_ofFn _ hk hj, Outcome.bind_ret])
  have hB : toMat n (fun i j => ∑ k ∈ Finset.range n, Q k i * ∑ l ∈ Finset.range n, A k l * Q l j)
      = (toMat n Q).transpose * toMat n A * toMat n Q := by
    rw [Matrix.mul_assoc]
    ext i j
    simp only [toMat, Matrix.mul_apply, Matrix.transpose_apply, Matrix.of_apply, Finset.sum_range]
  refine ⟨_, _, ?_, Dense.is_ofFn hs _, hB, fun horth => ?_⟩
  · unfold similarity
    simp only [Dense.ofFn_rows]
    rw [Dense.new_spec hs, Outcome.bind_ret, Outcome.bind_ret, e1, Outcome.bind_ret, e2]
  · rw [hB, Matrix.mul_assoc, Matrix.charpoly_mul_comm, Matrix.mul_assoc, mul_eq_one_comm.1 horth, Matrix.mul_one]

/-- A case of `similarity_spec`. -/
example : similarity (⟨2, 2, [0, 1, 1, 0]⟩ : Dense ℚ) ⟨2, 2, [1, 2, 3, 4]⟩ = .ret ⟨2, 2, [4, 3, 2, 1]⟩ := by
  decide +kernel

end

/-- **C144.**  The Frobenius norm is the square root of the sum of the squares of all elements. -/
theorem frobenius_spec (a : Dense ℝ) (r c : ℕ) (f : ℕ → ℕ → ℝ) (ha : Is a r c f) :
    ∃ v, frobeniusNorm a = .ret v ∧ 0 ≤ v ∧ v ^ 2 = ∑ i ∈ Finset.range r, ∑ j ∈ Finset.range c, f i j ^ 2 := by
  obtain ⟨hs, rfl⟩ := Dense.is_unique.1 ha
  have e : sumSq (ofFn r c f) = .ret (∑ i ∈ Finset.range r, ∑ j ∈ Finset.range c, f i j ^ 2) := by
    unfold sumSq
    simp only [Dense.ofFn_rows, Dense.ofFn_cols]
    rw [forRange_sum r 0 _ (fun i => ∑ j ∈ Finset.range c, f i j ^ 2), zero_add]
    intro i hi s
    rw [forRange_sum c s _ (fun j => f i j ^ 2)]
    intro j hj s
    rw [Dense.get_ofFn f hi hj, Outcome.bind_ret, abs_mul_abs_self, sq]
  refine ⟨Real.sqrt (∑ i ∈ Finset.range r, ∑ j ∈ Finset.range c, f i j ^ 2), ?_, Real.sqrt_nonneg _, ?_⟩
  · rw [frobeniusNorm, e, Outcome.bind_ret]
  · exact Real.sq_sqrt (Finset.sum_nonneg fun i _ => Finset.sum_nonneg fun j _ => sq_nonneg _)

end Verif.Mat.Utils
