import Verif.Eigen.Definite
import Verif.Eigen.JacobiProps

/-!
# The classification of symmetric matrices: proofs
-/

set_option autoImplicit false

namespace Verif.Eigen

open Verif.Mat Verif.LinAlg Finset

/-! ## Specification -/

/-- The quadratic form of a matrix. -/
noncomputable def form (n : ℕ) (A : ℕ → ℕ → ℝ) (x : ℕ → ℝ) : ℝ := ∑ i ∈ range n, ∑ j ∈ range n, A i j * x i * x j

/-- The square of the norm. -/
noncomputable def sqNorm (n : ℕ) (x : ℕ → ℝ) : ℝ := ∑ i ∈ range n, x i ^ 2

/-- What a class says about the quadratic form, up to the tolerance and an error `b` of the eigenvalues. -/
def Means (n : ℕ) (A : ℕ → ℕ → ℝ) (tol b : ℝ) : Definiteness → Prop
  | .posDef => ∃ l > tol, ∀ x, (l - b) * sqNorm n x ≤ form n A x
  | .posSemi => (∀ x, -(tol + b) * sqNorm n x ≤ form n A x) ∧ (∃ x, sqNorm n x = 1 ∧ tol < form n A x) ∧ ∃ x, sqNorm n x = 1 ∧ |form n A x| ≤ tol
  | .negDef => ∃ l < -tol, ∀ x, form n A x ≤ (l + b) * sqNorm n x
  | .negSemi => (∀ x, form n A x ≤ (tol + b) * sqNorm n x) ∧ (∃ x, sqNorm n x = 1 ∧ form n A x < -tol) ∧ ∃ x, sqNorm n x = 1 ∧ |form n A x| ≤ tol
  | .indef => ((∃ x, sqNorm n x = 1 ∧ tol < form n A x) ∧ ∃ x, sqNorm n x = 1 ∧ form n A x < -tol) ∨ ∀ x, |form n A x| ≤ (tol + b) * sqNorm n x

/-! ## The form in the coordinates of the eigenvectors -/

section
variable {n : ℕ} {A D V : ℕ → ℕ → ℝ}

/-- The coordinates. -/
noncomputable def coords (n : ℕ) (V : ℕ → ℕ → ℝ) (x : ℕ → ℝ) (k : ℕ) : ℝ := ∑ i ∈ range n, V i k * x i

theorem Inv.form_eq (h : Inv n A D V) (x : ℕ → ℝ) : form n A x = form n D (coords n V x) := by
  have h1 : form n A x = ∑ i ∈ range n, ∑ j ∈ range n, ∑ k ∈ range n, ∑ l ∈ range n, D k l * (V i k * x i) * (V j l * x j) := by
    refine sum_congr rfl fun i hi => sum_congr rfl fun j hj => ?_
    rw [h.prod i (mem_range.1 hi) j (mem_range.1 hj), sum_mul, sum_mul]
    refine sum_congr rfl fun k _ => ?_
    rw [mul_sum, sum_mul, sum_mul]
    exact sum_congr rfl fun l _ => by ring
  have h2 : form n D (coords n V x) = ∑ k ∈ range n, ∑ l ∈ range n, ∑ i ∈ range n, ∑ j ∈ range n, D k l * (V i k * x i) * (V j l * x j) := by
    refine sum_congr rfl fun k _ => sum_congr rfl fun l _ => ?_
    unfold coords
    rw [mul_assoc, sum_mul_sum, mul_sum]
    refine sum_congr rfl fun i _ => ?_
    rw [mul_sum]
    exact sum_congr rfl fun j _ => by ring
  rw [h1, h2]
  calc ∑ i ∈ range n, ∑ j ∈ range n, ∑ k ∈ range n, ∑ l ∈ range n, D k l * (V i k * x i) * (V j l * x j)
      = ∑ i ∈ range n, ∑ k ∈ range n, ∑ j ∈ range n, ∑ l ∈ range n, D k l * (V i k * x i) * (V j l * x j) :=
        sum_congr rfl fun i _ => sum_comm
    _ = ∑ k ∈ range n, ∑ i ∈ range n, ∑ j ∈ range n, ∑ l ∈ range n, D k l * (V i k * x i) * (V j l * x j) := sum_comm
    _ = ∑ k ∈ range n, ∑ i ∈ range n, ∑ l ∈ range n, ∑ j ∈ range n, D k l * (V i k * x i) * (V j l * x j) :=
        sum_congr rfl fun k _ => sum_congr rfl fun i _ => sum_comm
    _ = ∑ k ∈ range n, ∑ l ∈ range n, ∑ i ∈ range n, ∑ j ∈ range n, D k l * (V i k * x i) * (V j l * x j) :=
        sum_congr rfl fun k _ => sum_comm

theorem Inv.coords_norm (h : Inv n A D V) (x : ℕ → ℝ) : sqNorm n (coords n V x) = sqNorm n x := by
  have h1 : sqNorm n (coords n V x) = ∑ k ∈ range n, ∑ i ∈ range n, ∑ j ∈ range n, (V i k * V j k) * (x i * x j) := by
    refine sum_congr rfl fun k _ => ?_
    unfold coords
    rw [sq, sum_mul_sum]
    exact sum_congr rfl fun i _ => sum_congr rfl fun j _ => by ring
  rw [h1, sum_comm]
  refine sum_congr rfl fun i hi => ?_
  rw [sum_comm]
  have : ∀ j ∈ range n, ∑ k ∈ range n, V i k * V j k * (x i * x j) = if i = j then x i * x j else 0 := by
    intro j hj
    rw [← sum_mul, h.rows i (mem_range.1 hi) j (mem_range.1 hj)]
    split <;> simp
  rw [sum_congr rfl this, sum_ite_eq, if_pos hi, sq]

theorem Inv.coords_col (h : Inv n A D V) {k l : ℕ} (hk : k < n) (hl : l < n) : coords n V (fun i => V i k) l = if l = k then 1 else 0 :=
  h.cols l hl k hk

/-- The eigenvectors take the eigenvalues. -/
theorem Inv.rayleigh (h : Inv n A D V) {k : ℕ} (hk : k < n) : sqNorm n (fun i => V i k) = 1 ∧ form n A (fun i => V i k) = D k k := by
  constructor
  · have := h.cols k hk k hk
    rw [if_pos rfl] at this
    rw [← this]
    exact sum_congr rfl fun i _ => by ring
  · rw [h.form_eq]
    unfold form
    rw [sum_eq_single_of_mem k (mem_range.2 hk), sum_eq_single_of_mem k (mem_range.2 hk)]
    · rw [h.coords_col hk hk, if_pos rfl]; ring
    · intro l hl hne
      rw [h.coords_col hk (mem_range.1 hl), if_neg hne, mul_zero]
    · intro l hl hne
      refine sum_eq_zero fun j _ => ?_
      rw [h.coords_col hk (mem_range.1 hl), if_neg hne]
      ring

/-- The form differs from the weighted sum of squares of the coordinates by the part off the diagonal. -/
theorem off_bound (hs : ∀ i < n, ∀ j < n, D i j = D j i) (y : ℕ → ℝ) :
    |form n D y - ∑ k ∈ range n, D k k * y k ^ 2| ≤ Real.sqrt 2 * Real.sqrt (upper n D) * sqNorm n y := by
  have h1 : form n D y - ∑ k ∈ range n, D k k * y k ^ 2 = ∑ p ∈ range n ×ˢ range n, (if p.1 = p.2 then 0 else D p.1 p.2) * (y p.1 * y p.2) := by
    rw [sum_product, form, ← sum_sub_distrib]
    refine sum_congr rfl fun i hi => ?_
    have : D i i * y i ^ 2 = ∑ j ∈ range n, if i = j then D i j * y i * y j else 0 := by
      rw [sum_ite_eq, if_pos hi]; ring
    rw [this, ← sum_sub_distrib]
    refine sum_congr rfl fun j _ => ?_
    split
    · simp
    · ring
  have hcs := sum_mul_sq_le_sq_mul_sq (range n ×ˢ range n) (fun p : ℕ × ℕ => if p.1 = p.2 then 0 else D p.1 p.2) (fun p => y p.1 * y p.2)
  rw [← h1] at hcs
  have h2 : ∑ p ∈ range n ×ˢ range n, (if p.1 = p.2 then 0 else D p.1 p.2) ^ 2 = 2 * upper n D := by
    rw [upper_off hs, sum_product]
    refine sum_congr rfl fun i _ => sum_congr rfl fun j _ => ?_
    split <;> simp
  have h3 : ∑ p ∈ range n ×ˢ range n, (y p.1 * y p.2) ^ 2 = sqNorm n y ^ 2 := by
    rw [sum_product, sqNorm, sq, sum_mul_sum]
    exact sum_congr rfl fun i _ => sum_congr rfl fun j _ => by ring
  have hn : 0 ≤ sqNorm n y := sum_nonneg fun i _ => sq_nonneg _
  have hu := upper_nonneg n D
  have hnn : 0 ≤ Real.sqrt 2 * Real.sqrt (upper n D) * sqNorm n y := by positivity
  refine abs_le_of_sq_le_sq' ?_ hnn |> fun h => abs_le.2 h
  refine hcs.trans ?_
  rw [h2, h3, mul_pow, mul_pow, Real.sq_sqrt (by norm_num), Real.sq_sqrt hu]

theorem Inv.lower (h : Inv n A D V) {l : ℝ} (hl : ∀ k < n, l ≤ D k k) (x : ℕ → ℝ) :
    (l - Real.sqrt 2 * Real.sqrt (upper n D)) * sqNorm n x ≤ form n A x := by
  rw [h.form_eq, ← h.coords_norm]
  have h1 := (abs_le.1 (off_bound h.symm (coords n V x))).1
  have h2 : l * sqNorm n (coords n V x) ≤ ∑ k ∈ range n, D k k * coords n V x k ^ 2 := by
    rw [sqNorm, mul_sum]
    exact sum_le_sum fun k hk => mul_le_mul_of_nonneg_right (hl k (mem_range.1 hk)) (sq_nonneg _)
  nlinarith

theorem Inv.upperBound (h : Inv n A D V) {l : ℝ} (hl : ∀ k < n, D k k ≤ l) (x : ℕ → ℝ) :
    form n A x ≤ (l + Real.sqrt 2 * Real.sqrt (upper n D)) * sqNorm n x := by
  rw [h.form_eq, ← h.coords_norm]
  have h1 := (abs_le.1 (off_bound h.symm (coords n V x))).2
  have h2 : ∑ k ∈ range n, D k k * coords n V x k ^ 2 ≤ l * sqNorm n (coords n V x) := by
    rw [sqNorm, mul_sum]
    exact sum_le_sum fun k hk => mul_le_mul_of_nonneg_right (hl k (mem_range.1 hk)) (sq_nonneg _)
  nlinarith

end

/-! ## The count -/

/-- What the counters say about the first `k` numbers. -/
def Counted (tol : ℝ) (lam : ℕ → ℝ) (k : ℕ) (c : Counts) : Prop :=
  (c.pos = 0 ↔ ∀ i < k, lam i ≤ tol) ∧ (c.neg = 0 ↔ ∀ i < k, -tol ≤ lam i) ∧ (c.zero = 0 ↔ ∀ i < k, tol < lam i ∨ lam i < -tol)

theorem forall_lt_succ {P : ℕ → Prop} {k : ℕ} : (∀ i < k + 1, P i) ↔ (∀ i < k, P i) ∧ P k :=
  ⟨fun h => ⟨fun i hi => h i (by omega), h k (by omega)⟩, fun h i hi => by
    rcases Nat.lt_succ_iff_lt_or_eq.mp hi with h' | rfl
    · exact h.1 i h'
    · exact h.2⟩

theorem countSigns_spec {tol : ℝ} (ht : 0 ≤ tol) (n : ℕ) (lam : ℕ → ℝ) : ∃ c, countSigns tol n (tab n lam) = .ret c ∧ Counted tol lam n c := by
  obtain ⟨c, hc, h⟩ := forRange_rule (fun k c => Counted tol lam k c) n (⟨0, 0, 0⟩ : Counts) (fun c i => do
      let x ← Outcome.index (tab n lam) i
      .ret (countOne tol x c))
    ⟨⟨fun _ i hi => by omega, fun _ => rfl⟩, ⟨fun _ i hi => by omega, fun _ => rfl⟩, ⟨fun _ i hi => by omega, fun _ => rfl⟩⟩
    (by
      rintro k c hk ⟨h1, h2, h3⟩
      rw [index_tab lam hk]
      simp only [Outcome.bind_ret]
      refine ⟨_, rfl, ?_⟩
      unfold Counted countOne
      simp only [forall_lt_succ]
      by_cases c1 : lam k > tol
      · rw [if_pos c1]
        refine ⟨⟨fun h => by simp at h, fun h => absurd h.2 (not_le.2 c1)⟩, ?_, ?_⟩
        · rw [show (({ c with pos := c.pos + 1 } : Counts)).neg = c.neg from rfl, h2]
          exact ⟨fun h => ⟨h, by linarith⟩, fun h => h.1⟩
        · rw [show (({ c with pos := c.pos + 1 } : Counts)).zero = c.zero from rfl, h3]
          exact ⟨fun h => ⟨h, Or.inl c1⟩, fun h => h.1⟩
      · rw [if_neg c1]
        by_cases c2 : lam k < -tol
        · rw [if_pos c2]
          refine ⟨?_, ⟨fun h => by simp at h, fun h => absurd h.2 (not_le.2 c2)⟩, ?_⟩
          · rw [show (({ c with neg := c.neg + 1 } : Counts)).pos = c.pos from rfl, h1]
            exact ⟨fun h => ⟨h, not_lt.1 c1⟩, fun h => h.1⟩
          · rw [show (({ c with neg := c.neg + 1 } : Counts)).zero = c.zero from rfl, h3]
            exact ⟨fun h => ⟨h, Or.inr c2⟩, fun h => h.1⟩
        · rw [if_neg c2]
          refine ⟨?_, ?_, ⟨fun h => by simp at h, fun h => ?_⟩⟩
          · rw [show (({ c with zero := c.zero + 1 } : Counts)).pos = c.pos from rfl, h1]
            exact ⟨fun h => ⟨h, not_lt.1 c1⟩, fun h => h.1⟩
          · rw [show (({ c with zero := c.zero + 1 } : Counts)).neg = c.neg from rfl, h2]
            exact ⟨fun h => ⟨h, not_lt.1 c2⟩, fun h => h.1⟩
          · rcases h.2 with h | h
            · exact absurd h c1
            · exact absurd h c2)
  exact ⟨c, hc, h⟩

theorem exists_min {n : ℕ} (h0 : 0 < n) (f : ℕ → ℝ) : ∃ k < n, ∀ i < n, f k ≤ f i := by
  obtain ⟨k, hk, h⟩ := exists_min_image (range n) f ⟨0, mem_range.2 h0⟩
  exact ⟨k, mem_range.1 hk, fun i hi => h i (mem_range.2 hi)⟩

/-- The class that the counters give says the right thing about the form. -/
theorem decideClass_means {n : ℕ} {A D V : ℕ → ℕ → ℝ} (h : Inv n A D V) (h0 : 0 < n) {tol : ℝ} {c : Counts}
    (hc : Counted tol (fun k => D k k) n c) :
    Means n A tol (Real.sqrt 2 * Real.sqrt (upper n D)) (decideClass c) := by
  obtain ⟨c1, c2, c3⟩ := hc
  have hpos : ¬ c.pos = 0 → ∃ x, sqNorm n x = 1 ∧ tol < form n A x := by
    intro hp
    rw [c1] at hp
    push Not at hp
    obtain ⟨i, hi, hlt⟩ := hp
    obtain ⟨r1, r2⟩ := h.rayleigh hi
    exact ⟨_, r1, by rw [r2]; exact hlt⟩
  have hneg : ¬ c.neg = 0 → ∃ x, sqNorm n x = 1 ∧ form n A x < -tol := by
    intro hp
    rw [c2] at hp
    push Not at hp
    obtain ⟨i, hi, hlt⟩ := hp
    obtain ⟨r1, r2⟩ := h.rayleigh hi
    exact ⟨_, r1, by rw [r2]; exact hlt⟩
  have hzero : ¬ c.zero = 0 → ∃ x, sqNorm n x = 1 ∧ |form n A x| ≤ tol := by
    intro hp
    rw [c3] at hp
    push Not at hp
    obtain ⟨i, hi, hlt⟩ := hp
    obtain ⟨r1, r2⟩ := h.rayleigh hi
    exact ⟨_, r1, by rw [r2, abs_le]; exact ⟨hlt.2, hlt.1⟩⟩
  have hlow : c.neg = 0 → ∀ x, -(tol + Real.sqrt 2 * Real.sqrt (upper n D)) * sqNorm n x ≤ form n A x := by
    intro hn x
    have := h.lower (c2.1 hn) x
    rwa [show -(tol + Real.sqrt 2 * Real.sqrt (upper n D)) = -tol - Real.sqrt 2 * Real.sqrt (upper n D) by ring]
  have hup : c.pos = 0 → ∀ x, form n A x ≤ (tol + Real.sqrt 2 * Real.sqrt (upper n D)) * sqNorm n x := fun hp => h.upperBound (c1.1 hp)
  unfold decideClass
  by_cases d1 : c.neg = 0 ∧ c.zero = 0
  · rw [if_pos d1]
    obtain ⟨k, hk, hmin⟩ := exists_min h0 (fun k => D k k)
    refine ⟨D k k, ?_, h.lower hmin⟩
    rcases c3.1 d1.2 k hk with hh | hh
    · exact hh
    · exact absurd hh (not_lt.2 (c2.1 d1.1 k hk))
  · rw [if_neg d1]
    by_cases d2 : c.neg = 0 ∧ c.pos > 0
    · rw [if_pos d2]
      exact ⟨hlow d2.1, hpos (by omega), hzero fun hz => d1 ⟨d2.1, hz⟩⟩
    · rw [if_neg d2]
      by_cases d3 : c.pos = 0 ∧ c.zero = 0
      · rw [if_pos d3]
        obtain ⟨k, hk, hmin⟩ := exists_min h0 (fun k => -D k k)
        refine ⟨D k k, ?_, h.upperBound fun i hi => by have := hmin i hi; linarith⟩
        rcases c3.1 d3.2 k hk with hh | hh
        · exact absurd hh (not_lt.2 (c1.1 d3.1 k hk))
        · exact hh
      · rw [if_neg d3]
        by_cases d4 : c.pos = 0 ∧ c.neg > 0
        · rw [if_pos d4]
          exact ⟨hup d4.1, hneg (by omega), hzero fun hz => d3 ⟨d4.1, hz⟩⟩
        · rw [if_neg d4]
          by_cases hn : c.neg = 0
          · have hp : c.pos = 0 := by by_contra hp; exact d2 ⟨hn, by omega⟩
            refine Or.inr fun x => abs_le.2 ⟨?_, hup hp x⟩
            have := hlow hn x
            rwa [← neg_mul]
          · have hp : ¬ c.pos = 0 := fun hp => d4 ⟨hp, by omega⟩
            exact Or.inl ⟨hpos hp, hneg hn⟩

theorem counted_perm {n : ℕ} {tol : ℝ} {f : ℕ → ℝ} {c : Counts} (π : Equiv.Perm ℕ) (hπ : ∀ k, π k < n ↔ k < n)
    (h : Counted tol (fun k => f (π k)) n c) : Counted tol f n c := by
  have key : ∀ P : ℝ → Prop, (∀ i < n, P (f (π i))) ↔ ∀ i < n, P (f i) := by
    intro P
    constructor
    · intro hh i hi
      have := hh (π.symm i) (by rw [← hπ, Equiv.apply_symm_apply]; exact hi)
      rwa [Equiv.apply_symm_apply] at this
    · exact fun hh i hi => hh _ ((hπ i).2 hi)
  obtain ⟨h1, h2, h3⟩ := h
  exact ⟨h1.trans (key (fun v => v ≤ tol)), h2.trans (key (fun v => -tol ≤ v)), h3.trans (key (fun v => tol < v ∨ v < -tol))⟩

/-- **C141.**  `ClassifyDefiniteness` answers for every nonempty symmetric matrix, and the class it gives says the right thing about
the quadratic form, up to the tolerance and `√2` times the residual of the eigenvalue solver.  The residual is within the
tolerance if the solver converged. -/
theorem classify_spec {thr : ℝ} (ht : 0 < thr) {n : ℕ} {a : Sym ℝ} {A : ℕ → ℕ → ℝ} (h : a.Is n A) (h0 : 0 < n) (hn : n < 10000) {tol : ℝ}
    (htol : 0 ≤ tol) : ∃ res c, solve thr a tol 100 = .ret res ∧ classify thr a tol = .ret c ∧ 0 ≤ res.residual ∧
      (res.converged = true → res.residual ≤ tol) ∧ Means n A tol (Real.sqrt 2 * res.residual) c := by
  obtain ⟨hv, rfl, hg⟩ := h
  have h : a.Is a.dim A := ⟨hv, rfl, hg⟩
  obtain ⟨D, V, k, e1, e2, -⟩ := iterate_spec (tol := tol) ht (100 : ℤ).toNat A _ 0 (inv_start h)
  obtain ⟨π, p1, -, p2⟩ := solve_run h h0 hn e1
  obtain ⟨c, hc, hcnt⟩ := countSigns_spec htol a.dim (fun k => D (π k) (π k))
  refine ⟨_, decideClass c, p2, ?_, Real.sqrt_nonneg _, fun hcv => ?_, decideClass_means e2 h0 (counted_perm (f := fun k => D k k) π p1 hcnt)⟩
  · rw [classify, p2, Outcome.bind_ret, hc, Outcome.bind_ret]
  · exact of_decide_eq_true hcv

/-- The general matrix is classified by its symmetric part, whose form is its own; matrices that are not square are refused. -/
theorem classifyDense_spec {thr : ℝ} {n c : ℕ} {a : Dense ℝ} {f : ℕ → ℕ → ℝ} (h : a.Is n c f) (hn : n < 10000) (tol : ℝ) :
    (n ≠ c → classifyDense thr a tol = .exn (.mml "MatrixDimensionError")) ∧
    (n = c → ∃ s : Sym ℝ, s.Is n (fun i j => (f i j + f j i) / 2) ∧ classifyDense thr a tol = classify thr s tol) ∧
    ∀ x, form n (fun i j => (f i j + f j i) / 2) x = form n f x := by
  refine ⟨fun hne => ?_, fun he => ?_, fun x => ?_⟩
  · rw [classifyDense, h.2.2.1, h.2.1, if_pos (Ne.symm hne)]
  · subst he
    obtain ⟨s, hs, hI⟩ := symmetrize_spec h le_rfl hn
    exact ⟨s, hI, by rw [classifyDense, h.2.2.1, h.2.1, if_neg (by simp), hs, Outcome.bind_ret]⟩
  · have hsw : form n f x = ∑ i ∈ range n, ∑ j ∈ range n, f j i * x i * x j := by
      unfold form
      rw [sum_comm]
      exact sum_congr rfl fun i _ => sum_congr rfl fun j _ => by ring
    have : form n (fun i j => (f i j + f j i) / 2) x = (form n f x + ∑ i ∈ range n, ∑ j ∈ range n, f j i * x i * x j) / 2 := by
      unfold form
      rw [← sum_add_distrib, sum_div]
      refine sum_congr rfl fun i _ => ?_
      rw [← sum_add_distrib, sum_div]
      exact sum_congr rfl fun j _ => by ring
    rw [this, ← hsw]
    ring

/-- **C141.**  With an exact diagonalisation and tolerance zero the classes are the definite and indefinite forms of the textbooks, except
that the zero matrix is put among the indefinite ones. -/
theorem classify_exact {n : ℕ} {A : ℕ → ℕ → ℝ} {c : Definiteness} (h : Means n A 0 0 c) :
    (c = .posDef → ∀ x, 0 < sqNorm n x → 0 < form n A x) ∧ (c = .posSemi → ∀ x, 0 ≤ form n A x) ∧
    (c = .negDef → ∀ x, 0 < sqNorm n x → form n A x < 0) ∧ (c = .negSemi → ∀ x, form n A x ≤ 0) ∧
    (c = .indef → ((∃ x, 0 < form n A x) ∧ ∃ x, form n A x < 0) ∨ ∀ x, form n A x = 0) := by
  refine ⟨?_, ?_, ?_, ?_, ?_⟩ <;> rintro rfl
  · intro x hx
    obtain ⟨l, hl, hb⟩ := h
    have := hb x
    rw [sub_zero] at this
    exact lt_of_lt_of_le (mul_pos hl hx) this
  · intro x
    have := h.1 x
    simpa using this
  · intro x hx
    obtain ⟨l, hl, hb⟩ := h
    have := hb x
    rw [add_zero] at this
    rw [neg_zero] at hl
    exact lt_of_le_of_lt this (mul_neg_of_neg_of_pos hl hx)
  · intro x
    have := h.1 x
    simpa using this
  · rcases h with ⟨⟨x, -, hx⟩, ⟨y, -, hy⟩⟩ | h
    · exact Or.inl ⟨⟨x, hx⟩, ⟨y, by simpa using hy⟩⟩
    · refine Or.inr fun x => ?_
      have := h x
      rw [add_zero, zero_mul] at this
      exact abs_nonpos_iff.1 this

/-- The tests say whether the class is one of theirs. -/
theorem tests_spec {thr : ℝ} {a : Sym ℝ} {tol : ℝ} {c : Definiteness} (h : classify thr a tol = .ret c) :
    isPositiveDefinite thr a tol = .ret (decide (c = .posDef)) ∧ isPositiveSemiDefinite thr a tol = .ret (decide (c = .posDef ∨ c = .posSemi)) ∧
    isNegativeDefinite thr a tol = .ret (decide (c = .negDef)) ∧ isNegativeSemiDefinite thr a tol = .ret (decide (c = .negDef ∨ c = .negSemi)) ∧
    isIndefinite thr a tol = .ret (decide (c = .indef)) := by
  unfold isPositiveDefinite isPositiveSemiDefinite isNegativeDefinite isNegativeSemiDefinite isIndefinite
  rw [h]
  exact ⟨rfl, rfl, rfl, rfl, rfl⟩

/-! ## Where it is wrong -/

/-- A matrix whose part above the diagonal is within the tolerance is classified by its diagonal. -/
theorem classify_small {thr : ℝ} (ht : 0 < thr) {n : ℕ} {a : Sym ℝ} {A : ℕ → ℕ → ℝ} (h : a.Is n A) (h0 : 0 < n) (hn : n < 10000) {tol : ℝ}
    (htol : 0 ≤ tol) (hoff : offDiag n A ≤ tol) : ∃ c, classify thr a tol = .ret (decideClass c) ∧ Counted tol (fun k => A k k) n c := by
  obtain ⟨hv, rfl, hg⟩ := h
  have h : a.Is a.dim A := ⟨hv, rfl, hg⟩
  obtain ⟨D, V, k, e1, -, -, -, -, -, -, -, e9, -⟩ := iterate_spec (tol := tol) ht (100 : ℤ).toNat A _ 0 (inv_start h)
  obtain ⟨rfl, rfl⟩ := e9 (.inl hoff)
  obtain ⟨π, p1, -, p2⟩ := solve_run h h0 hn e1
  obtain ⟨c, hc, hcnt⟩ := countSigns_spec htol a.dim (fun k => D (π k) (π k))
  refine ⟨c, ?_, counted_perm (f := fun k => D k k) π p1 hcnt⟩
  rw [classify, p2, Outcome.bind_ret, hc, Outcome.bind_ret]

/-- **The zero matrix is called indefinite**, though it is positive and negative semidefinite and takes no value of either sign. -/
theorem zero_indefinite {thr : ℝ} (ht : 0 < thr) {n : ℕ} {a : Sym ℝ} (h : a.Is n (fun _ _ => 0)) (h0 : 0 < n) (hn : n < 10000) {tol : ℝ}
    (htol : 0 ≤ tol) : classify thr a tol = .ret .indef ∧ ∀ x, form n (fun _ _ => 0) x = 0 := by
  obtain ⟨c, hc, c1, c2, c3⟩ := classify_small ht h h0 hn htol (by simpa [offDiag] using htol)
  refine ⟨?_, fun x => by simp [form]⟩
  have d1 : c.pos = 0 := c1.2 fun i _ => htol
  have d2 : c.neg = 0 := c2.2 fun i _ => by linarith
  have d3 : c.zero ≠ 0 := fun hz => by
    rcases c3.1 hz 0 h0 with hh | hh <;> linarith
  rw [hc]
  unfold decideClass
  rw [if_neg (fun hh => d3 hh.2), if_neg (by omega), if_neg (fun hh => d3 hh.2), if_neg (by omega)]

/-- A matrix of dimension three with small elements: `11/10` on the diagonal and `-57/100` off it, times the tolerance. -/
noncomputable def smallMatrix (tol : ℝ) (i j : ℕ) : ℝ := if i = j then 11 / 10 * tol else -(57 / 100) * tol

/-- **A matrix that takes a negative value is called positive definite**, for every positive tolerance: the residual of the eigenvalues,
within the tolerance, is not taken into account. -/
theorem posDef_wrong {thr : ℝ} (ht : 0 < thr) {a : Sym ℝ} {tol : ℝ} (htol : 0 < tol) (h : a.Is 3 (smallMatrix tol)) :
    classify thr a tol = .ret .posDef ∧ form 3 (smallMatrix tol) (fun _ => 1) < 0 := by
  obtain ⟨c, hc, c1, c2, c3⟩ := classify_small ht h (by norm_num) (by norm_num) htol.le (by
    unfold offDiag
    rw [Real.sqrt_le_left htol.le]
    simp only [Finset.sum_range_succ, Finset.sum_range_zero, smallMatrix]
    norm_num
    nlinarith)
  constructor
  · have d2 : c.neg = 0 := c2.2 fun i _ => by simp only [smallMatrix, if_true]; linarith
    have d3 : c.zero = 0 := c3.2 fun i _ => Or.inl (by simp only [smallMatrix, if_true]; linarith)
    rw [hc]
    unfold decideClass
    rw [if_pos ⟨d2, d3⟩]
  · simp only [form, Finset.sum_range_succ, Finset.sum_range_zero, smallMatrix]
    norm_num
    linarith

/-- Not vacuous: there is such a matrix, and it is answered. -/
example (thr : ℝ) (ht : 0 < thr) : ∃ a : Sym ℝ, a.Is 3 (smallMatrix 1) ∧ classify thr a 1 = .ret .posDef := by
  obtain ⟨s, -, hs⟩ := symmetrize_spec (Dense.is_ofFn (Sym.shape_of_dim (show 3 ≤ 10000 by norm_num)) (smallMatrix 1)) le_rfl (by norm_num)
  have he : (fun i j => (smallMatrix 1 i j + smallMatrix 1 j i) / 2) = smallMatrix 1 := by
    funext i j
    simp only [smallMatrix, eq_comm (a := j)]
    ring
  rw [he] at hs
  exact ⟨s, hs, (posDef_wrong ht one_pos hs).1⟩

/-- The empty matrix is refused. -/
theorem classify_empty (thr tol : ℝ) : classify thr ⟨0, []⟩ tol = .exn (.mml "MatrixDimensionError") := rfl

end Verif.Eigen
