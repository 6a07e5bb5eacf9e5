import Verif.LinAlg.Iter
import Verif.LinAlg.IterSpec
import Verif.LinAlg.LUSolve
import Verif.LoopLemmas
import Mathlib.Topology.Algebra.Order.LiminfLimsup
import Mathlib.Analysis.SpecificLimits.Basic
import Mathlib.LinearAlgebra.FiniteDimensional.Basic
import Mathlib.Tactic

/-! # Helper lemmas for the iterative solvers -/

set_option autoImplicit false

namespace Verif.LinAlg.Iter

open Verif.Mat Finset

theorem normL2_tab (n : ℕ) (v : ℕ → ℝ) : normL2 (tab n v) = .ret (len n v) := by
  rw [normL2, length_tab, forRange_sum n 0 _ (fun i => v i * v i), Outcome.bind_ret, zero_add, len]
  intro i hi s
  rw [index_tab _ hi, Outcome.bind_ret]

theorem subVec_tab (n : ℕ) (v w : ℕ → ℝ) : subVec (tab n v) (tab n w) = .ret (tab n fun i => v i - w i) := by
  rw [subVec, length_tab, length_tab, if_neg (by simp), replicate_eq_tab, forRange_fill n n le_rfl _ (fun i => v i - w i)]
  · congr 1
    exact tab_congr fun i hi => by rw [if_pos hi]
  · intro i hi r
    rw [index_tab _ hi, Outcome.bind_ret, index_tab _ hi, Outcome.bind_ret]

theorem bNorm_tab (n : ℕ) (b : ℕ → ℝ) : bNorm (tab n b) = .ret (if len n b = 0 then 1 else len n b) := by
  rw [bNorm, normL2_tab, Outcome.bind_ret]

theorem relRes_tab (n : ℕ) (A : ℕ → ℕ → ℝ) (b x : ℕ → ℝ) :
    relRes (Dense.ofFn n n A) (tab n b) (if len n b = 0 then 1 else len n b) (tab n x) = .ret (relResidual n A b x) := by
  rw [relRes, Dense.mulVec_ofFn, Outcome.bind_ret, subVec_tab, Outcome.bind_ret, normL2_tab, Outcome.bind_ret, divU, if_neg]
  · rfl
  · split_ifs with h
    · exact one_ne_zero
    · exact h

theorem term_tab {n : ℕ} (A : ℕ → ℕ → ℝ) (x : ℕ → ℝ) {i j : ℕ} (hi : i < n) (hj : j < n) (s : ℝ) :
    term (Dense.ofFn n n A) (tab n x) i s j = .ret (s + A i j * x j) := by
  rw [term, Dense.get_ofFn _ hi hj, Outcome.bind_ret, index_tab _ hj, Outcome.bind_ret]

theorem update_tab {n : ℕ} (A : ℕ → ℕ → ℝ) (b : ℕ → ℝ) {i : ℕ} (hi : i < n) (hd : A i i ≠ 0) (s : ℝ) :
    update (Dense.ofFn n n A) (tab n b) i s = .ret ((b i - s) / A i i) := by
  rw [update, index_tab _ hi, Outcome.bind_ret, Dense.get_ofFn _ hi hi, Outcome.bind_ret, divU, if_neg hd]

theorem sigma_tab {n : ℕ} (A : ℕ → ℕ → ℝ) (x : ℕ → ℝ) {i : ℕ} (hi : i < n) :
    sigma (Dense.ofFn n n A) (tab n x) i = .ret (∑ j ∈ range i, A i j * x j + ∑ j ∈ Ico (i + 1) n, A i j * x j) := by
  rw [sigma, forRange_sum i 0 _ (fun j => A i j * x j) (fun j hj s => term_tab A x hi (by omega) s), Outcome.bind_ret,
    zero_add]
  exact forFromTo_sum _ _ _ _ _ fun j _ hj s => term_tab A x hi hj s

theorem jacobiSweep_tab {n : ℕ} (A : ℕ → ℕ → ℝ) (b x : ℕ → ℝ) (hd : ∀ i < n, A i i ≠ 0) :
    ∃ x', jacobiSweep (Dense.ofFn n n A) (tab n b) (tab n x) = .ret (tab n x') ∧ JacobiStep n A b x x' := by
  refine ⟨fun i => (b i - ∑ j ∈ (range n).erase i, A i j * x j) / A i i, ?_, fun i hi => by
    rw [mul_div_cancel₀ _ (hd i hi)]⟩
  rw [jacobiSweep, show (Dense.ofFn n n A).rows = n from rfl, replicate_eq_tab,
    forRange_fill n n le_rfl _ (fun i => (b i - ∑ j ∈ (range n).erase i, A i j * x j) / A i i)]
  · congr 1
    exact tab_congr fun i hi => by rw [if_pos hi]
  · intro i hi r
    rw [forRange_sum n 0 _ (fun j => if j ≠ i then A i j * x j else 0), Outcome.bind_ret, zero_add, update_tab A b hi (hd i hi),
      Outcome.bind_ret, ← sum_filter, filter_ne']
    intro j hj s
    by_cases h : j ≠ i
    · rw [if_pos h, if_pos h, term_tab A x hi hj]
    · rw [if_neg h, if_neg h, add_zero]

theorem sorSweep_tab {n : ℕ} (A : ℕ → ℕ → ℝ) (b x : ℕ → ℝ) (ω : ℝ) (hd : ∀ i < n, A i i ≠ 0) :
    ∃ x', sorSweep ω (Dense.ofFn n n A) (tab n b) (tab n x) = .ret (tab n x') ∧ SorStep n A b ω x x' := by
  rw [sorSweep, show (Dense.ofFn n n A).rows = n from rfl]
  obtain ⟨t, ht, x', rfl, _, h2⟩ := forRange_rule
    (fun i (v : List ℝ) => ∃ x' : ℕ → ℝ, v = tab n x' ∧ (∀ p, i ≤ p → x' p = x p) ∧
      ∀ p < i, A p p * (x' p - x p) =
        ω * (b p - ∑ j ∈ range p, A p j * x' j - A p p * x p - ∑ j ∈ Ico (p + 1) n, A p j * x j))
    n (tab n x) (fun v i => do
      let sig ← sigma (Dense.ofFn n n A) v i
      let u ← update (Dense.ofFn n n A) (tab n b) i sig
      let xi ← Outcome.index v i
      Outcome.store v i ((1 - ω) * xi + ω * u)) ⟨x, rfl, fun _ _ => rfl, fun p hp => by omega⟩
    (by
      rintro i _ hi ⟨y, rfl, h1, h2⟩
      refine ⟨_, by
        rw [sigma_tab A y hi, Outcome.bind_ret, update_tab A b hi (hd i hi), Outcome.bind_ret, index_tab _ hi,
          Outcome.bind_ret, store_tab _ hi], _, rfl, fun p hp => ?_, fun p hp => ?_⟩
      · rw [if_neg (by omega), h1 p (by omega)]
      · have e : ∀ q ≤ i, ∑ j ∈ range q, A p j * (if j = i then (1 - ω) * y i + ω *
            ((b i - (∑ j ∈ range i, A i j * y j + ∑ j ∈ Ico (i + 1) n, A i j * y j)) / A i i) else y j) =
            ∑ j ∈ range q, A p j * y j := fun q hq => sum_congr rfl fun j hj => by
          rw [if_neg (by have := mem_range.1 hj; omega)]
        rw [e p (by omega)]
        by_cases hpi : p = i
        · subst hpi
          have hp0 := hd p hi
          have e2 : ∑ j ∈ Ico (p + 1) n, A p j * y j = ∑ j ∈ Ico (p + 1) n, A p j * x j :=
            sum_congr rfl fun j hj => by rw [h1 j (by have := mem_Ico.1 hj; omega)]
          rw [if_pos rfl, h1 p le_rfl, e2]
          field_simp
          ring
        · rw [if_neg hpi]
          exact h2 p (by omega))
  exact ⟨x', ht, h2⟩

theorem gsSweep_eq {n : ℕ} (A : ℕ → ℕ → ℝ) (b x : ℕ → ℝ) (hd : ∀ i < n, A i i ≠ 0) :
    ∃ x', gsSweep (Dense.ofFn n n A) (tab n b) (tab n x) = .ret (tab n x') ∧ SorStep n A b 1 x x' := by
  rw [gsSweep, show (Dense.ofFn n n A).rows = n from rfl]
  obtain ⟨t, ht, x', rfl, _, h2⟩ := forRange_rule
    (fun i (v : List ℝ) => ∃ x' : ℕ → ℝ, v = tab n x' ∧ (∀ p, i ≤ p → x' p = x p) ∧
      ∀ p < i, A p p * (x' p - x p) =
        1 * (b p - ∑ j ∈ range p, A p j * x' j - A p p * x p - ∑ j ∈ Ico (p + 1) n, A p j * x j))
    n (tab n x) (fun v i => do
      let sig ← sigma (Dense.ofFn n n A) v i
      let u ← update (Dense.ofFn n n A) (tab n b) i sig
      Outcome.store v i u) ⟨x, rfl, fun _ _ => rfl, fun p hp => by omega⟩
    (by
      rintro i _ hi ⟨y, rfl, h1, h2⟩
      refine ⟨_, by
        rw [sigma_tab A y hi, Outcome.bind_ret, update_tab A b hi (hd i hi), Outcome.bind_ret, store_tab _ hi], _, rfl,
          fun p hp => ?_, fun p hp => ?_⟩
      · rw [if_neg (by omega), h1 p (by omega)]
      · have e : ∀ q ≤ i, ∑ j ∈ range q, A p j * (if j = i then
            (b i - (∑ j ∈ range i, A i j * y j + ∑ j ∈ Ico (i + 1) n, A i j * y j)) / A i i else y j) =
            ∑ j ∈ range q, A p j * y j := fun q hq => sum_congr rfl fun j hj => by
          rw [if_neg (by have := mem_range.1 hj; omega)]
        rw [e p (by omega)]
        by_cases hpi : p = i
        · subst hpi
          have hp0 := hd p hi
          have e2 : ∑ j ∈ Ico (p + 1) n, A p j * y j = ∑ j ∈ Ico (p + 1) n, A p j * x j :=
            sum_congr rfl fun j hj => by rw [h1 j (by have := mem_Ico.1 hj; omega)]
          rw [if_pos rfl, e2]
          field_simp
          ring
        · rw [if_neg hpi]
          exact h2 p (by omega))
  exact ⟨x', ht, h2⟩

/-! ## The checks -/

theorem maxDiag_eq {n : ℕ} (A : ℕ → ℕ → ℝ) :
    ∃ s, maxDiag (Dense.ofFn n n A) = .ret s ∧ 0 ≤ s ∧ (∀ i < n, |A i i| ≤ s) ∧ (s = 0 ∨ ∃ i < n, |A i i| = s) := by
  obtain ⟨s, hs, h0, h1, h2⟩ := forRange_rule
    (fun i (s : ℝ) => 0 ≤ s ∧ (∀ p < i, |A p p| ≤ s) ∧ (s = 0 ∨ ∃ p < n, |A p p| = s))
    n (0 : ℝ) (fun s i => do
      let x ← (Dense.ofFn n n A).get i i
      Outcome.ret (if |x| > s then |x| else s))
    ⟨le_rfl, fun p hp => by omega, Or.inl rfl⟩
    (by
      rintro i s hi ⟨h0, h1, h2⟩
      refine ⟨if |A i i| > s then |A i i| else s, by rw [Dense.get_ofFn _ hi hi, Outcome.bind_ret], ?_⟩
      have hle : s ≤ (if |A i i| > s then |A i i| else s) := by split_ifs with h <;> linarith
      have hle2 : |A i i| ≤ (if |A i i| > s then |A i i| else s) := by split_ifs with h <;> linarith
      refine ⟨h0.trans hle, fun p hp => ?_, ?_⟩
      · by_cases hpi : p = i
        · subst hpi; exact hle2
        · exact (h1 p (by omega)).trans hle
      · split_ifs
        · exact Or.inr ⟨i, hi, rfl⟩
        · exact h2)
  exact ⟨s, hs, h0, h1, h2⟩

theorem checkDiag_eq {n : ℕ} (A : ℕ → ℕ → ℝ) (tol : ℝ) :
    ((∀ i < n, tol ≤ |A i i|) → checkDiag (Dense.ofFn n n A) tol = .ret ()) ∧
    ((∃ i < n, |A i i| < tol) → checkDiag (Dense.ofFn n n A) tol = .exn (.mml "SingularMatrixError")) := by
  rw [checkDiag, show (Dense.ofFn n n A).rows = n from rfl]
  have key : ∀ k ≤ n, ((∀ i < k, tol ≤ |A i i|) → forRange k () (fun _ i => do
        let x ← (Dense.ofFn n n A).get i i
        if |x| < tol then Outcome.exn (.mml "SingularMatrixError") else .ret ()) = .ret ()) ∧
      ((∃ i < k, |A i i| < tol) → forRange k () (fun _ i => do
        let x ← (Dense.ofFn n n A).get i i
        if |x| < tol then Outcome.exn (.mml "SingularMatrixError") else .ret ()) = .exn (.mml "SingularMatrixError")) := by
    intro k hk
    induction k with
    | zero => exact ⟨fun _ => rfl, fun ⟨i, hi, _⟩ => by omega⟩
    | succ k ih =>
      obtain ⟨g1, g2⟩ := ih (by omega)
      constructor
      · intro h
        rw [forRange, g1 (fun i hi => h i (by omega)), Outcome.bind_ret, Dense.get_ofFn _ hk hk, Outcome.bind_ret,
          if_neg (not_lt.2 (h k (by omega)))]
      · rintro ⟨i, hi, hlt⟩
        by_cases hex : ∃ i < k, |A i i| < tol
        · rw [forRange, g2 hex, Outcome.bind_exn]
        · push Not at hex
          have hik : i = k := by
            by_contra hne
            exact absurd hlt (not_lt.2 (hex i (by omega)))
          subst hik
          rw [forRange, g1 hex, Outcome.bind_ret, Dense.get_ofFn _ hk hk, Outcome.bind_ret, if_pos hlt]
  exact key n le_rfl

theorem check_eq {eps : ℝ} (heps : 0 < eps) {n : ℕ} (A : ℕ → ℕ → ℝ) (b : ℕ → ℝ) :
    (DiagOk eps n A → check eps (Dense.ofFn n n A) (tab n b) = .ret ()) ∧
    (¬DiagOk eps n A → check eps (Dense.ofFn n n A) (tab n b) = .exn (.mml "SingularMatrixError")) := by
  obtain ⟨s, hs, h0, h1, h2⟩ := maxDiag_eq (n := n) A
  have hc : check eps (Dense.ofFn n n A) (tab n b) = checkDiag (Dense.ofFn n n A) (diagTol eps s) := by
    rw [check, if_neg (by simp), if_neg (by simp), hs, Outcome.bind_ret]
  have hiff : DiagOk eps n A ↔ ∀ i < n, diagTol eps s ≤ |A i i| := by
    constructor
    · intro h i hi
      rw [diagTol]
      split_ifs with hlt
      · exact (h i hi).1
      · rcases h2 with h2 | ⟨j, hj, h2⟩
        · rw [h2, zero_mul]; exact abs_nonneg _
        · rw [← h2, mul_comm]; exact (h i hi).2 j hj
    · intro h i hi
      have hi' := h i hi
      rw [diagTol] at hi'
      constructor
      · split_ifs at hi' with hlt
        · exact hi'
        · push Not at hlt; exact hlt.trans hi'
      · intro j hj
        have : eps * |A j j| ≤ s * eps := by rw [mul_comm]; exact mul_le_mul_of_nonneg_right (h1 j hj) heps.le
        split_ifs at hi' with hlt
        · linarith
        · linarith
  rw [hc]
  obtain ⟨c1, c2⟩ := checkDiag_eq (n := n) A (diagTol eps s)
  refine ⟨fun h => c1 (hiff.1 h), fun h => c2 ?_⟩
  rw [hiff] at h
  push Not at h
  exact h

/-! ## The loop -/

theorem loop_run {n : ℕ} {A : ℕ → ℕ → ℝ} {b : ℕ → ℝ} {tol : ℝ} {sweep : List ℝ → Outcome (List ℝ)}
    {res : List ℝ → Outcome ℝ} (hres : ∀ x, res (tab n x) = .ret (relResidual n A b x)) {xs : ℕ → ℕ → ℝ}
    (hsw : ∀ k, sweep (tab n (xs k)) = .ret (tab n (xs (k + 1)))) (left done : ℕ)
    (hbad : ∀ j, 1 ≤ j → j ≤ done → tol ≤ relResidual n A b (xs j)) (r0 : ℝ)
    (hr0 : 1 ≤ done → r0 = relResidual n A b (xs done)) :
    ∃ r, loop sweep res tol left (done + 1) (tab n (xs done)) r0 = .ret r ∧ Run n A b tol (done + left) xs r := by
  induction left generalizing done r0 with
  | zero => exact ⟨_, rfl, fun h => absurd h (by simp), fun _ => ⟨rfl, rfl, hr0, hbad⟩⟩
  | succ left ih =>
    rw [loop, hsw, Outcome.bind_ret, hres, Outcome.bind_ret]
    by_cases hlt : relResidual n A b (xs (done + 1)) < tol
    · rw [if_pos hlt]
      exact ⟨_, rfl, fun _ => ⟨done + 1, by omega, by omega, rfl, rfl, rfl, hlt, fun j h1 h2 => hbad j h1 (by omega)⟩,
        fun h => absurd h (by simp)⟩
    · rw [if_neg hlt]
      obtain ⟨r, h1, h2⟩ := ih (done + 1) (fun j hj1 hj2 => by
        by_cases hj : j = done + 1
        · subst hj; exact not_lt.1 hlt
        · exact hbad j hj1 (by omega)) _ (fun _ => rfl)
      refine ⟨r, h1, ?_⟩
      rw [show done + (left + 1) = done + 1 + left by omega]
      exact h2

theorem solveWith_run {eps : ℝ} (heps : 0 < eps) {n : ℕ} {A : ℕ → ℕ → ℝ} {b : ℕ → ℝ} {tol : ℝ}
    {sweep : List ℝ → Outcome (List ℝ)} {Step : (ℕ → ℝ) → (ℕ → ℝ) → Prop} (hA : DiagOk eps n A)
    (hsw : ∀ x, ∃ x', sweep (tab n x) = .ret (tab n x') ∧ Step x x') (x0 : List ℝ) :
    ∃ xs : ℕ → ℕ → ℝ, tab n (xs 0) = (if x0.length = n then x0 else List.replicate n 0) ∧ (∀ k, Step (xs k) (xs (k + 1))) ∧
      ∀ maxIter : ℤ, ∃ r, solveWith sweep eps (Dense.ofFn n n A) (tab n b) x0 tol maxIter = .ret r ∧
        Run n A b tol maxIter.toNat xs r := by
  obtain ⟨g, hg⟩ : ∃ g : ℕ → ℝ, start n x0 = tab n g := by
    rw [start]
    split_ifs with h
    · exact ⟨_, by rw [← h]; exact eq_tab x0 0⟩
    · exact ⟨_, replicate_eq_tab n 0⟩
  choose S hS1 hS2 using hsw
  refine ⟨fun k => S^[k] g, hg.symm, fun k => by
    beta_reduce
    rw [Function.iterate_succ_apply']
    exact hS2 _, fun maxIter => ?_⟩
  obtain ⟨r, h1, h2⟩ := loop_run (n := n) (A := A) (b := b) (tol := tol) (sweep := sweep)
    (res := relRes (Dense.ofFn n n A) (tab n b) (if len n b = 0 then 1 else len n b)) (relRes_tab n A b)
    (xs := fun k => S^[k] g) (fun k => by
      beta_reduce
      rw [Function.iterate_succ_apply']
      exact hS1 _) maxIter.toNat 0
    (fun j h1 h2 => by omega) 0 (fun h => by omega)
  rw [Nat.zero_add] at h2
  refine ⟨r, ?_, h2⟩
  rw [solveWith, (check_eq heps A b).1 hA, Outcome.bind_ret, bNorm_tab, Outcome.bind_ret,
    show start (Dense.ofFn n n A).rows x0 = tab n g from hg]
  exact h1

theorem DiagOk.ne {eps : ℝ} (heps : 0 < eps) {n : ℕ} {A : ℕ → ℕ → ℝ} (h : DiagOk eps n A) : ∀ i < n, A i i ≠ 0 := by
  intro i hi h0
  have := (h i hi).1
  rw [h0, abs_zero] at this
  linarith

/-! ## Convergence of the iterates -/

open Filter Topology

theorem len_tendsto {n : ℕ} {v : ℕ → ℕ → ℝ} (h : ∀ i < n, Tendsto (fun k => v k i) atTop (𝓝 0)) :
    Tendsto (fun k => len n (v k)) atTop (𝓝 0) := by
  have h1 : Tendsto (fun k => ∑ i ∈ range n, v k i * v k i) atTop (𝓝 (∑ i ∈ range n, (0 : ℝ) * 0)) :=
    tendsto_finsetSum _ fun i hi => (h i (mem_range.1 hi)).mul (h i (mem_range.1 hi))
  have h2 := (Real.continuous_sqrt.tendsto _).comp h1
  simpa [len, Function.comp_def] using h2

theorem relResidual_tendsto {n : ℕ} {A : ℕ → ℕ → ℝ} {b : ℕ → ℝ} {xs : ℕ → ℕ → ℝ}
    (h : ∀ i < n, Tendsto (fun k => ∑ j ∈ range n, A i j * xs k j - b i) atTop (𝓝 0)) :
    Tendsto (fun k => relResidual n A b (xs k)) atTop (𝓝 0) := by
  have := (len_tendsto h).div_const (if len n b = 0 then 1 else len n b)
  simpa [relResidual] using this

theorem residual_of_conv {n : ℕ} {A : ℕ → ℕ → ℝ} {b xstar : ℕ → ℝ} {xs : ℕ → ℕ → ℝ}
    (hsol : ∀ i < n, ∑ j ∈ range n, A i j * xstar j = b i) (h : ∀ i < n, Tendsto (fun k => xs k i) atTop (𝓝 (xstar i))) :
    ∀ i < n, Tendsto (fun k => ∑ j ∈ range n, A i j * xs k j - b i) atTop (𝓝 0) := by
  intro i hi
  rw [← sub_self (b i), ← hsol i hi]
  exact (tendsto_finsetSum _ fun j hj => (h j (mem_range.1 hj)).const_mul (A i j)).sub_const _

theorem exists_solution {n : ℕ} {A : ℕ → ℕ → ℝ}
    (hker : ∀ z : ℕ → ℝ, (∀ i < n, ∑ j ∈ range n, A i j * z j = 0) → ∀ i < n, z i = 0) (b : ℕ → ℝ) :
    ∃ x : ℕ → ℝ, ∀ i < n, ∑ j ∈ range n, A i j * x j = b i := by
  let M : Matrix (Fin n) (Fin n) ℝ := Matrix.of fun i j => A i j
  have hsum : ∀ (v : Fin n → ℝ) (i : Fin n), M.mulVec v i =
      ∑ j ∈ range n, A i j * (if h : j < n then v ⟨j, h⟩ else 0) := by
    intro v i
    rw [← Fin.sum_univ_eq_sum_range (fun j => A i j * (if h : j < n then v ⟨j, h⟩ else 0)) n]
    have e : M.mulVec v i = ∑ j : Fin n, A i j * v j := rfl
    rw [e]
    refine Finset.sum_congr rfl fun j _ => ?_
    rw [dif_pos j.2]
  have hinj : Function.Injective M.mulVecLin := by
    refine (injective_iff_map_eq_zero M.mulVecLin).2 fun v hv => ?_
    funext i
    have := hker (fun j => if h : j < n then v ⟨j, h⟩ else 0) (fun i hi => by
      rw [← hsum v ⟨i, hi⟩]
      exact congrFun hv ⟨i, hi⟩) i i.2
    simpa using this
  obtain ⟨v, hv⟩ := (LinearMap.injective_iff_surjective.1 hinj) (fun i : Fin n => b i)
  refine ⟨fun j => if h : j < n then v ⟨j, h⟩ else 0, fun i hi => ?_⟩
  rw [← hsum v ⟨i, hi⟩]
  exact congrFun hv ⟨i, hi⟩

theorem sum_split {n : ℕ} (g : ℕ → ℝ) {i : ℕ} (hi : i < n) :
    ∑ j ∈ range n, g j = g i + ∑ j ∈ (range n).erase i, g j := (add_sum_erase _ _ (mem_range.2 hi)).symm

theorem sum_split3 {n : ℕ} (g : ℕ → ℝ) {i : ℕ} (hi : i < n) :
    ∑ j ∈ range n, g j = ∑ j ∈ range i, g j + g i + ∑ j ∈ Ico (i + 1) n, g j := by
  rw [← sum_range_add_sum_Ico _ (show i + 1 ≤ n by omega), sum_range_succ]

theorem erase_split {n : ℕ} (g : ℕ → ℝ) {i : ℕ} (hi : i < n) :
    ∑ j ∈ (range n).erase i, g j = ∑ j ∈ range i, g j + ∑ j ∈ Ico (i + 1) n, g j := by
  have h1 := sum_split g hi
  have h2 := sum_split3 g hi
  linarith

/-- The rate of a diagonally dominant matrix. -/
theorem DiagDominant.rate {n : ℕ} {A : ℕ → ℕ → ℝ} (h : DiagDominant n A) :
    ∃ q, 0 ≤ q ∧ q < 1 ∧ ∀ i < n, ∑ j ∈ (range n).erase i, |A i j| ≤ q * |A i i| := by
  have hpos : ∀ i < n, 0 < |A i i| := fun i hi => lt_of_le_of_lt (sum_nonneg fun _ _ => abs_nonneg _) (h i hi)
  rcases Nat.eq_zero_or_pos n with rfl | hn
  · exact ⟨0, le_rfl, one_pos, fun i hi => by omega⟩
  obtain ⟨i, hi, hmax⟩ := exists_max_image (range n) (fun i => (∑ j ∈ (range n).erase i, |A i j|) / |A i i|)
    ⟨0, mem_range.2 hn⟩
  have hi := mem_range.1 hi
  refine ⟨_, div_nonneg (sum_nonneg fun _ _ => abs_nonneg _) (abs_nonneg _), (div_lt_one (hpos i hi)).2 (h i hi), fun j hj => ?_⟩
  have := hmax j (mem_range.2 hj)
  rwa [div_le_iff₀ (hpos j hj)] at this

theorem DiagDominant.kernel {n : ℕ} {A : ℕ → ℕ → ℝ} (h : DiagDominant n A) :
    ∀ z : ℕ → ℝ, (∀ i < n, ∑ j ∈ range n, A i j * z j = 0) → ∀ i < n, z i = 0 := by
  intro z hz p hp
  obtain ⟨i, hi, hmax⟩ := exists_max_image (range n) (fun i => |z i|) ⟨p, mem_range.2 hp⟩
  have hi' := mem_range.1 hi
  have hzi : |z i| = 0 := by
    by_contra hne
    have hpos : 0 < |z i| := lt_of_le_of_ne (abs_nonneg _) (Ne.symm hne)
    have e := hz i hi'
    rw [sum_split _ hi'] at e
    have e2 : A i i * z i = -∑ j ∈ (range n).erase i, A i j * z j := by linarith
    have : |A i i| * |z i| ≤ (∑ j ∈ (range n).erase i, |A i j|) * |z i| := by
      rw [← abs_mul, e2, abs_neg, sum_mul]
      refine (abs_sum_le_sum_abs _ _).trans (sum_le_sum fun j hj => ?_)
      rw [abs_mul]
      exact mul_le_mul_of_nonneg_left (hmax j (mem_of_mem_erase hj)) (abs_nonneg _)
    have := le_of_mul_le_mul_right this hpos
    exact absurd (h i hi') (not_lt.2 this)
  have := hmax p (mem_range.2 hp)
  rw [hzi] at this
  exact abs_eq_zero.1 (le_antisymm this (abs_nonneg _))

/-- Iterates whose distance from the solution shrinks converge. -/
theorem conv_of_shrink {n : ℕ} {xstar : ℕ → ℝ} {xs : ℕ → ℕ → ℝ} {q : ℝ} (hq0 : 0 ≤ q) (hq : q < 1)
    (h : ∀ k M, (∀ i < n, |xs k i - xstar i| ≤ M) → ∀ i < n, |xs (k + 1) i - xstar i| ≤ q * M) :
    ∀ i < n, Tendsto (fun k => xs k i) atTop (𝓝 (xstar i)) := by
  have hM : ∀ k, ∀ i < n, |xs k i - xstar i| ≤ q ^ k * ∑ i ∈ range n, |xs 0 i - xstar i| := by
    intro k
    induction k with
    | zero =>
      intro i hi
      rw [pow_zero, one_mul]
      exact single_le_sum (f := fun i => |xs 0 i - xstar i|) (fun i _ => abs_nonneg _) (mem_range.2 hi)
    | succ k ih =>
      intro i hi
      refine (h k _ ih i hi).trans (le_of_eq ?_)
      rw [pow_succ]
      ring
  intro i hi
  rw [tendsto_iff_norm_sub_tendsto_zero]
  have h1 : Tendsto (fun k => q ^ k * ∑ i ∈ range n, |xs 0 i - xstar i|) atTop (𝓝 0) := by
    have := (tendsto_pow_atTop_nhds_zero_of_lt_one hq0 hq).mul_const (∑ i ∈ range n, |xs 0 i - xstar i|)
    rwa [zero_mul] at this
  exact squeeze_zero (fun k => norm_nonneg _) (fun k => hM k i hi) h1

theorem jacobi_shrink {n : ℕ} {A : ℕ → ℕ → ℝ} {b xstar x x' : ℕ → ℝ} (hd : ∀ i < n, A i i ≠ 0)
    (hsol : ∀ i < n, ∑ j ∈ range n, A i j * xstar j = b i) {q : ℝ}
    (hq : ∀ i < n, ∑ j ∈ (range n).erase i, |A i j| ≤ q * |A i i|) (hs : JacobiStep n A b x x') {M : ℝ}
    (hM : ∀ i < n, |x i - xstar i| ≤ M) : ∀ i < n, |x' i - xstar i| ≤ q * M := by
  intro i hi
  have hM0 : 0 ≤ M := (abs_nonneg _).trans (hM i hi)
  have hp : 0 < |A i i| := abs_pos.2 (hd i hi)
  have e : A i i * (x' i - xstar i) = -∑ j ∈ (range n).erase i, A i j * (x j - xstar j) := by
    have h1 := hs i hi
    have h2 := hsol i hi
    rw [sum_split _ hi] at h2
    simp only [mul_sub, sum_sub_distrib]
    linarith
  have : |A i i| * |x' i - xstar i| ≤ |A i i| * (q * M) := by
    rw [← abs_mul, e, abs_neg]
    refine (abs_sum_le_sum_abs _ _).trans ?_
    calc ∑ j ∈ (range n).erase i, |A i j * (x j - xstar j)| ≤ ∑ j ∈ (range n).erase i, |A i j| * M := by
          refine sum_le_sum fun j hj => ?_
          rw [abs_mul]
          exact mul_le_mul_of_nonneg_left (hM j (mem_range.1 (mem_of_mem_erase hj))) (abs_nonneg _)
      _ = (∑ j ∈ (range n).erase i, |A i j|) * M := by rw [sum_mul]
      _ ≤ q * |A i i| * M := mul_le_mul_of_nonneg_right (hq i hi) hM0
      _ = |A i i| * (q * M) := by ring
  exact le_of_mul_le_mul_left this hp

theorem sor_shrink {n : ℕ} {A : ℕ → ℕ → ℝ} {b xstar x x' : ℕ → ℝ} (hd : ∀ i < n, A i i ≠ 0)
    (hsol : ∀ i < n, ∑ j ∈ range n, A i j * xstar j = b i) {q ω : ℝ} (hω0 : 0 < ω) (hω : ω ≤ 1) (hq1 : q ≤ 1)
    (hq : ∀ i < n, ∑ j ∈ (range n).erase i, |A i j| ≤ q * |A i i|) (hs : SorStep n A b ω x x') {M : ℝ}
    (hM : ∀ i < n, |x i - xstar i| ≤ M) : ∀ i < n, |x' i - xstar i| ≤ (1 - ω + ω * q) * M := by
  have key : ∀ k, ∀ i < k, i < n → |x' i - xstar i| ≤ (1 - ω + ω * q) * M := by
    intro k
    induction k with
    | zero => intro i hi; omega
    | succ k ih =>
      intro i hik hi
      have hM0 : 0 ≤ M := (abs_nonneg _).trans (hM i hi)
      have hp : 0 < |A i i| := abs_pos.2 (hd i hi)
      have hle : (1 - ω + ω * q) * M ≤ M := by
        have : 1 - ω + ω * q ≤ 1 := by nlinarith
        nlinarith
      have e : A i i * (x' i - xstar i) = (1 - ω) * (A i i * (x i - xstar i)) -
          ω * (∑ j ∈ range i, A i j * (x' j - xstar j) + ∑ j ∈ Ico (i + 1) n, A i j * (x j - xstar j)) := by
        have h1 := hs i hi
        have h2 := hsol i hi
        rw [sum_split3 _ hi] at h2
        simp only [mul_sub, sum_sub_distrib] at h1 ⊢
        rw [← h2] at h1
        linarith
      have hb : |∑ j ∈ range i, A i j * (x' j - xstar j) + ∑ j ∈ Ico (i + 1) n, A i j * (x j - xstar j)| ≤ q * |A i i| * M := by
        refine (abs_add_le _ _).trans ?_
        have h1 : |∑ j ∈ range i, A i j * (x' j - xstar j)| ≤ (∑ j ∈ range i, |A i j|) * M := by
          refine (abs_sum_le_sum_abs _ _).trans ?_
          rw [sum_mul]
          refine sum_le_sum fun j hj => ?_
          have := mem_range.1 hj
          rw [abs_mul]
          exact mul_le_mul_of_nonneg_left ((ih j (by omega) (by omega)).trans hle) (abs_nonneg _)
        have h2 : |∑ j ∈ Ico (i + 1) n, A i j * (x j - xstar j)| ≤ (∑ j ∈ Ico (i + 1) n, |A i j|) * M := by
          refine (abs_sum_le_sum_abs _ _).trans ?_
          rw [sum_mul]
          refine sum_le_sum fun j hj => ?_
          rw [abs_mul]
          exact mul_le_mul_of_nonneg_left (hM j (mem_Ico.1 hj).2) (abs_nonneg _)
        refine (add_le_add h1 h2).trans ?_
        rw [← add_mul, ← erase_split (fun j => |A i j|) hi]
        exact mul_le_mul_of_nonneg_right (hq i hi) hM0
      have : |A i i| * |x' i - xstar i| ≤ |A i i| * ((1 - ω + ω * q) * M) := by
        rw [← abs_mul, e]
        refine (abs_sub _ _).trans ?_
        rw [abs_mul, abs_mul ω, abs_mul, abs_of_nonneg (show 0 ≤ 1 - ω by linarith), abs_of_pos hω0]
        have h1 : (1 - ω) * (|A i i| * |x i - xstar i|) ≤ (1 - ω) * (|A i i| * M) :=
          mul_le_mul_of_nonneg_left (mul_le_mul_of_nonneg_left (hM i hi) hp.le) (by linarith)
        have h2 := mul_le_mul_of_nonneg_left hb hω0.le
        refine (add_le_add h1 h2).trans (le_of_eq (by ring))
      exact le_of_mul_le_mul_left this hp
  exact fun i hi => key (i + 1) i (by omega) hi

/-! ## Positive definite matrices -/

/-- The energy of a vector. -/
noncomputable def energy (n : ℕ) (A : ℕ → ℕ → ℝ) (e : ℕ → ℝ) : ℝ := ∑ i ∈ range n, ∑ j ∈ range n, e i * A i j * e j

theorem PosDef.nonneg {n : ℕ} {A : ℕ → ℕ → ℝ} (h : PosDef n A) (e : ℕ → ℝ) : 0 ≤ energy n A e := by
  by_cases hz : ∃ i < n, e i ≠ 0
  · exact (h.2 e hz).le
  · push Not at hz
    refine le_of_eq (sum_eq_zero fun i hi => sum_eq_zero fun j _ => ?_).symm
    rw [hz i (mem_range.1 hi), zero_mul, zero_mul]

theorem PosDef.diag {n : ℕ} {A : ℕ → ℕ → ℝ} (h : PosDef n A) : ∀ i < n, 0 < A i i := by
  intro i hi
  have := h.2 (fun j => if j = i then 1 else 0) ⟨i, hi, by simp⟩
  rw [sum_eq_single i, sum_eq_single i] at this
  · simpa using this
  · intro j _ hj; simp [hj]
  · intro hn; exact absurd (mem_range.2 hi) hn
  · intro j _ hj; simp [hj]
  · intro hn; exact absurd (mem_range.2 hi) hn

theorem PosDef.kernel {n : ℕ} {A : ℕ → ℕ → ℝ} (h : PosDef n A) :
    ∀ z : ℕ → ℝ, (∀ i < n, ∑ j ∈ range n, A i j * z j = 0) → ∀ i < n, z i = 0 := by
  intro z hz i hi
  by_contra hne
  have := h.2 z ⟨i, hi, hne⟩
  rw [sum_eq_zero] at this
  · exact lt_irrefl _ this
  · intro i hi
    simp only [mul_assoc]
    rw [← mul_sum, hz i (mem_range.1 hi), mul_zero]

/-- The energy after one element is moved. -/
theorem energy_move {n : ℕ} {A : ℕ → ℕ → ℝ} (hsym : ∀ i < n, ∀ j < n, A i j = A j i) {i : ℕ} (hi : i < n) (e : ℕ → ℝ) (δ : ℝ) :
    energy n A (fun j => if j = i then e j + δ else e j) =
      energy n A e + 2 * δ * ∑ j ∈ range n, A i j * e j + δ ^ 2 * A i i := by
  have h1 : ∀ j, (if j = i then e j + δ else e j) = e j + (if j = i then δ else 0) := fun j => by split_ifs <;> ring
  simp only [energy, h1]
  have h2 : ∀ p q, (e p + if p = i then δ else 0) * A p q * (e q + if q = i then δ else 0) =
      e p * A p q * e q + (if q = i then e p * A p i * δ else 0) + (if p = i then δ * A i q * e q else 0) +
        (if p = i then (if q = i then δ * A i i * δ else 0) else 0) := by
    intro p q
    by_cases hp : p = i <;> by_cases hq : q = i <;> simp [hp, hq] <;> ring
  simp only [h2, sum_add_distrib]
  have hm := mem_range.2 hi
  have e1 : ∑ p ∈ range n, ∑ q ∈ range n, (if q = i then e p * A p i * δ else 0) = δ * ∑ j ∈ range n, A i j * e j := by
    rw [mul_sum]
    refine sum_congr rfl fun p hp => ?_
    rw [sum_ite_eq', if_pos hm, hsym p (mem_range.1 hp) i hi]
    ring
  have e2 : ∑ p ∈ range n, ∑ q ∈ range n, (if p = i then δ * A i q * e q else 0) = δ * ∑ j ∈ range n, A i j * e j := by
    rw [sum_comm, mul_sum]
    refine sum_congr rfl fun q _ => ?_
    rw [sum_ite_eq', if_pos hm]
    ring
  have e3 : ∑ p ∈ range n, ∑ q ∈ range n, (if p = i then (if q = i then δ * A i i * δ else 0) else 0) = δ ^ 2 * A i i := by
    rw [sum_comm]
    simp only [sum_ite_eq', if_pos hm]
    ring
  rw [e1, e2, e3]
  ring

theorem energy_congr {n : ℕ} {A : ℕ → ℕ → ℝ} {e e' : ℕ → ℝ} (h : ∀ i < n, e i = e' i) : energy n A e = energy n A e' :=
  sum_congr rfl fun i hi => sum_congr rfl fun j hj => by rw [h i (mem_range.1 hi), h j (mem_range.1 hj)]

/-- A sweep loses energy. -/
theorem sor_energy {n : ℕ} {A : ℕ → ℕ → ℝ} {b xstar x x' : ℕ → ℝ} (hsym : ∀ i < n, ∀ j < n, A i j = A j i)
    (hsol : ∀ i < n, ∑ j ∈ range n, A i j * xstar j = b i) {ω : ℝ} (hω0 : 0 < ω) (hs : SorStep n A b ω x x') :
    energy n A (fun j => x' j - xstar j) =
      energy n A (fun j => x j - xstar j) - (2 / ω - 1) * ∑ i ∈ range n, A i i * (x' i - x i) ^ 2 := by
  have key : ∀ k ≤ n, energy n A (fun j => (if j < k then x' j else x j) - xstar j) =
      energy n A (fun j => x j - xstar j) - (2 / ω - 1) * ∑ i ∈ range k, A i i * (x' i - x i) ^ 2 := by
    intro k hk
    induction k with
    | zero => simp
    | succ k ih =>
      have ih := ih (by omega)
      have hmv := energy_move hsym (show k < n by omega) (fun j => (if j < k then x' j else x j) - xstar j) (x' k - x k)
      have e1 : energy n A (fun j => (if j < k + 1 then x' j else x j) - xstar j) =
          energy n A (fun j => if j = k then (if j < k then x' j else x j) - xstar j + (x' k - x k)
            else (if j < k then x' j else x j) - xstar j) := by
        refine energy_congr fun j _ => ?_
        by_cases hj : j = k
        · subst hj
          rw [if_pos (by omega), if_pos rfl, if_neg (by omega)]
          ring
        · rw [if_neg hj]
          by_cases h : j < k
          · rw [if_pos (by omega), if_pos h]
          · rw [if_neg (by omega), if_neg h]
      have e2 : ∑ j ∈ range n, A k j * ((if j < k then x' j else x j) - xstar j) =
          -(A k k * (x' k - x k) / ω) := by
        have h1 := hs k (by omega)
        have h2 : ∑ j ∈ range n, A k j * (if j < k then x' j else x j) =
            ∑ j ∈ range k, A k j * x' j + A k k * x k + ∑ j ∈ Ico (k + 1) n, A k j * x j := by
          rw [sum_split3 _ (show k < n by omega), if_neg (by omega)]
          congr 1
          · congr 1
            exact sum_congr rfl fun j hj => by rw [if_pos (mem_range.1 hj)]
          · exact sum_congr rfl fun j hj => by rw [if_neg (by have := mem_Ico.1 hj; omega)]
        simp only [mul_sub, sum_sub_distrib]
        rw [hsol k (by omega), h2, ← mul_sub, h1]
        field_simp
        ring
      rw [e1, hmv, ih, e2, sum_range_succ]
      field_simp
      ring
  have := key n le_rfl
  rw [← this]
  exact energy_congr fun i hi => by rw [if_pos hi]

theorem sor_residual {n : ℕ} {A : ℕ → ℕ → ℝ} {b x x' : ℕ → ℝ} {ω : ℝ} (hω0 : 0 < ω) (hs : SorStep n A b ω x x') :
    ∀ i < n, ∑ j ∈ range n, A i j * x' j - b i =
      A i i * (x' i - x i) - A i i * (x' i - x i) / ω + ∑ j ∈ Ico (i + 1) n, A i j * (x' j - x j) := by
  intro i hi
  have h1 := hs i hi
  rw [h1, sum_split3 _ hi]
  simp only [mul_sub, sum_sub_distrib] at h1 ⊢
  field_simp
  linarith

theorem sor_tendsto {n : ℕ} {A : ℕ → ℕ → ℝ} (hA : PosDef n A) {b : ℕ → ℝ} {ω : ℝ} (hω0 : 0 < ω) (hω2 : ω < 2)
    {xs : ℕ → ℕ → ℝ} (hs : ∀ k, SorStep n A b ω (xs k) (xs (k + 1))) :
    ∀ i < n, Tendsto (fun k => ∑ j ∈ range n, A i j * xs (k + 1) j - b i) atTop (𝓝 0) := by
  obtain ⟨xstar, hsol⟩ := exists_solution hA.kernel b
  have hE := fun k => sor_energy hA.1 hsol hω0 (hs k)
  set E : ℕ → ℝ := fun k => energy n A (fun j => xs k j - xstar j) with hEdef
  have hc : 0 < 2 / ω - 1 := by
    rw [sub_pos, lt_div_iff₀ hω0]; linarith
  have hnn : ∀ k, 0 ≤ ∑ i ∈ range n, A i i * (xs (k + 1) i - xs k i) ^ 2 := fun k =>
    sum_nonneg fun i hi => mul_nonneg (hA.diag i (mem_range.1 hi)).le (sq_nonneg _)
  have hmono : Antitone E := antitone_nat_of_succ_le fun k => by
    have := hE k
    have := mul_nonneg hc.le (hnn k)
    show energy n A _ ≤ energy n A _
    linarith
  have hlim : ∃ l, Tendsto E atTop (𝓝 l) := by
    rcases tendsto_of_antitone hmono with h | h
    · exfalso
      obtain ⟨k, hk⟩ := (h.eventually (eventually_lt_atBot 0)).exists
      exact absurd hk (not_lt.2 (hA.nonneg _))
    · exact h
  obtain ⟨l, hl⟩ := hlim
  have hdiff : Tendsto (fun k => E k - E (k + 1)) atTop (𝓝 0) := by
    have := hl.sub (hl.comp (tendsto_add_atTop_nat 1))
    rwa [sub_self] at this
  have hδ : ∀ i < n, Tendsto (fun k => xs (k + 1) i - xs k i) atTop (𝓝 0) := by
    intro i hi
    have hai := hA.diag i hi
    have h1 : ∀ k, (xs (k + 1) i - xs k i) ^ 2 ≤ (E k - E (k + 1)) / ((2 / ω - 1) * A i i) := by
      intro k
      rw [le_div_iff₀ (mul_pos hc hai)]
      have h2 : A i i * (xs (k + 1) i - xs k i) ^ 2 ≤ ∑ i ∈ range n, A i i * (xs (k + 1) i - xs k i) ^ 2 :=
        single_le_sum (f := fun i => A i i * (xs (k + 1) i - xs k i) ^ 2)
          (fun i hi => mul_nonneg (hA.diag i (mem_range.1 hi)).le (sq_nonneg _)) (mem_range.2 hi)
      have h3 := mul_le_mul_of_nonneg_left h2 hc.le
      have h4 := hE k
      have : E k - E (k + 1) = (2 / ω - 1) * ∑ i ∈ range n, A i i * (xs (k + 1) i - xs k i) ^ 2 := by
        show energy n A _ - energy n A _ = _
        linarith
      rw [this]
      linarith
    have h5 : Tendsto (fun k => (xs (k + 1) i - xs k i) ^ 2) atTop (𝓝 0) := by
      refine squeeze_zero (fun k => sq_nonneg _) h1 ?_
      have := hdiff.div_const ((2 / ω - 1) * A i i)
      rwa [zero_div] at this
    have h6 := (Real.continuous_sqrt.tendsto _).comp h5
    rw [Real.sqrt_zero] at h6
    rw [tendsto_zero_iff_abs_tendsto_zero]
    refine h6.congr fun k => ?_
    show Real.sqrt ((xs (k + 1) i - xs k i) ^ 2) = |xs (k + 1) i - xs k i|
    exact Real.sqrt_sq_eq_abs _
  intro i hi
  have h1 : ∀ k, ∑ j ∈ range n, A i j * xs (k + 1) j - b i = A i i * (xs (k + 1) i - xs k i) -
      A i i * (xs (k + 1) i - xs k i) / ω + ∑ j ∈ Ico (i + 1) n, A i j * (xs (k + 1) j - xs k j) :=
    fun k => sor_residual hω0 (hs k) i hi
  refine Tendsto.congr (fun k => (h1 k).symm) ?_
  have g1 := (hδ i hi).const_mul (A i i)
  have g2 := g1.div_const ω
  have g3 : Tendsto (fun k => ∑ j ∈ Ico (i + 1) n, A i j * (xs (k + 1) j - xs k j)) atTop
      (𝓝 (∑ j ∈ Ico (i + 1) n, A i j * 0)) := tendsto_finsetSum _ fun j hj => (hδ j (mem_Ico.1 hj).2).const_mul (A i j)
  have := (g1.sub g2).add g3
  simpa using this

/-- If the residuals go to zero the solver converges. -/
theorem Run.conv {n : ℕ} {A : ℕ → ℕ → ℝ} {b : ℕ → ℝ} {tol : ℝ} (htol : 0 < tol) {xs : ℕ → ℕ → ℝ}
    (h : Tendsto (fun k => relResidual n A b (xs (k + 1))) atTop (𝓝 0)) :
    ∃ K : ℕ, ∀ maxIter ≥ K, ∀ r, Run n A b tol maxIter xs r → r.converged = true := by
  obtain ⟨K, hK⟩ := (h.eventually (gt_mem_nhds htol)).exists
  refine ⟨K + 1, fun maxIter hm r hr => ?_⟩
  by_contra hne
  have := (hr.no (by simpa using hne)).2.2.2 (K + 1) (by omega) hm
  exact absurd hK (not_lt.2 this)

end Verif.LinAlg.Iter
