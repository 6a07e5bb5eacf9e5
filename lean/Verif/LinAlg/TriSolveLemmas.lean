import Verif.LinAlg.TriSolve
import Verif.LinAlg.GJLemmas
import Verif.Mat.PackedProps

/-! # Helper lemmas for the tridiagonal solver -/

set_option autoImplicit false

namespace Verif.LinAlg.Tri

open Verif.Mat

variable {K : Type} [Field K] [LinearOrder K] [IsStrictOrderedRing K]

/-- `T` is the larger of `eps` and `eps` times the largest diagonal element. -/
theorem tolerance_spec (eps : K) (heps : 0 < eps) (n : ℕ) (d : ℕ → K) :
    ∃ T, tolerance eps n (tab n d) = .ret T ∧ eps ≤ T ∧
      ∀ M, 1 ≤ M → (∀ i < n, |d i| ≤ M) → T ≤ M * eps := by
  obtain ⟨t, ht, h0, h1⟩ := forRange_rule
    (fun k (s : K) => 0 ≤ s ∧ ∀ M, 0 ≤ M → (∀ i < n, |d i| ≤ M) → s ≤ M) n (0 : K)
    (fun mx i => do
      let d ← Outcome.index (tab n d) i
      .ret (if |d| > mx then |d| else mx))
    ⟨le_rfl, fun M hM _ => hM⟩
    (by
      rintro k s hk ⟨h0, h1⟩
      refine ⟨_, by rw [index_tab _ hk, Outcome.bind_ret], ?_, fun M hM hd => ?_⟩
      · split
        · exact abs_nonneg _
        · exact h0
      · split
        · exact hd k hk
        · exact h1 M hM hd)
  refine ⟨_, by rw [tolerance, ht, Outcome.bind_ret], ?_, fun M hM hd => ?_⟩
  · split
    · exact le_rfl
    · exact not_lt.1 (by assumption)
  · split
    · exact le_mul_of_one_le_left heps.le hM
    · exact mul_le_mul_of_nonneg_right (h1 M (zero_le_one.trans hM) hd) heps.le

/-- The pivots that the elimination meets. -/
def pivot (b d a : ℕ → K) : ℕ → K
  | 0 => d 0
  | j + 1 => d (j + 1) - b (j + 1) * (a j / pivot b d a j)

theorem back_spec {n N : ℕ} (hn : n ≤ N) (g y : ℕ → K) :
    ∃ x : ℕ → K, forDown 0 (n - 1) (tab N y) (backStep (tab n g)) = .ret (tab N x) ∧
      (∀ j, n ≤ j + 1 → x j = y j) ∧ ∀ j, j + 1 < n → x j = y j - g (j + 1) * x (j + 1) := by
  obtain ⟨t, ht, x, rfl, h1, h2⟩ := forDown_rule
    (fun i (v : List K) => ∃ x : ℕ → K, v = tab N x ∧ (∀ j, (j < i ∨ n ≤ j + 1) → x j = y j) ∧
      ∀ j, i ≤ j → j + 1 < n → x j = y j - g (j + 1) * x (j + 1))
    0 (n - 1) (by omega) (tab N y) (backStep (tab n g))
    ⟨y, rfl, fun _ _ => rfl, fun j h1 h2 => by omega⟩
    (by
      rintro i _ _ hi ⟨x, rfl, h1, h2⟩
      refine ⟨_, by
        rw [backStep, index_tab _ (by omega), Outcome.bind_ret, index_tab _ (by omega), Outcome.bind_ret,
          index_tab _ (by omega), Outcome.bind_ret, store_tab _ (by omega)], _, rfl, fun j hj => ?_, fun j h3 h4 => ?_⟩
      · rw [if_neg (by omega)]; exact h1 j (by omega)
      · by_cases hji : j = i
        · subst hji
          rw [if_pos rfl, if_neg (by omega), h1 j (by omega)]
        · rw [if_neg hji, if_neg (by omega)]; exact h2 j (by omega) h4)
  exact ⟨x, ht, fun j hj => h1 j (Or.inr hj), fun j hj => h2 j (by omega) hj⟩

/-- The sum over one row of a tridiagonal matrix. -/
theorem row_sum {n i : ℕ} (b d a x : ℕ → K) (hi : i < n) :
    ∑ j ∈ Finset.range n, Tri.entry b d a i j * x j =
      (if 0 < i then b i * x (i - 1) else 0) + d i * x i + if i + 1 < n then a i * x (i + 1) else 0 := by
  have h1 : ∑ j ∈ Finset.range n, Tri.entry b d a i j * x j =
      ∑ j ∈ Finset.range n, ((if j + 1 = i then b i * x (i - 1) else 0) + (if j = i then d i * x i else 0) +
        if j = i + 1 then a i * x (i + 1) else 0) := by
    refine Finset.sum_congr rfl fun j _ => ?_
    rw [Tri.entry]
    by_cases e1 : i = j
    · subst e1; simp
    · by_cases e2 : i + 1 = j
      · subst e2; simp; intro h; omega
      · by_cases e3 : i = j + 1
        · subst e3; simp [e2, show ¬ j = j + 1 + 1 by omega]
        · rw [if_neg e1, if_neg e2, if_neg e3, if_neg (by omega), if_neg (by omega), if_neg (by omega)]; simp
  rw [h1, Finset.sum_add_distrib, Finset.sum_add_distrib]
  congr 1
  · congr 1
    · cases i with
      | zero => simp
      | succ i =>
        rw [if_pos (by omega)]
        simp only [Nat.add_right_cancel_iff]
        rw [Finset.sum_ite_eq' , if_pos (Finset.mem_range.2 (by omega))]
    · rw [Finset.sum_ite_eq', if_pos (Finset.mem_range.2 hi)]
  · rw [Finset.sum_ite_eq']
    simp

/-- Forward and backward substitution together solve the system. -/
theorem rows_solved {n : ℕ} (b d a r y g x : ℕ → K) (h2 : ∀ j < n, pivot b d a j ≠ 0)
    (h3 : ∀ j, j + 1 < n → g (j + 1) = a j / pivot b d a j)
    (h4 : ∀ j < n, y j * pivot b d a j = r j - if 0 < j then b j * y (j - 1) else 0)
    (h5 : ∀ j, n ≤ j + 1 → x j = y j) (h6 : ∀ j, j + 1 < n → x j = y j - g (j + 1) * x (j + 1)) {i : ℕ} (hi : i < n) :
    ∑ j ∈ Finset.range n, Tri.entry b d a i j * x j = r i := by
  rw [row_sum b d a x hi]
  -- the two diagonals on the right
  have hright : pivot b d a i * x i + (if i + 1 < n then a i * x (i + 1) else 0) = y i * pivot b d a i := by
    by_cases hin : i + 1 < n
    · rw [if_pos hin, h6 i hin, h3 i hin]
      have := h2 i hi
      field_simp
      ring
    · rw [if_neg hin, h5 i (by omega)]; ring
  have hleft : (if 0 < i then b i * x (i - 1) else 0) + d i * x i =
      pivot b d a i * x i + if 0 < i then b i * y (i - 1) else 0 := by
    cases i with
    | zero => simp [pivot]
    | succ i =>
      simp only [Nat.add_sub_cancel, if_pos (Nat.succ_pos i)]
      rw [h6 i hi, h3 i hi, pivot]
      ring
  rw [hleft, add_right_comm, hright, h4 i hi]
  ring

/-- The result of the forward substitution. -/
def forwardVal (b d a r : ℕ → K) : ℕ → K
  | 0 => r 0 / pivot b d a 0
  | j + 1 => (r (j + 1) - b (j + 1) * forwardVal b d a r j) / pivot b d a (j + 1)

theorem exists_solution {n : ℕ} (b d a r : ℕ → K) (h2 : ∀ j < n, pivot b d a j ≠ 0) :
    ∃ x : ℕ → K, ∀ i < n, ∑ j ∈ Finset.range n, Tri.entry b d a i j * x j = r i := by
  obtain ⟨x, _, h5, h6⟩ := back_spec (n := n) le_rfl (fun j => a (j - 1) / pivot b d a (j - 1)) (forwardVal b d a r)
  refine ⟨x, fun i hi => rows_solved b d a r _ (fun j => a (j - 1) / pivot b d a (j - 1)) x h2 (fun j _ => rfl) (fun j hj => ?_) h5 h6 hi⟩
  cases j with
  | zero => rw [forwardVal, div_mul_cancel₀ _ (h2 0 hj), if_neg (lt_irrefl _), sub_zero]
  | succ j => rw [forwardVal, div_mul_cancel₀ _ (h2 _ hj), if_pos (Nat.succ_pos j), Nat.add_sub_cancel]

/-- What `Solve(rhs, sol)` does, for vectors with at least `n` elements: it solves the system, leaving any further
elements of `sol` alone, or meets a small pivot. -/
theorem solveInto_sat (eps : K) (heps : 0 < eps) {n N M : ℕ} (hn : 0 < n) (hN : n ≤ N) (hM : n ≤ M) (b d a r z : ℕ → K)
    (E : Exn → Prop)
    (hE : (∃ j < n, (∀ i < j, pivot b d a i ≠ 0) ∧ ∃ T, (∀ S, 1 ≤ S → (∀ i < n, |d i| ≤ S) → T ≤ S * eps) ∧
      |pivot b d a j| < T) → E (.mml "SingularMatrixError")) :
    (solveInto eps ⟨n, tab n b, tab n d, tab n a⟩ (tab N r) (tab M z)).Sat
      (fun v => ∃ x : ℕ → K, v = tab M x ∧ (∀ j, n ≤ j → x j = z j) ∧ (∀ j < n, pivot b d a j ≠ 0) ∧
        ∀ i < n, ∑ j ∈ Finset.range n, Tri.entry b d a i j * x j = r i) E := by
  obtain ⟨T, hT, hT1, hT2⟩ := tolerance_spec eps heps n d
  have hTpos : 0 < T := heps.trans_le hT1
  have small : ∀ x : K, ¬ |x| < T → x ≠ 0 := by
    rintro x hx rfl
    exact hx (by rwa [abs_zero])
  rw [solveInto]
  simp only [length_tab]
  rw [hT, Outcome.bind_ret, index_tab _ hn, Outcome.bind_ret]
  by_cases h0 : |d 0| < T
  · rw [if_pos h0]
    exact hE ⟨0, hn, fun i hi => by omega, T, hT2, h0⟩
  rw [if_neg h0, index_tab _ (by omega), Outcome.bind_ret, divU, if_neg (small _ h0), Outcome.bind_ret,
    store_tab _ (by omega), Outcome.bind_ret, replicate_eq_tab]
  refine Outcome.Sat.bind (Q := fun s => ∃ y g : ℕ → K, s.sol = tab M y ∧ s.gam = tab n g ∧
    (∀ j, n ≤ j → y j = z j) ∧ (∀ j < n, pivot b d a j ≠ 0) ∧ (∀ j, j + 1 < n → g (j + 1) = a j / pivot b d a j) ∧
    ∀ j < n, y j * pivot b d a j = r j - if 0 < j then b j * y (j - 1) else 0) ?_ ?_
  · refine Outcome.Sat.imp (forFromTo_sat (fun k (s : State K) => ∃ y g : ℕ → K, s.sol = tab M y ∧ s.gam = tab n g ∧
      s.bet = pivot b d a (k - 1) ∧
      (∀ j, n ≤ j → y j = z j) ∧ (∀ j < k, pivot b d a j ≠ 0) ∧ (∀ j, j + 1 < k → g (j + 1) = a j / pivot b d a j) ∧
      ∀ j < k, y j * pivot b d a j = r j - if 0 < j then b j * y (j - 1) else 0) E 1 n hn _ _ ?_ ?_) ?_
    · refine ⟨_, _, rfl, rfl, rfl, fun j hj => by rw [if_neg (by omega)], fun j hj => ?_, fun j hj => by omega,
        fun j hj => ?_⟩
      · obtain rfl : j = 0 := by omega
        exact small _ h0
      · obtain rfl : j = 0 := by omega
        rw [if_pos rfl, if_neg (lt_irrefl _), sub_zero, pivot, div_mul_cancel₀ _ (small _ h0)]
    · rintro k ⟨sol, gam, bet⟩ hk1 hkn ⟨y, g, hy, hg, hbet, h1, h2, h3, h4⟩
      simp only at hy hg hbet
      subst hy hg hbet
      obtain ⟨k, rfl⟩ : ∃ k', k = k' + 1 := ⟨k - 1, by omega⟩
      simp only [Nat.add_sub_cancel]
      have hp := h2 k (by omega)
      rw [forwardStep]
      simp only [Nat.add_sub_cancel]
      rw [index_tab _ (by omega), Outcome.bind_ret, divU, if_neg hp, Outcome.bind_ret, store_tab _ hkn, Outcome.bind_ret,
        index_tab _ hkn, Outcome.bind_ret, index_tab _ hkn, Outcome.bind_ret]
      have hpiv : d (k + 1) - b (k + 1) * (a k / pivot b d a k) = pivot b d a (k + 1) := rfl
      rw [hpiv]
      by_cases hs : |pivot b d a (k + 1)| < T
      · rw [if_pos hs]
        exact hE ⟨k + 1, hkn, h2, T, hT2, hs⟩
      · rw [if_neg hs, index_tab _ (by omega), Outcome.bind_ret, index_tab _ (by omega), Outcome.bind_ret, divU,
          if_neg (small _ hs), Outcome.bind_ret, store_tab _ (by omega), Outcome.bind_ret]
        refine ⟨_, _, rfl, rfl, rfl, fun j hj => ?_, fun j hj => ?_, fun j hj => ?_, fun j hj => ?_⟩
        · rw [if_neg (by omega)]; exact h1 j hj
        · rcases Nat.lt_succ_iff_lt_or_eq.1 hj with h | h
          · exact h2 j h
          · rw [h]; exact small _ hs
        · by_cases hjk : j = k
          · subst hjk; simp
          · rw [if_neg (by omega)]; exact h3 j (by omega)
        · by_cases hjk : j = k + 1
          · subst hjk
            simp only [Nat.add_sub_cancel, if_true]
            rw [if_pos (by omega), if_neg (by omega), div_mul_cancel₀ _ (small _ hs)]
          · rw [if_neg hjk, if_neg (show ¬ j - 1 = k + 1 by omega)]; exact h4 j (by omega)
    · rintro ⟨sol, gam, bet⟩ ⟨y, g, h⟩
      exact ⟨y, g, h.1, h.2.1, h.2.2.2.1, h.2.2.2.2.1, h.2.2.2.2.2⟩
  · rintro ⟨sol, gam, bet⟩ ⟨y, g, hy, hg, h1, h2, h3, h4⟩
    simp only at hy hg
    subst hy hg
    obtain ⟨x, hx, h5, h6⟩ := back_spec hM g y
    refine Outcome.Sat.of_eq hx ⟨x, rfl, fun j hj => by rw [h5 j (by omega), h1 j hj], h2, fun i hi => ?_⟩
    exact rows_solved b d a r y g x h2 h3 h4 h5 h6 hi

end Verif.LinAlg.Tri
