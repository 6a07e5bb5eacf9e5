import Verif.Poly.Arith

/-! # Helper lemmas: polynomial division -/

set_option autoImplicit false

namespace Verif.Poly

open Polynomial

variable {K : Type} [Field K] [DecidableEq K]

/-- The scan returns the highest nonzero index below the start. -/
theorem topNonzero_tab (n : ℕ) (f : ℕ → K) (k : ℕ) (hk : k ≤ n) :
    (topNonzero (tab n f) k = .ret none ∧ ∀ i < k, f i = 0) ∨
    ∃ d < k, topNonzero (tab n f) k = .ret (some d) ∧ f d ≠ 0 ∧ ∀ i, d < i → i < k → f i = 0 := by
  induction k with
  | zero => exact .inl ⟨rfl, by simp⟩
  | succ k ih =>
    rw [topNonzero, index_tab f (by omega), Outcome.bind_ret]
    by_cases h : f k = 0
    · rw [if_pos h]
      rcases ih (by omega) with ⟨h1, h2⟩ | ⟨d, hd, h1, h2, h3⟩
      · refine .inl ⟨h1, fun i hi => ?_⟩
        rcases Nat.lt_succ_iff_lt_or_eq.1 hi with h' | rfl
        · exact h2 i h'
        · exact h
      · refine .inr ⟨d, by omega, h1, h2, fun i hi hik => ?_⟩
        rcases Nat.lt_succ_iff_lt_or_eq.1 hik with h' | rfl
        · exact h3 i hi h'
        · exact h
    · rw [if_neg h]
      exact .inr ⟨k, by omega, rfl, h, fun i _ _ => by omega⟩

/-- The inner loop of the division. -/
theorem divInner (N nv k : ℕ) (hk : nv + k ≤ N) (M : ℕ) (hM : nv ≤ M) (L : ℕ) (hL : k < L) (q r v : ℕ → K) :
    forDown k (nv + k) (tab N r) (fun r j => do
      let qk ← Outcome.index (tab L q) k
      let c ← Outcome.index (tab M v) (j - k)
      addAt r j (-(qk * c))) =
    .ret (tab N (fun i => if k ≤ i ∧ i < nv + k then r i - q k * v (i - k) else r i)) := by
  obtain ⟨t, ht, rfl⟩ := forDown_rule
    (fun j (w : List K) => w = tab N (fun i => if j ≤ i ∧ i < nv + k then r i - q k * v (i - k) else r i))
    k (nv + k) (by omega) (tab N r)
    (fun r j => do
      let qk ← Outcome.index (tab L q) k
      let c ← Outcome.index (tab M v) (j - k)
      addAt r j (-(qk * c)))
    (tab_congr fun i _ => by rw [if_neg (by omega)])
    (by
      rintro j _ h1 h2 rfl
      refine ⟨_, by rw [index_tab q hL, Outcome.bind_ret, index_tab v (by omega), Outcome.bind_ret,
        addAt_tab _ (by omega)], ?_⟩
      refine tab_congr fun i _ => ?_
      by_cases hij : i = j
      · subst hij
        rw [if_pos rfl, if_neg (by omega), if_pos (by omega)]; ring
      · rw [if_neg hij]
        by_cases h3 : j + 1 ≤ i ∧ i < nv + k
        · rw [if_pos h3, if_pos (by omega)]
        · rw [if_neg h3, if_neg (by omega)])
  exact ht

theorem pl_shift_sub (nv k : ℕ) (r v : ℕ → K) (c : K) :
    pl (nv + k) (fun i => if k ≤ i ∧ i < nv + k then r i - c * v (i - k) else r i) =
      pl (nv + k) r - C c * X ^ k * pl nv v := by
  ext i
  rw [coeff_sub, pl_coeff, pl_coeff, mul_assoc, coeff_C_mul, coeff_X_pow_mul', pl_coeff]
  by_cases h1 : i < nv + k
  · rw [if_pos h1, if_pos h1]
    by_cases h2 : k ≤ i
    · rw [if_pos ⟨h2, h1⟩, if_pos h2, if_pos (by omega)]
    · rw [if_neg (by omega), if_neg h2, mul_zero, sub_zero]
  · rw [if_neg h1, if_neg h1]
    by_cases h2 : k ≤ i
    · rw [if_pos h2, if_neg (by omega), mul_zero, sub_zero]
    · omega

/-- The division loop keeps `u = q v + r`. -/
theorem divLoop (N M nv : ℕ) (hv : nv < M) (u v : ℕ → K) (hlead : v nv ≠ 0) :
    ∃ q r, forDown 0 (N - nv) (List.replicate N (0 : K), tab N u) (divBody (tab M v) nv) =
      .ret (tab N q, tab N r) ∧ pl N u = pl N q * pl (nv + 1) v + pl (min nv N) r := by
  obtain ⟨t, ht, q, r, rfl, -, hI⟩ := forDown_rule
    (fun k (s : List K × List K) => ∃ q r, s = (tab N q, tab N r) ∧ (∀ i < k, q i = 0) ∧
      pl N u = pl N q * pl (nv + 1) v + pl (min (nv + k) N) r)
    0 (N - nv) (Nat.zero_le _) (List.replicate N (0 : K), tab N u) (divBody (tab M v) nv)
    ⟨fun _ => 0, u, by rw [replicate_eq_tab], fun _ _ => rfl, by
      have : pl N (fun _ => (0 : K)) = 0 := by unfold pl; simp
      rw [this, zero_mul, zero_add, show min (nv + (N - nv)) N = N by omega]⟩
    (by
      rintro k _ _ hk ⟨q, r, rfl, hq, hI⟩
      have hkN : nv + k < N := by omega
      have e1 : min (nv + (k + 1)) N = nv + k + 1 := by omega
      have e2 : min (nv + k) N = nv + k := by omega
      rw [e1] at hI
      refine ⟨_, by
        simp only [divBody, index_tab r hkN, Outcome.bind_ret, index_tab v hv,
          store_tab q (show k < N by omega)]
        rw [divInner N nv k (by omega) M (by omega) N (by omega), Outcome.bind_ret], _, _, rfl, ?_, ?_⟩
      · intro i hi
        rw [if_neg (by omega), hq i (by omega)]
      · rw [e2, pl_shift_sub, hI]
        have hq' : pl N (fun i => if i = k then r (nv + k) / v nv else q i) = pl N q + C (r (nv + k) / v nv) * X ^ k := by
          rw [← pl_update N q k (by omega)]
          refine pl_congr fun i _ => ?_
          by_cases h : i = k
          · subst h; simp [hq i (by omega)]
          · simp [h]
        simp only [if_pos]
        rw [hq', pl_succ, pl_succ]
        have hC : C (r (nv + k) / v nv) * C (v nv) = C (r (nv + k)) := by
          rw [← C_mul, div_mul_cancel₀ _ hlead]
        rw [pow_add]
        linear_combination (-(X ^ nv * X ^ k)) * hC)
  exact ⟨q, r, ht, by simpa using hI⟩

theorem copyLoop (n N : ℕ) (h : n ≤ N) (f : ℕ → K) :
    forRange n (List.replicate n (0 : K)) (fun o j => do
      let c ← Outcome.index (tab N f) j
      Outcome.store o j c) = .ret (tab n f) := by
  rw [replicate_eq_tab, forRange_fill n n le_rfl _ f]
  · congr 1
    exact tab_congr fun i hi => if_pos hi
  · intro i hi r
    rw [index_tab f (by omega), Outcome.bind_ret]

theorem copyLoop_short (n N : ℕ) (h : N < n) (f : ℕ → K) :
    forRange n (List.replicate n (0 : K)) (fun o j => do
      let c ← Outcome.index (tab N f) j
      Outcome.store o j c) = .ub := by
  have key : ∀ m, m ≤ N → forRange m (List.replicate n (0 : K)) (fun o j => do
      let c ← Outcome.index (tab N f) j
      Outcome.store o j c) = .ret (tab n (fun k => if k < m then f k else 0)) := by
    intro m hm
    rw [replicate_eq_tab, forRange_fill m n (by omega) _ f]
    intro i hi r
    rw [index_tab f (by omega), Outcome.bind_ret]
  obtain ⟨d, rfl⟩ : ∃ d, n = N + 1 + d := ⟨n - (N + 1), by omega⟩
  generalize hw : List.replicate (N + 1 + d) (0 : K) = w at key ⊢
  clear hw
  have gen : ∀ d, forRange (N + 1 + d) w (fun o j => do
      let c ← Outcome.index (tab N f) j
      Outcome.store o j c) = .ub := by
    intro d
    induction d with
    | zero =>
      rw [add_zero, forRange, key N le_rfl, Outcome.bind_ret]
      have : Outcome.index (tab N f) N = .ub := by
        simp only [Outcome.index, getElem?_tab, lt_irrefl, if_false]
      rw [this, Outcome.bind_ub]
    | succ d ih => rw [← add_assoc, forRange, ih, Outcome.bind_ub]
  exact gen d

end Verif.Poly
