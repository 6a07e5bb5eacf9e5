import Verif.Poly.Arith
import Mathlib.Algebra.Polynomial.Taylor
import Mathlib.Algebra.Polynomial.Div
import Mathlib.Algebra.Polynomial.BigOperators

/-! # Helper lemmas: derivatives at a point and interpolation -/

set_option autoImplicit false

namespace Verif.Poly

open Polynomial

variable {K : Type} [Field K] [DecidableEq K]

/-! ## `Derive` -/

/-- The quotient polynomial after Horner has consumed the coefficients above `i`. -/
noncomputable def hq (nc : ℕ) (f : ℕ → K) (i : ℕ) : K[X] := pl (nc + 1 - i) (fun k => f (i + k))

theorem hq_step (nc : ℕ) (f : ℕ → K) (i : ℕ) (hi : i < nc) : hq nc f i = X * hq nc f (i + 1) + C (f i) := by
  unfold hq pl
  rw [show nc + 1 - i = (nc + 1 - (i + 1)) + 1 by omega, Finset.sum_range_succ', Finset.mul_sum]
  simp only [pow_zero, mul_one, add_zero]
  congr 1
  refine Finset.sum_congr rfl fun k _ => ?_
  rw [show i + 1 + k = i + (k + 1) by ring, pow_succ]; ring

theorem taylor_step (x c : K) (p : K[X]) (j : ℕ) :
    (taylor x (X * p + C c)).coeff j =
      (if j = 0 then (taylor x p).coeff 0 * x + c else (taylor x p).coeff j * x + (taylor x p).coeff (j - 1)) := by
  rw [map_add, taylor_mul, taylor_X, taylor_C, add_mul, coeff_add, coeff_add, coeff_C_mul]
  cases j with
  | zero => simp [mul_comm]
  | succ j => simp [coeff_X_mul, coeff_C, mul_comm, add_comm]

theorem taylor_coeff_high (x : K) (n : ℕ) (f : ℕ → K) (j : ℕ) (hj : n ≤ j) : (taylor x (pl n f)).coeff j = 0 := by
  apply coeff_eq_zero_of_degree_lt
  rw [degree_taylor]
  exact lt_of_lt_of_le (pl_degree_lt n f) (by exact_mod_cast hj)

/-- The inner loop of `Derive`. -/
theorem deriveInner (m nnd : ℕ) (h : nnd < m) (g : ℕ → K) (x : K) :
    forDown 1 (nnd + 1) (tab m g) (fun pd j => do
        let a ← Outcome.index pd j
        let b ← Outcome.index pd (j - 1)
        Outcome.store pd j (a * x + b)) =
      .ret (tab m (fun j => if 1 ≤ j ∧ j ≤ nnd then g j * x + g (j - 1) else g j)) := by
  obtain ⟨t, ht, rfl⟩ := forDown_rule
    (fun j (w : List K) => w = tab m (fun k => if j ≤ k ∧ k ≤ nnd then g k * x + g (k - 1) else g k))
    1 (nnd + 1) (by omega) (tab m g)
    (fun pd j => do
        let a ← Outcome.index pd j
        let b ← Outcome.index pd (j - 1)
        Outcome.store pd j (a * x + b))
    (tab_congr fun k _ => by rw [if_neg (by omega)])
    (by
      rintro j _ h1 h2 rfl
      refine ⟨_, by rw [index_tab _ (show j < m by omega), Outcome.bind_ret, index_tab _ (show j - 1 < m by omega),
        Outcome.bind_ret, store_tab _ (by omega)], ?_⟩
      refine tab_congr fun k _ => ?_
      by_cases hk : k = j
      · subst hk
        rw [if_pos rfl, if_neg (by omega), if_neg (by omega), if_pos (by omega)]
      · rw [if_neg hk]
        by_cases h3 : j + 1 ≤ k ∧ k ≤ nnd
        · rw [if_pos h3, if_pos (by omega)]
        · rw [if_neg h3, if_neg (by omega)])
  exact ht

/-- One coefficient of `Derive`. -/
theorem deriveStep (m nc i : ℕ) (hm : 0 < m) (hi : i < nc) (f : ℕ → K) (x : K) :
    (do
      let nnd := if m - 1 < nc - i then m - 1 else nc - i
      let pd ← forDown 1 (nnd + 1) (tab m (fun j => (taylor x (hq nc f (i + 1))).coeff j)) (fun pd j => do
        let a ← Outcome.index pd j
        let b ← Outcome.index pd (j - 1)
        Outcome.store pd j (a * x + b))
      let a ← Outcome.index pd 0
      let c ← Outcome.index (tab (nc + 1) f) i
      Outcome.store pd 0 (a * x + c)) =
    .ret (tab m (fun j => (taylor x (hq nc f i)).coeff j)) := by
  have hnnd : (if m - 1 < nc - i then m - 1 else nc - i) < m := by split <;> omega
  simp only
  rw [deriveInner m _ hnnd, Outcome.bind_ret, index_tab _ hm, Outcome.bind_ret, index_tab f (by omega),
    Outcome.bind_ret, store_tab _ hm]
  congr 1
  refine tab_congr fun j hj => ?_
  rw [hq_step nc f i hi, taylor_step]
  by_cases h0 : j = 0
  · subst h0; simp
  · rw [if_neg h0, if_neg h0]
    by_cases h1 : 1 ≤ j ∧ j ≤ (if m - 1 < nc - i then m - 1 else nc - i)
    · rw [if_pos h1]
    · rw [if_neg h1]
      have hgt : nc - i < j := by
        by_contra hcon
        apply h1
        refine ⟨by omega, ?_⟩
        split <;> omega
      have e1 : (taylor x (hq nc f (i + 1))).coeff j = 0 := taylor_coeff_high _ _ _ _ (by omega)
      have e2 : (taylor x (hq nc f (i + 1))).coeff (j - 1) = 0 := taylor_coeff_high _ _ _ _ (by omega)
      rw [e1, e2]; ring

theorem derive_tab (nc m : ℕ) (hm : 0 < m) (f : ℕ → K) (x : K) (g : ℕ → K) :
    derive (tab (nc + 1) f) x (tab m g) =
      .ret (tab m (fun j => (taylor x (pl (nc + 1) f)).coeff j * (j.factorial : K))) := by
  have he : (tab (nc + 1) f).isEmpty = false := by
    rw [List.isEmpty_eq_false_iff]; intro h
    have := congrArg List.length h
    simp at this
  simp only [derive, he, length_tab, Nat.add_sub_cancel, index_tab f (Nat.lt_succ_self nc), Outcome.bind_ret,
    store_tab g hm, Bool.false_eq_true, if_false]
  rw [show m - 1 + 1 = m by omega]
  rw [forFromTo_fill 1 m m le_rfl _ (fun _ => 0) _ (fun i _ _ r => rfl), Outcome.bind_ret]
  obtain ⟨t, ht, rfl⟩ := forDown_rule
    (fun i (w : List K) => w = tab m (fun j => (taylor x (hq nc f i)).coeff j)) 0 nc (Nat.zero_le _)
    (tab m (fun k => if 1 ≤ k ∧ k < m then 0 else if k = 0 then f nc else g k))
    (fun pd i => do
      let nnd := if m - 1 < nc - i then m - 1 else nc - i
      let pd ← forDown 1 (nnd + 1) pd (fun pd j => do
        let a ← Outcome.index pd j
        let b ← Outcome.index pd (j - 1)
        Outcome.store pd j (a * x + b))
      let a ← Outcome.index pd 0
      let c ← Outcome.index (tab (nc + 1) f) i
      Outcome.store pd 0 (a * x + c))
    (by
      refine tab_congr fun k hk => ?_
      have : hq nc f nc = C (f nc) := by
        unfold hq pl
        rw [show nc + 1 - nc = 1 by omega]; simp
      rw [this, taylor_C, coeff_C]
      by_cases h0 : k = 0
      · subst h0; simp
      · rw [if_pos (by omega), if_neg h0])
    (by
      rintro i _ _ hi rfl
      exact ⟨_, deriveStep m nc i hm hi f x, rfl⟩)
  rw [ht, Outcome.bind_ret]
  have e0 : hq nc f 0 = pl (nc + 1) f := by
    unfold hq; rw [Nat.sub_zero]; exact pl_congr fun i _ => by rw [zero_add]
  rw [e0]
  rcases Nat.lt_or_ge m 2 with hm2 | hm2
  · have : m = 1 := by omega
    subst this
    have hz : forFromTo 2 1 ((1 : K), tab 1 fun j => (taylor x (pl (nc + 1) f)).coeff j) (fun s i => do
        let cnst := s.1 * (i : K)
        let a ← Outcome.index s.2 i
        let pd ← Outcome.store s.2 i (a * cnst)
        .ret (cnst, pd)) = .ret ((1 : K), tab 1 fun j => (taylor x (pl (nc + 1) f)).coeff j) := rfl
    rw [hz, Outcome.bind_ret]
    congr 1
    refine tab_congr fun k hk => ?_
    have : k = 0 := by omega
    subst this
    simp
  obtain ⟨t, ht, -, h2⟩ := forFromTo_rule
    (fun i (s : K × List K) => s.1 = ((i - 1).factorial : K) ∧ s.2 = tab m (fun j => if j < i then
      (taylor x (pl (nc + 1) f)).coeff j * (j.factorial : K) else (taylor x (pl (nc + 1) f)).coeff j))
    2 m hm2 ((1 : K), tab m (fun j => (taylor x (pl (nc + 1) f)).coeff j))
    (fun s i => do
      let cnst := s.1 * (i : K)
      let a ← Outcome.index s.2 i
      let pd ← Outcome.store s.2 i (a * cnst)
      .ret (cnst, pd))
    ⟨by simp, tab_congr fun j hj => by
      by_cases h : j < 2
      · rw [if_pos h]
        have : j.factorial = 1 := by
          have : j = 0 ∨ j = 1 := by omega
          rcases this with rfl | rfl <;> rfl
        rw [this]; simp
      · rw [if_neg h]⟩
    (by
      rintro i ⟨c, w⟩ h1 h2 ⟨hc, hw⟩
      simp only at hc hw
      subst hc hw
      have hfac : ((i - 1).factorial : K) * (i : K) = (i.factorial : K) := by
        obtain ⟨d, rfl⟩ : ∃ d, i = d + 1 := ⟨i - 1, by omega⟩
        rw [Nat.add_sub_cancel, Nat.factorial_succ]; push_cast; ring
      refine ⟨_, by simp only [index_tab _ h2, Outcome.bind_ret, store_tab _ h2]; rfl, ?_, ?_⟩
      · simp only [Nat.add_sub_cancel]; exact hfac
      · refine tab_congr fun j hj => ?_
        by_cases h : j = i
        · subst h
          rw [if_pos rfl, if_neg (lt_irrefl _), if_pos (by omega), hfac]
        · rw [if_neg h]
          by_cases h' : j < i
          · rw [if_pos h', if_pos (by omega)]
          · rw [if_neg h', if_neg (by omega)])
  rw [ht, Outcome.bind_ret, h2]
  congr 1
  refine tab_congr fun j hj => if_pos hj

/-! ## `FromValues` -/

/-- The product of the `X - x i` for `i < k`. -/
noncomputable def prodX (x : ℕ → K) (k : ℕ) : K[X] := ∏ i ∈ Finset.range k, (X - C (x i))

theorem prodX_natDegree (x : ℕ → K) (k : ℕ) : (prodX x k).natDegree = k := by
  unfold prodX
  rw [natDegree_prod_of_monic _ _ (fun i _ => monic_X_sub_C _)]
  simp

theorem prodX_monic (x : ℕ → K) (k : ℕ) : (prodX x k).Monic := monic_prod_of_monic _ _ fun i _ => monic_X_sub_C _

theorem prodX_coeff_top (x : ℕ → K) (k : ℕ) : (prodX x k).coeff k = 1 := by
  have := (prodX_monic x k).coeff_natDegree
  rwa [prodX_natDegree] at this

theorem prodX_coeff_high (x : ℕ → K) (k t : ℕ) (h : k < t) : (prodX x k).coeff t = 0 :=
  coeff_eq_zero_of_natDegree_lt (by rw [prodX_natDegree]; exact h)

theorem prodX_succ_coeff (x : ℕ → K) (k t : ℕ) :
    (prodX x (k + 1)).coeff t = (if t = 0 then 0 else (prodX x k).coeff (t - 1)) - x k * (prodX x k).coeff t := by
  have : prodX x (k + 1) = X * prodX x k - C (x k) * prodX x k := by
    unfold prodX; rw [Finset.prod_range_succ]; ring
  rw [this, coeff_sub, coeff_C_mul]
  cases t with
  | zero => simp
  | succ t => simp [coeff_X_mul]

theorem masterPoly_tab (n : ℕ) (hn : 0 < n) (x : ℕ → K) :
    masterPoly (tab n x) = .ret (tab n (fun k => (prodX x n).coeff k)) := by
  simp only [masterPoly, length_tab, index_tab x hn, Outcome.bind_ret, replicate_eq_tab,
    store_tab _ (show n - 1 < n by omega)]
  obtain ⟨t, ht, rfl⟩ := forFromTo_rule
    (fun i (w : List K) => w = tab n (fun j => if n - i ≤ j then (prodX x i).coeff (j - (n - i)) else 0))
    1 n (by omega) (tab n (fun k => if k = n - 1 then -x 0 else 0))
    (fun s i => do
      let xi ← Outcome.index (tab n x) i
      let s ← forFromTo (n - 1 - i) (n - 1) s (fun s j => do
        let c ← Outcome.index s (j + 1)
        addAt s j (-(xi * c)))
      addAt s (n - 1) (-xi))
    (tab_congr fun k hk => by
      by_cases h : k = n - 1
      · subst h; simp [prodX]
      · rw [if_neg h, if_neg (by omega)])
    (by
      rintro i _ h1 h2 rfl
      set g : ℕ → K := fun j => if n - i ≤ j then (prodX x i).coeff (j - (n - i)) else 0 with hg
      have hin : forFromTo (n - 1 - i) (n - 1) (tab n g) (fun s j => do
          let c ← Outcome.index s (j + 1)
          addAt s j (-(x i * c))) =
          .ret (tab n (fun k => if n - 1 - i ≤ k ∧ k < n - 1 then g k - x i * g (k + 1) else g k)) := by
        obtain ⟨t, ht, rfl⟩ := forFromTo_rule
          (fun j (w : List K) => w = tab n (fun k => if n - 1 - i ≤ k ∧ k < j then g k - x i * g (k + 1) else g k))
          (n - 1 - i) (n - 1) (by omega) (tab n g)
          (fun s j => do
            let c ← Outcome.index s (j + 1)
            addAt s j (-(x i * c)))
          (tab_congr fun k _ => by rw [if_neg (by omega)])
          (by
            rintro j _ h3 h4 rfl
            refine ⟨_, by rw [index_tab _ (show j + 1 < n by omega), Outcome.bind_ret,
              addAt_tab _ (show j < n by omega)], ?_⟩
            refine tab_congr fun k _ => ?_
            by_cases hk : k = j
            · subst hk
              rw [if_pos rfl, if_neg (by omega), if_neg (by omega), if_pos (by omega)]; ring
            · rw [if_neg hk]
              by_cases h5 : n - 1 - i ≤ k ∧ k < j
              · rw [if_pos h5, if_pos (by omega)]
              · rw [if_neg h5, if_neg (by omega)])
        exact ht
      refine ⟨_, by rw [index_tab x h2, Outcome.bind_ret, hin, Outcome.bind_ret,
        addAt_tab _ (show n - 1 < n by omega)], ?_⟩
      refine tab_congr fun k hk => ?_
      by_cases hlow : n - (i + 1) ≤ k
      · rw [if_pos hlow, prodX_succ_coeff]
        by_cases hkn : k = n - 1
        · rw [if_pos hkn, if_neg (by omega), if_neg (by omega)]
          have e1 : k - (n - (i + 1)) - 1 = k - (n - i) := by omega
          have e2 : k - (n - (i + 1)) = i := by omega
          rw [e1, e2, prodX_coeff_top]
          have : g k = (prodX x i).coeff (k - (n - i)) := by simp only [hg]; rw [if_pos (by omega)]
          rw [this]; ring
        · rw [if_neg hkn, if_pos (by omega)]
          have e2 : g (k + 1) = (prodX x i).coeff (k - (n - (i + 1))) := by
            simp only [hg]; rw [if_pos (by omega)]; congr 1; omega
          rw [e2]
          by_cases h0 : k - (n - (i + 1)) = 0
          · rw [if_pos h0]
            have : g k = 0 := by simp only [hg]; rw [if_neg (by omega)]
            rw [this]
          · rw [if_neg h0]
            have : g k = (prodX x i).coeff (k - (n - (i + 1)) - 1) := by
              simp only [hg]; rw [if_pos (by omega)]; congr 1; omega
            rw [this]
      · rw [if_neg hlow, if_neg (by omega), if_neg (by omega)]
        simp only [hg]; rw [if_neg (by omega)])
  rw [ht]
  congr 1
  refine tab_congr fun k hk => ?_
  simp

/-- The value computed for `phi`. -/
theorem phi_loop (n : ℕ) (hn : 0 < n) (x : ℕ → K) (a : K) :
    forDown 1 n (n : K) (fun phi k => do
      let c ← Outcome.index (tab n (fun k => (prodX x n).coeff k)) k
      .ret ((k : K) * c + a * phi)) = .ret ((prodX x n).derivative.eval a) := by
  obtain ⟨t, ht, rfl⟩ := forDown_rule
    (fun k (p : K) => p = ∑ t ∈ Finset.range (n + 1 - k), ((k + t : ℕ) : K) * (prodX x n).coeff (k + t) * a ^ t)
    1 n hn (n : K)
    (fun phi k => do
      let c ← Outcome.index (tab n (fun k => (prodX x n).coeff k)) k
      .ret ((k : K) * c + a * phi))
    (by rw [show n + 1 - n = 1 by omega]; simp [prodX_coeff_top])
    (by
      rintro k _ h1 h2 rfl
      refine ⟨_, by rw [index_tab _ h2, Outcome.bind_ret], ?_⟩
      rw [show n + 1 - k = (n + 1 - (k + 1)) + 1 by omega, Finset.sum_range_succ', Finset.mul_sum, add_comm]
      congr 1
      · refine Finset.sum_congr rfl fun t _ => ?_
        rw [show k + 1 + t = k + (t + 1) by ring, pow_succ]; ring
      · simp)
  rw [ht]
  congr 1
  have : (prodX x n).derivative = pl n (fun t => ((1 + t : ℕ) : K) * (prodX x n).coeff (1 + t)) := by
    ext t
    rw [coeff_derivative, pl_coeff]
    by_cases h : t < n
    · rw [if_pos h, add_comm 1 t]; push_cast; ring
    · rw [if_neg h, prodX_coeff_high _ _ _ (by omega), zero_mul]
  rw [this, pl_eval, Nat.add_sub_cancel]

theorem divX_coeff_high (x : ℕ → K) (n : ℕ) (a : K) (k : ℕ) (h : n ≤ k) :
    (prodX x n /ₘ (X - C a)).coeff k = 0 := by
  rw [coeff_divByMonic_X_sub_C, prodX_natDegree]
  apply Finset.sum_eq_zero
  intro i hi
  rw [Finset.mem_Icc] at hi
  omega

theorem divX_coeff_top (x : ℕ → K) (n : ℕ) (hn : 0 < n) (a : K) :
    (prodX x n /ₘ (X - C a)).coeff (n - 1) = 1 := by
  rw [coeff_divByMonic_X_sub_C_rec, divX_coeff_high _ _ _ _ (by omega), mul_zero, add_zero,
    show n - 1 + 1 = n by omega, prodX_coeff_top]

/-- The synthetic division adds a multiple of the quotient. -/
theorem cof_loop (n : ℕ) (hn : 0 < n) (x : ℕ → K) (a ff : K) (cof : ℕ → K) :
    ∃ b, forDown 0 n (tab n cof, (1 : K)) (fun (t : List K × K) k => do
      let cof ← addAt t.1 k (t.2 * ff)
      let c ← Outcome.index (tab n (fun k => (prodX x n).coeff k)) k
      .ret (cof, c + a * t.2)) =
    .ret (tab n (fun k => cof k + (prodX x n /ₘ (X - C a)).coeff k * ff), b) := by
  obtain ⟨t, ht, h1, h2⟩ := forDown_rule
    (fun k (s : List K × K) => (0 < k → s.2 = (prodX x n /ₘ (X - C a)).coeff (k - 1)) ∧
      s.1 = tab n (fun j => if k ≤ j then cof j + (prodX x n /ₘ (X - C a)).coeff j * ff else cof j))
    0 n (Nat.zero_le _) (tab n cof, (1 : K))
    (fun (t : List K × K) k => do
      let cof ← addAt t.1 k (t.2 * ff)
      let c ← Outcome.index (tab n (fun k => (prodX x n).coeff k)) k
      .ret (cof, c + a * t.2))
    ⟨fun _ => (divX_coeff_top x n hn a).symm, tab_congr fun j hj => by rw [if_neg (by omega)]⟩
    (by
      rintro k ⟨w, b⟩ _ hk ⟨hb, hw⟩
      simp only at hb hw
      have hb := hb (by omega)
      rw [Nat.add_sub_cancel] at hb
      subst hb hw
      refine ⟨_, by simp only [addAt_tab _ hk, Outcome.bind_ret, index_tab _ hk]; rfl, ?_, ?_⟩
      · intro h0
        simp only
        conv_rhs => rw [coeff_divByMonic_X_sub_C_rec]
        rw [show k - 1 + 1 = k by omega]
      · refine tab_congr fun j hj => ?_
        by_cases h : j = k
        · subst h
          rw [if_pos rfl, if_neg (by omega), if_pos le_rfl]
        · rw [if_neg h]
          by_cases h' : k + 1 ≤ j
          · rw [if_pos h', if_pos (by omega)]
          · rw [if_neg h', if_neg (by omega)])
  obtain ⟨w, b⟩ := t
  simp only at h2
  refine ⟨b, ?_⟩
  rw [ht, h2]
  congr 2

/-- The coefficients after the nodes `0 … k-1` have been processed. -/
theorem fromValues_loop (n : ℕ) (hn : 0 < n) (x y : ℕ → K) :
    forRange n (List.replicate n (0 : K))
      (fromValuesBody (tab n x) (tab n y) (tab n (fun k => (prodX x n).coeff k))) =
    .ret (tab n (fun k => ∑ j ∈ Finset.range n,
      (prodX x n /ₘ (X - C (x j))).coeff k * (y j / (prodX x n).derivative.eval (x j)))) := by
  obtain ⟨t, ht, rfl⟩ := forRange_rule
    (fun i (w : List K) => w = tab n (fun k => ∑ j ∈ Finset.range i,
      (prodX x n /ₘ (X - C (x j))).coeff k * (y j / (prodX x n).derivative.eval (x j))))
    n (List.replicate n (0 : K))
    (fromValuesBody (tab n x) (tab n y) (tab n (fun k => (prodX x n).coeff k)))
    (by rw [replicate_eq_tab]; exact tab_congr fun k _ => by simp)
    (by
      rintro i _ hi rfl
      obtain ⟨b, hb⟩ := cof_loop n hn x (x i) (y i / (prodX x n).derivative.eval (x i))
        (fun k => ∑ j ∈ Finset.range i,
          (prodX x n /ₘ (X - C (x j))).coeff k * (y j / (prodX x n).derivative.eval (x j)))
      refine ⟨_, by
        simp only [fromValuesBody, length_tab, index_tab x hi, Outcome.bind_ret]
        rw [phi_loop n hn, Outcome.bind_ret, index_tab y hi, Outcome.bind_ret, hb, Outcome.bind_ret], ?_⟩
      exact tab_congr fun k _ => by rw [Finset.sum_range_succ])
  exact ht

theorem prodX_isRoot (x : ℕ → K) (n i : ℕ) (hi : i < n) : (prodX x n).IsRoot (x i) := by
  rw [IsRoot, prodX, eval_prod]
  exact Finset.prod_eq_zero (Finset.mem_range.2 hi) (by simp)

theorem divX_spec (x : ℕ → K) (n i : ℕ) (hi : i < n) :
    (X - C (x i)) * (prodX x n /ₘ (X - C (x i))) = prodX x n :=
  mul_divByMonic_eq_iff_isRoot.2 (prodX_isRoot x n i hi)

theorem divX_eval_ne (x : ℕ → K) (n i j : ℕ) (hi : i < n) (hj : j < n) (h : x i ≠ x j) :
    (prodX x n /ₘ (X - C (x j))).eval (x i) = 0 := by
  have := congrArg (Polynomial.eval (x i)) (divX_spec x n j hj)
  rw [eval_mul, (prodX_isRoot x n i hi : (prodX x n).eval (x i) = 0)] at this
  rcases mul_eq_zero.1 this with h1 | h1
  · simp only [eval_sub, eval_X, eval_C] at h1
    exact absurd (sub_eq_zero.1 h1) h
  · exact h1

theorem divX_eval_self (x : ℕ → K) (n i : ℕ) (hi : i < n) :
    (prodX x n /ₘ (X - C (x i))).eval (x i) = (prodX x n).derivative.eval (x i) := by
  conv_rhs => rw [← divX_spec x n i hi]
  rw [derivative_mul]
  simp

theorem derivative_ne (x : ℕ → K) (n i : ℕ) (hi : i < n) (hx : ∀ j < n, j ≠ i → x i ≠ x j) :
    (prodX x n).derivative.eval (x i) ≠ 0 := by
  rw [← divX_eval_self x n i hi]
  have h1 : prodX x n = (X - C (x i)) * ∏ j ∈ (Finset.range n).erase i, (X - C (x j)) := by
    exact (Finset.mul_prod_erase (Finset.range n) (fun j => X - C (x j)) (Finset.mem_range.2 hi)).symm
  have h2 : prodX x n /ₘ (X - C (x i)) = ∏ j ∈ (Finset.range n).erase i, (X - C (x j)) := by
    conv_lhs => rw [h1]
    exact mul_divByMonic_cancel_left _ (monic_X_sub_C _)
  rw [h2, eval_prod, Finset.prod_ne_zero_iff]
  intro j hj
  rw [Finset.mem_erase, Finset.mem_range] at hj
  simp only [eval_sub, eval_X, eval_C]
  exact sub_ne_zero.2 (hx j hj.2 hj.1)

end Verif.Poly
