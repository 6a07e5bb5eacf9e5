import Verif.LinAlg.LULemmas
import Mathlib.LinearAlgebra.Matrix.Block

/-! # Helper lemmas for solving with an LU decomposition -/

set_option autoImplicit false

namespace Verif.LinAlg.LU

open Verif.Mat

variable {K : Type} [Field K] [LinearOrder K]

theorem permAcc_surj {n k : ℕ} {ir ic : ℕ → ℕ} (hlt : ∀ l < k, ir l < n ∧ ic l < n) {r : ℕ} (hr : r < n) :
    ∃ r' < n, permAcc ir ic k r' = r := by
  obtain ⟨a, ha, hra⟩ := Finset.surj_on_of_inj_on_of_card_le (s := Finset.range n) (t := Finset.range n)
    (fun a _ => permAcc ir ic k a) (fun a ha => Finset.mem_range.2 (permAcc_lt k hlt (Finset.mem_range.1 ha)))
    (fun a b _ _ hab => (permAcc ir ic k).injective hab) le_rfl r (Finset.mem_range.2 hr)
  exact ⟨a, Finset.mem_range.1 ha, hra.symm⟩

theorem forward_spec {n : ℕ} (f : ℕ → ℕ → K) (ix : ℕ → ℕ) (d : K) (hix : ∀ t < n, t ≤ ix t ∧ ix t < n) (b : ℕ → K) :
    ∃ y ii, forRange n (tab n b, 0) (forwardStep ⟨Dense.ofFn n n f, tab n ix, d⟩) = .ret (tab n y, ii) ∧
      ∀ r < n, y r + ∑ t ∈ Finset.range r, f r t * y t = b (permAcc id ix n r) := by
  obtain ⟨⟨x, ii⟩, ht, y, hx, h1, h2, h3⟩ := forRange_rule
    (fun i (s : List K × ℕ) => ∃ y : ℕ → K, s.1 = tab n y ∧
      (∀ r, i ≤ r → r < n → y r = b (permAcc id ix i r)) ∧
      (∀ r < i, y r + ∑ t ∈ Finset.range r, f r t * y t = b (permAcc id ix i r)) ∧
      ((s.2 = 0 ∧ ∀ t < i, y t = 0) ∨ (1 ≤ s.2 ∧ s.2 ≤ i ∧ ∀ t < s.2 - 1, y t = 0)))
    n (tab n b, 0) (forwardStep ⟨Dense.ofFn n n f, tab n ix, d⟩)
    ⟨b, rfl, fun r _ _ => rfl, fun r h => by omega, Or.inl ⟨rfl, fun t h => by omega⟩⟩
    (by
      rintro i ⟨x, ii⟩ hi ⟨y, hx, h1, h2, h3⟩
      simp only at hx h3
      subst hx
      obtain ⟨hip, hipn⟩ := hix i hi
      rw [forwardStep]
      simp only
      rw [index_tab _ hi, Outcome.bind_ret, index_tab _ hipn, Outcome.bind_ret, index_tab _ hi, Outcome.bind_ret,
        store_tab _ hipn, Outcome.bind_ret]
      -- the value stored at position `i`, and what follows from it
      have key : ∀ v ii', v = y (ix i) - ∑ t ∈ Finset.range i, f i t * y t →
          ((ii' = 0 ∧ (∀ t < i, y t = 0) ∧ v = 0) ∨ (1 ≤ ii' ∧ ii' ≤ i + 1 ∧ ∀ t < ii' - 1, y t = 0)) →
          ∃ s, Outcome.ret (tab n (fun k => if k = i then v else if k = ix i then y i else y k), ii') = .ret s ∧
            ∃ y : ℕ → K, s.1 = tab n y ∧
              (∀ r, i + 1 ≤ r → r < n → y r = b (permAcc id ix (i + 1) r)) ∧
              (∀ r < i + 1, y r + ∑ t ∈ Finset.range r, f r t * y t = b (permAcc id ix (i + 1) r)) ∧
              ((s.2 = 0 ∧ ∀ t < i + 1, y t = 0) ∨ (1 ≤ s.2 ∧ s.2 ≤ i + 1 ∧ ∀ t < s.2 - 1, y t = 0)) := by
        intro v ii' hv hii
        refine ⟨_, rfl, _, rfl, fun r hr hrn => ?_, fun r hr => ?_, ?_⟩
        · rw [permAcc, Equiv.Perm.mul_apply, id, if_neg (by omega)]
          by_cases hrp : r = ix i
          · rw [if_pos hrp, hrp, Equiv.swap_apply_right, h1 i le_rfl hi]
          · rw [if_neg hrp, Equiv.swap_apply_of_ne_of_ne (by omega) hrp, h1 r (by omega) hrn]
        · have hsum : ∑ t ∈ Finset.range r, f r t * (if t = i then v else if t = ix i then y i else y t) =
              ∑ t ∈ Finset.range r, f r t * y t := by
            refine Finset.sum_congr rfl fun t ht => ?_
            have := Finset.mem_range.1 ht
            rw [if_neg (by omega), if_neg (by omega)]
          rw [hsum, permAcc, Equiv.Perm.mul_apply, id]
          by_cases hri : r = i
          · subst hri
            rw [if_pos rfl, hv, Equiv.swap_apply_left, ← h1 _ hip hipn]
            ring
          · rw [if_neg hri, if_neg (by omega), swap_fix hip (by omega)]
            exact h2 r (by omega)
        · rcases hii with ⟨e, hz, hv0⟩ | ⟨g1, g2, g3⟩
          · refine Or.inl ⟨e, fun t ht => ?_⟩
            by_cases hti : t = i
            · rw [if_pos hti, hv0]
            · rw [if_neg hti, if_neg (by omega)]; exact hz t (by omega)
          · refine Or.inr ⟨g1, g2, fun t ht => ?_⟩
            simp only at ht
            rw [if_neg (by omega), if_neg (by omega)]
            exact g3 t ht
      rcases h3 with ⟨rfl, hz⟩ | ⟨g1, g2, g3⟩
      · rw [if_neg (by simp), store_tab _ hi, Outcome.bind_ret]
        have hv : y (ix i) = y (ix i) - ∑ t ∈ Finset.range i, f i t * y t := by
          rw [Finset.sum_eq_zero fun t ht => by rw [hz t (Finset.mem_range.1 ht), mul_zero], sub_zero]
        refine key _ _ hv ?_
        by_cases hs : y (ix i) = 0
        · exact Or.inl ⟨by rw [if_neg (by simpa using hs)], hz, hs⟩
        · rw [if_pos hs]
          exact Or.inr ⟨by omega, le_rfl, fun t ht => hz t (by omega)⟩
      · rw [if_pos (by omega), forFromTo_sum (ii - 1) i _ _ (fun j => - (f i j * y j)) (by
          intro j h4 h5 s
          rw [Dense.get_ofFn _ hi (by omega), Outcome.bind_ret, index_tab _ (by omega), Outcome.bind_ret,
            if_neg (by omega), sub_eq_add_neg]), Outcome.bind_ret, store_tab _ hi, Outcome.bind_ret]
        refine key _ _ ?_ (Or.inr ⟨g1, by omega, g3⟩)
        rw [Finset.sum_neg_distrib, ← sub_eq_add_neg, ← Finset.sum_range_add_sum_Ico _ (show ii - 1 ≤ i by omega),
          Finset.sum_eq_zero (s := Finset.range (ii - 1)) fun t ht => by
            rw [g3 t (Finset.mem_range.1 ht), mul_zero], zero_add])
  simp only at hx
  subst hx
  exact ⟨y, ii, ht, h2⟩

theorem back_spec {n : ℕ} (f : ℕ → ℕ → K) (indx : List ℕ) (d : K) (hd : ∀ t < n, f t t ≠ 0) (y : ℕ → K) :
    ∃ x, forDown 0 n (tab n y) (backStep ⟨Dense.ofFn n n f, indx, d⟩ n) = .ret (tab n x) ∧
      ∀ r < n, ∑ c ∈ Finset.Ico r n, f r c * x c = y r := by
  obtain ⟨t, ht, x, rfl, _, h2⟩ := forDown_rule
    (fun i (v : List K) => ∃ x : ℕ → K, v = tab n x ∧ (∀ r < i, x r = y r) ∧
      ∀ r, i ≤ r → r < n → ∑ c ∈ Finset.Ico r n, f r c * x c = y r)
    0 n (by omega) (tab n y) (backStep ⟨Dense.ofFn n n f, indx, d⟩ n)
    ⟨y, rfl, fun _ _ => rfl, fun r h1 h2 => by omega⟩
    (by
      rintro i _ _ hi ⟨x, rfl, h1, h2⟩
      refine ⟨_, by
        rw [backStep]
        simp only
        rw [index_tab _ hi, Outcome.bind_ret, forFromTo_sum (i + 1) n _ _ (fun j => - (f i j * x j)) (by
          intro j h4 h5 s
          rw [Dense.get_ofFn _ hi (by omega), Outcome.bind_ret, index_tab _ (by omega), Outcome.bind_ret,
            sub_eq_add_neg]), Outcome.bind_ret, Dense.get_ofFn _ hi hi, Outcome.bind_ret, divU, if_neg (hd i hi),
          Outcome.bind_ret, store_tab _ hi], _, rfl, fun r hr => ?_, fun r hr hrn => ?_⟩
      · rw [if_neg (by omega)]; exact h1 r (by omega)
      · have hrest : ∀ a, i < a → ∑ c ∈ Finset.Ico a n, f r c *
            (if c = i then (x i + ∑ j ∈ Finset.Ico (i + 1) n, -(f i j * x j)) / f i i else x c) =
            ∑ c ∈ Finset.Ico a n, f r c * x c := by
          intro a ha
          refine Finset.sum_congr rfl fun c hc => ?_
          have := Finset.mem_Ico.1 hc
          rw [if_neg (by omega)]
        by_cases hri : r = i
        · subst hri
          rw [Finset.sum_eq_sum_Ico_succ_bot hrn, hrest _ (by omega), if_pos rfl, mul_div_cancel₀ _ (hd r hrn),
            Finset.sum_neg_distrib, h1 r (by omega)]
          ring
        · rw [hrest r (by omega)]; exact h2 r (by omega) hrn)
  exact ⟨x, ht, fun r hr => h2 r (by omega) hr⟩

theorem sum_upper {n t : ℕ} (ht : t ≤ n) (g x : ℕ → K) :
    ∑ c ∈ Finset.range n, (if t ≤ c then g c else 0) * x c = ∑ c ∈ Finset.Ico t n, g c * x c := by
  rw [← Finset.sum_range_add_sum_Ico _ ht, Finset.sum_eq_zero fun c hc => by
    rw [if_neg (by have := Finset.mem_range.1 hc; omega), zero_mul], zero_add]
  exact Finset.sum_congr rfl fun c hc => by rw [if_pos (Finset.mem_Ico.1 hc).1]

theorem solveCore_spec {n : ℕ} {A : ℕ → ℕ → K} {s : LU K} (h : Decomp n A s) (b : ℕ → K) :
    ∃ x, solveCore s (tab n b) = .ret (tab n x) ∧ ∀ r < n, ∑ c ∈ Finset.range n, A r c * x c = b r := by
  obtain ⟨lu, indx, d⟩ := s
  obtain ⟨f, ix, hlu, hix, hinv⟩ := h
  simp only at hlu hix
  subst hlu hix
  obtain ⟨y, ii, hy, hy'⟩ := forward_spec f ix d hinv.piv b
  obtain ⟨x, hx, hx'⟩ := back_spec f (tab n ix) d hinv.diag y
  refine ⟨x, ?_, fun r hr => ?_⟩
  · rw [solveCore]
    simp only [Dense.ofFn_rows]
    rw [hy, Outcome.bind_ret]
    exact hx
  have hlt : ∀ l < n, id l < n ∧ ix l < n := fun l hl => ⟨hl, (hinv.piv l hl).2⟩
  obtain ⟨r', hr', rfl⟩ := permAcc_surj hlt hr
  rw [← hy' r' hr', Finset.sum_congr rfl fun c hc => by
    rw [hinv.prod r' hr' c (Finset.mem_range.1 hc), partialProd, show min n r' = r' by omega, add_mul],
    Finset.sum_add_distrib, sum_upper hr'.le, hx' r' hr', add_comm]
  congr 1
  simp only [Finset.sum_mul]
  rw [Finset.sum_comm]
  refine Finset.sum_congr rfl fun t ht => ?_
  have ht' := Finset.mem_range.1 ht
  rw [← hx' t (by omega), ← sum_upper (by omega), Finset.mul_sum]
  exact Finset.sum_congr rfl fun c _ => by ring

theorem Decomp.rows {n : ℕ} {A : ℕ → ℕ → K} {s : LU K} (h : Decomp n A s) : s.lu.rows = n := by
  obtain ⟨f, ix, hlu, _⟩ := h
  rw [hlu, Dense.ofFn_rows]

theorem solveInto_spec {n : ℕ} {A : ℕ → ℕ → K} {s : LU K} (h : Decomp n A s) (b x0 : ℕ → K) :
    ∃ x, solveInto s (tab n b) (tab n x0) = .ret (true, tab n x) ∧ ∀ r < n, ∑ c ∈ Finset.range n, A r c * x c = b r := by
  obtain ⟨x, hx, hx'⟩ := solveCore_spec h b
  refine ⟨x, ?_, hx'⟩
  rw [solveInto, if_neg (by simp [h.rows]), hx, Outcome.bind_ret]

theorem solveColumn_spec {n m : ℕ} {A : ℕ → ℕ → K} {s : LU K} (h : Decomp n A s) (src : Dense K → Dense K)
    (g B : ℕ → ℕ → K) {j : ℕ} (hj : j < m) (hsrc : src (Dense.ofFn n m g) = Dense.ofFn n m B) :
    ∃ x : ℕ → K, solveColumn s n src (Dense.ofFn n m g) j =
        .ret (Dense.ofFn n m (fun r c => if c = j then x r else g r c)) ∧
      ∀ r < n, ∑ c ∈ Finset.range n, A r c * x c = B r j := by
  obtain ⟨x, hx, hx'⟩ := solveInto_spec h (fun i => B i j) (fun i => B i j)
  refine ⟨x, ?_, hx'⟩
  rw [solveColumn, hsrc, replicate_eq_tab, forRange_fill n n le_rfl _ (fun i => B i j) _ (by
    intro i hi r
    rw [Dense.get_ofFn _ hi hj, Outcome.bind_ret]), Outcome.bind_ret]
  have e : tab n (fun k => if k < n then B k j else 0) = tab n (fun i => B i j) :=
    tab_congr fun i hi => by rw [if_pos hi]
  rw [e, hx, Outcome.bind_ret]
  obtain ⟨t, ht, rfl⟩ := forRange_rule
    (fun k (m' : Dense K) => m' = Dense.ofFn n m (fun r c => if r < k ∧ c = j then x r else g r c)) n (Dense.ofFn n m g)
    (fun out i => do
      let y ← Outcome.index (tab n x) i
      out.set i j y)
    (by simp)
    (by
      rintro k _ hk rfl
      refine ⟨_, by rw [index_tab _ hk, Outcome.bind_ret, Dense.set_ofFn _ hk hj], ?_⟩
      refine Dense.ofFn_congr fun p _ q _ => ?_
      by_cases h1 : p = k ∧ q = j
      · rw [if_pos h1, if_pos (by omega), h1.1]
      · rw [if_neg h1]
        by_cases h2 : p < k ∧ q = j
        · rw [if_pos h2, if_pos (by omega)]
        · rw [if_neg h2, if_neg (by omega)])
  simp only
  rw [ht]
  congr 1
  exact Dense.ofFn_congr fun p hp q _ => by simp [hp]

theorem solveColumns_spec {n m : ℕ} {A : ℕ → ℕ → K} {s : LU K} (h : Decomp n A s) (src : Dense K → Dense K)
    (g0 B : ℕ → ℕ → K)
    (hsrc : ∀ j < m, ∀ g, (∀ r < n, ∀ c < m, j ≤ c → g r c = g0 r c) →
      ∃ B', src (Dense.ofFn n m g) = Dense.ofFn n m B' ∧ ∀ r < n, B' r j = B r j) :
    ∃ X, forRange m (Dense.ofFn n m g0) (solveColumn s n src) = .ret (Dense.ofFn n m X) ∧
      ∀ r < n, ∀ c < m, ∑ k ∈ Finset.range n, A r k * X k c = B r c := by
  obtain ⟨t, ht, X, rfl, h1, h2⟩ := forRange_rule
    (fun j (m' : Dense K) => ∃ X : ℕ → ℕ → K, m' = Dense.ofFn n m X ∧
      (∀ r < n, ∀ c < m, j ≤ c → X r c = g0 r c) ∧
      ∀ r < n, ∀ c < j, ∑ k ∈ Finset.range n, A r k * X k c = B r c)
    m (Dense.ofFn n m g0) (solveColumn s n src) ⟨g0, rfl, fun _ _ _ _ _ => rfl, fun r _ c hc => by omega⟩
    (by
      rintro j _ hj ⟨X, rfl, h1, h2⟩
      obtain ⟨B', hB', hcol⟩ := hsrc j hj X h1
      obtain ⟨x, hx, hx'⟩ := solveColumn_spec h src X B' hj hB'
      refine ⟨_, hx, _, rfl, fun r hr c hc hjc => ?_, fun r hr c hc => ?_⟩
      · rw [if_neg (by omega)]; exact h1 r hr c hc (by omega)
      · by_cases hcj : c = j
        · subst hcj
          simp only [if_true]
          rw [hx' r hr, hcol r hr]
        · simp only [if_neg hcj]
          exact h2 r hr c (by omega))
  exact ⟨X, ht, fun r hr c hc => h2 r hr c hc⟩

theorem det_spec {n : ℕ} {A : ℕ → ℕ → K} {s : LU K} (h : Decomp n A s) :
    s.det = .ret (Matrix.det (Matrix.of fun i j : Fin n => A i j)) := by
  obtain ⟨lu, indx, d⟩ := s
  obtain ⟨f, ix, hlu, hix, hinv⟩ := h
  simp only at hlu hix hinv
  subst hlu hix
  have e1 : det ⟨Dense.ofFn n n f, tab n ix, d⟩ = .ret (d * ∏ i ∈ Finset.range n, f i i) := by
    rw [det]
    simp only [Dense.ofFn_rows]
    obtain ⟨t, ht, rfl⟩ := forRange_rule (fun k (x : K) => x = d * ∏ i ∈ Finset.range k, f i i) n d
      (fun dd i => do
        let x ← (Dense.ofFn n n f).get i i
        .ret (dd * x))
      (by simp)
      (by
        rintro k _ hk rfl
        exact ⟨_, by rw [Dense.get_ofFn _ hk hk, Outcome.bind_ret], by rw [Finset.prod_range_succ, mul_assoc]⟩)
    exact ht
  rw [e1]
  congr 1
  let L : Matrix (Fin n) (Fin n) K := Matrix.of fun i j => if j < i then f i j else if i = j then 1 else 0
  let U : Matrix (Fin n) (Fin n) K := Matrix.of fun i j => if i ≤ j then f i j else 0
  have hLU : (Matrix.of fun i j : Fin n => A (permAcc id ix n i) j) = L * U := by
    ext i j
    rw [Matrix.of_apply, hinv.prod i i.2 j j.2, partialProd, show min n (i : ℕ) = i by omega, Matrix.mul_apply]
    have hterm : ∀ t : Fin n, L i t * U t j =
        (fun t : ℕ => (if t < i then f i t else if (i : ℕ) = t then 1 else 0) * if t ≤ (j : ℕ) then f t j else 0) t := by
      intro t
      simp only [L, U, Matrix.of_apply, Fin.lt_def, Fin.le_def, Fin.ext_iff]
    rw [Finset.sum_congr rfl fun t _ => hterm t, Fin.sum_univ_eq_sum_range
      (fun t : ℕ => (if t < i then f i t else if (i : ℕ) = t then 1 else 0) * if t ≤ (j : ℕ) then f t j else 0) n]
    rw [← Finset.sum_range_add_sum_Ico _ (show (i : ℕ) + 1 ≤ n by omega), Finset.sum_range_succ,
      Finset.sum_eq_zero (s := Finset.Ico ((i : ℕ) + 1) n) fun t ht => by
        have := Finset.mem_Ico.1 ht
        rw [if_neg (by omega), if_neg (by omega), zero_mul], add_zero]
    congr 1
    · exact Finset.sum_congr rfl fun t ht => by rw [if_pos (Finset.mem_range.1 ht)]
    · rw [if_neg (lt_irrefl _), if_pos rfl, one_mul]
  have hL : L.det = 1 := by
    have : L.BlockTriangular OrderDual.toDual := by
      intro i j hij
      have hij' : i < j := hij
      simp only [L, Matrix.of_apply]
      rw [if_neg (by omega), if_neg (by omega)]
    rw [Matrix.det_of_lowerTriangular _ this]
    exact Finset.prod_eq_one fun i _ => by simp [L]
  have hU : U.det = ∏ i ∈ Finset.range n, f i i := by
    have : U.BlockTriangular id := by
      intro i j hij
      have hij' : j < i := hij
      simp only [U, Matrix.of_apply]
      rw [if_neg (by omega)]
    rw [Matrix.det_of_upperTriangular this, ← Fin.prod_univ_eq_prod_range (fun i => f i i) n]
    exact Finset.prod_congr rfl fun i _ => by simp [U]
  have hdet := hinv.det
  rw [hLU, Matrix.det_mul, hL, hU, one_mul] at hdet
  rw [hdet, ← mul_assoc, hinv.sq, one_mul]

end Verif.LinAlg.LU
