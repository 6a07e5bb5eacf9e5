import Verif.Mat.Utils
import Verif.Mat.FaddeevMath
import Verif.Mat.DenseProps
import Mathlib.Tactic

/-!
# Characteristic polynomial, nilpotent and unipotent matrices

Property C142.  The specification is Mathlib's: `Matrix.charpoly`, `Matrix.det`, the matrix product and
`IsNilpotent`.
-/

set_option autoImplicit false

namespace Verif.Mat.Utils

open Verif.Mat Polynomial
open Verif.Mat.Dense (Is Shape ofFn)

variable {K : Type} [Field K] [LinearOrder K]

/-- The mathematical matrix with the elements `f i j`. -/
def toMat (n : ℕ) (f : ℕ → ℕ → K) : Matrix (Fin n) (Fin n) K := Matrix.of fun i j => f i j

/-- The elements of a mathematical matrix as a function of two naturals. -/
def fnOf {n : ℕ} (M : Matrix (Fin n) (Fin n) K) (i j : ℕ) : K :=
  if h : i < n ∧ j < n then M ⟨i, h.1⟩ ⟨j, h.2⟩ else 0

/-- The matrix object holding a mathematical matrix. -/
def ofM {n : ℕ} (M : Matrix (Fin n) (Fin n) K) : Dense K := ofFn n n (fnOf M)

omit [LinearOrder K] in
theorem fnOf_fin {n : ℕ} (M : Matrix (Fin n) (Fin n) K) (i j : Fin n) : fnOf M i j = M i j := by
  simp [fnOf]

omit [LinearOrder K] in
theorem ofFn_eq_ofM (n : ℕ) (f : ℕ → ℕ → K) : ofFn n n f = ofM (toMat n f) :=
  Dense.ofFn_congr fun i hi j hj => by simp [fnOf, toMat, hi, hj]

omit [LinearOrder K] in
theorem fnOf_lt {n : ℕ} (M : Matrix (Fin n) (Fin n) K) {i j : ℕ} (hi : i < n) (hj : j < n) :
    fnOf M i j = M ⟨i, hi⟩ ⟨j, hj⟩ := by
  simp [fnOf, hi, hj]

omit [LinearOrder K] in
theorem mul_ofM {n : ℕ} (h : Shape n n) (A B : Matrix (Fin n) (Fin n) K) :
    (ofM A).mul (ofM B) = .ret (ofM (A * B)) := by
  rw [ofM, ofM, Dense.mul_ofFn h]
  congr 1
  refine Dense.ofFn_congr fun i hi j hj => ?_
  rw [fnOf_lt _ hi hj, Matrix.mul_apply, Finset.sum_range]
  refine Finset.sum_congr rfl fun k _ => ?_
  rw [fnOf_lt _ hi k.2, fnOf_lt _ k.2 hj]

omit [LinearOrder K] in
theorem map_ofM {n : ℕ} (h : Shape n n) (A : Matrix (Fin n) (Fin n) K) (φ : K → K) :
    (ofM A).mapData φ = .ret (ofM (A.map φ)) := by
  rw [ofM, Dense.mapData_ofFn h]
  congr 1
  refine Dense.ofFn_congr fun i hi j hj => ?_
  rw [fnOf_lt _ hi hj, fnOf_lt _ hi hj, Matrix.map_apply]

omit [LinearOrder K] in
theorem zip_ofM {n : ℕ} (h : Shape n n) (A B : Matrix (Fin n) (Fin n) K) (φ : K → K → K) :
    (ofM A).zipData (ofM B) φ = .ret (ofM (Matrix.of fun i j => φ (A i j) (B i j))) := by
  rw [ofM, ofM, Dense.zipData_ofFn h]
  congr 1
  refine Dense.ofFn_congr fun i hi j hj => ?_
  rw [fnOf_lt _ hi hj, fnOf_lt _ hi hj, fnOf_lt _ hi hj, Matrix.of_apply]

omit [LinearOrder K] in
theorem identity_ofM {n : ℕ} (h : Shape n n) (hn : 0 < n) :
    (Dense.identity (n : ℤ) : Outcome (Dense K)) = .ret (ofM (1 : Matrix (Fin n) (Fin n) K)) := by
  rw [Dense.identity_spec h hn]
  congr 1
  refine Dense.ofFn_congr fun i hi j hj => ?_
  rw [fnOf_lt _ hi hj, Matrix.one_apply]
  simp

theorem trace_ofM {n : ℕ} (A : Matrix (Fin n) (Fin n) K) : trace (ofM A) = .ret A.trace := by
  unfold trace
  simp only [ofM, Dense.ofFn_rows, Dense.ofFn_cols, min_self]
  rw [forRange_sum n 0 _ (fun i => fnOf A i i), zero_add, Finset.sum_range, Matrix.trace]
  · congr 1
    exact Finset.sum_congr rfl fun i _ => fnOf_fin A i i
  · intro i hi s
    rw [Dense.get_ofFn _ hi hi, Outcome.bind_ret]

theorem is_ofM {n : ℕ} (h : Shape n n) (A : Matrix (Fin n) (Fin n) K) : Is (ofM A) n n (fnOf A) :=
  Dense.is_ofFn h _

theorem isZero_ofM {n : ℕ} (h : Shape n n) (A : Matrix (Fin n) (Fin n) K) (eps : K) :
    (ofM A).isZero eps = true ↔ ∀ i j, |A i j| ≤ eps := by
  rw [(Dense.predicates_spec _ n n _ (is_ofM h A) eps).2.2.2]
  constructor
  · intro h i j
    have := h i i.2 j j.2
    rwa [fnOf_fin] at this
  · intro h i hi j hj
    rw [fnOf_lt _ hi hj]
    exact h _ _

/-! ## Faddeev-Leverrier -/

theorem fad_loop [CharZero K] {n : ℕ} (h : Shape (n + 1) (n + 1)) (A : Matrix (Fin (n + 1)) (Fin (n + 1)) K)
    (z : Dense K) (p : ℕ → K) :
    ∃ bs ps, forRange (n + 1) (tab (n + 2) (fun j => if j = 0 then ofM (1 : Matrix (Fin (n + 1)) (Fin (n + 1)) K) else z),
        tab (n + 2) (fun i => if i = n + 1 then 1 else p i)) (fadStep (ofM A) (ofM (1 : Matrix (Fin (n + 1)) (Fin (n + 1)) K)) (n + 1)) = .ret (bs, ps) ∧
      ps = tab (n + 2) (fun i => A.charpoly.coeff i) ∧ Outcome.index bs n = .ret (ofM (Fad.Q A 0)) := by
  obtain ⟨⟨bs, ps⟩, ht, ⟨g, rfl, hg⟩, q, rfl, hq⟩ := forRange_rule
    (fun r (s : List (Dense K) × List K) =>
      (∃ g : ℕ → Dense K, s.1 = tab (n + 2) g ∧ ∀ j ≤ r, j ≤ n → g j = ofM (Fad.Q A (n - j))) ∧
      ∃ q : ℕ → K, s.2 = tab (n + 2) q ∧ ∀ i, n + 1 - r ≤ i → i < n + 2 → q i = A.charpoly.coeff i)
    (n + 1) (tab (n + 2) (fun j => if j = 0 then ofM (1 : Matrix (Fin (n + 1)) (Fin (n + 1)) K) else z),
        tab (n + 2) (fun i => if i = n + 1 then 1 else p i)) (fadStep (ofM A) (ofM (1 : Matrix (Fin (n + 1)) (Fin (n + 1)) K)) (n + 1))
    (by
      refine ⟨⟨_, rfl, ?_⟩, _, rfl, ?_⟩
      · intro j hj _
        have : j = 0 := by omega
        subst this
        rw [if_pos rfl, Nat.sub_zero, Fad.Q_top]
      · intro i h1 h2
        have : i = n + 1 := by omega
        subst this
        rw [if_pos rfl]
        have h := (A.charpoly_monic).coeff_natDegree
        rw [A.charpoly_natDegree_eq_dim, Fintype.card_fin] at h
        exact h.symm)
    (by
      rintro r ⟨_, _⟩ hr ⟨⟨g, rfl, hg⟩, q, rfl, hq⟩
      have hcoef : -1 / ((r + 1 : ℕ) : K) * (A * Fad.Q A (n - r)).trace = A.charpoly.coeff (n - r) := by
        rw [Fad.Q_trace_mul A (n - r) (by omega), show n + 1 - (n - r) = r + 1 by omega]
        have : ((r + 1 : ℕ) : K) ≠ 0 := by exact_mod_cast Nat.succ_ne_zero r
        field_simp
      refine ⟨(tab (n + 2) (fun k => if k = r + 1 then
          ofM (A * Fad.Q A (n - r) + A.charpoly.coeff (n - r) • (1 : Matrix (Fin (n + 1)) (Fin (n + 1)) K)) else g k),
        tab (n + 2) (fun k => if k = n - r then A.charpoly.coeff (n - r) else q k)), ?_, ⟨_, rfl, ?_⟩, _, rfl, ?_⟩
      · rw [fadStep]
        simp only
        rw [index_tab _ (by omega), Outcome.bind_ret, hg r le_rfl (by omega), mul_ofM h, Outcome.bind_ret, trace_ofM,
          Outcome.bind_ret, hcoef, show n + 1 - (r + 1) = n - r by omega, store_tab _ (by omega), Outcome.bind_ret,
          Outcome.bind_ret, index_tab _ (by omega), Outcome.bind_ret, if_pos rfl, Dense.scale, map_ofM h,
          Outcome.bind_ret, Dense.add, zip_ofM h, Outcome.bind_ret, store_tab _ (by omega), Outcome.bind_ret]
        congr 3
        funext k
        congr 1
        congr 1
        ext i j
        simp [Matrix.smul_apply, mul_comm]
      · intro j hj hjn
        by_cases hj' : j = r + 1
        · subst hj'
          rw [if_pos rfl, Fad.Q_succ A (n - (r + 1)), show n - (r + 1) + 1 = n - r by omega]
        · rw [if_neg hj']
          exact hg j (by omega) hjn
      · intro i h1 h2
        by_cases hi : i = n - r
        · rw [if_pos hi, hi]
        · rw [if_neg hi]
          exact hq i (by omega) h2)
  refine ⟨_, _, ht, tab_congr fun i hi => hq i (by omega) (by omega), ?_⟩
  rw [index_tab _ (by omega), hg n (by omega) le_rfl, Nat.sub_self]

omit [LinearOrder K] in
theorem setDegree_eq_tab (p : List K) (n : ℕ) : ∃ q, setDegree p n = tab (n + 1) q := by
  refine ⟨fun i => (setDegree p n).getD i 0, ?_⟩
  have hl : (setDegree p n).length = n + 1 := by simp [setDegree]; omega
  apply List.ext_getElem?
  intro k
  rw [getElem?_tab]
  by_cases hk : k < n + 1
  · rw [if_pos hk, List.getD_eq_getElem?_getD, List.getElem?_eq_getElem (by omega)]
    simp
  · rw [if_neg hk, List.getElem?_eq_none (by omega)]

/-- **C142.**  For every square matrix the Faddeev-Leverrier function stores the coefficients of the
characteristic polynomial and the determinant.  When the determinant is not zero the third output is the inverse.
When it is zero the third output is the result of a division by zero. -/
theorem faddeev_spec [CharZero K] (a : Dense K) (n : ℕ) (f : ℕ → ℕ → K) (ha : Is a n n f) (hn : 0 < n) (p0 : List K) :
    ∃ inv, faddeev a p0 =
        .ret ⟨tab (n + 1) (fun k => (toMat n f).charpoly.coeff k), (toMat n f).det, inv⟩ ∧
      ((toMat n f).det ≠ 0 → ∃ b g, inv = .ret b ∧ Is b n n g ∧
        toMat n f * toMat n g = 1 ∧ toMat n g * toMat n f = 1) ∧
      ((toMat n f).det = 0 → inv = .ub) := by
  obtain ⟨h, rfl⟩ := Dense.is_unique.1 ha
  obtain ⟨n, rfl⟩ : ∃ m, n = m + 1 := ⟨n - 1, by omega⟩
  rw [ofFn_eq_ofM]
  set A := toMat (n + 1) f with hA
  obtain ⟨q, hq⟩ := setDegree_eq_tab p0 (n + 1)
  obtain ⟨bs, ps, h1, h2, h3⟩ := fad_loop h A (ofFn (n + 1) (n + 1) (fun _ _ => 0)) q
  have hdet : (-1 : K) ^ (n + 1) * A.charpoly.coeff 0 = A.det := by
    rw [Matrix.det_eq_sign_charpoly_coeff, Fintype.card_fin]
  refine ⟨fadInv (ofM (Fad.Q A 0)) (A.charpoly.coeff 0), ?_, ?_, ?_⟩
  · rw [faddeev]
    simp only [show (ofM A).rows = n + 1 from rfl]
    rw [identity_ofM h hn, Outcome.bind_ret, Dense.new_spec h, Outcome.bind_ret, replicate_eq_tab,
      store_tab _ (by omega), Outcome.bind_ret, hq, store_tab _ (by omega), Outcome.bind_ret, h1, Outcome.bind_ret]
    simp only
    rw [h2, index_tab _ (by omega), Outcome.bind_ret, Nat.add_sub_cancel, h3, Outcome.bind_ret, hdet]
  · intro h0
    have hc : A.charpoly.coeff 0 ≠ 0 := by
      intro hc
      rw [hc, mul_zero] at hdet
      exact h0 hdet.symm
    have hz := Fad.Q_zero A
    set V : Matrix (Fin (n + 1)) (Fin (n + 1)) K := ((Fad.Q A 0).map (fun x => -x)).map (· / A.charpoly.coeff 0) with hV
    have hVs : V = (-(A.charpoly.coeff 0)⁻¹) • Fad.Q A 0 := by
      ext i j
      simp [hV, Matrix.smul_apply]
      field_simp
    have hAV : A * V = 1 := by
      have e : A * Fad.Q A 0 = -(A.charpoly.coeff 0 • (1 : Matrix (Fin (n + 1)) (Fin (n + 1)) K)) :=
        eq_neg_of_add_eq_zero_left hz
      rw [hVs, Matrix.mul_smul, e, smul_neg, neg_smul, neg_neg, smul_smul, inv_mul_cancel₀ hc, one_smul]
    have hback : toMat (n + 1) (fnOf V) = V := by ext i j; exact fnOf_fin V i j
    refine ⟨ofM V, fnOf V, ?_, is_ofM h V, ?_, ?_⟩
    · rw [fadInv, if_neg hc, Dense.neg, map_ofM h, Outcome.bind_ret, map_ofM h]
    · rw [hback]; exact hAV
    · rw [hback]; exact mul_eq_one_comm.1 hAV
  · intro h0
    rw [fadInv, if_pos]
    rw [h0] at hdet
    have : (-1 : K) ^ (n + 1) ≠ 0 := pow_ne_zero _ (by norm_num)
    exact (mul_eq_zero.1 hdet).resolve_left this

/-- **C142.**  A matrix without rows and a matrix that is not square are rejected. -/
theorem faddeev_reject (a : Dense K) (r c : ℕ) (f : ℕ → ℕ → K) (ha : Is a r c f) (hs : Shape r r) (h : r = 0 ∨ r ≠ c)
    (p0 : List K) : faddeev a p0 = .exn (.mml "MatrixDimensionError") := by
  obtain ⟨hsh, rfl⟩ := Dense.is_unique.1 ha
  by_cases hr : r = 0
  · subst hr
    rw [faddeev]
    simp [Dense.identity]
  · have hrc : r ≠ c := h.resolve_left hr
    obtain ⟨n, rfl⟩ : ∃ m, r = m + 1 := ⟨r - 1, by omega⟩
    obtain ⟨q, hq⟩ := setDegree_eq_tab p0 (n + 1)
    have hstep : ∀ s : List K, fadStep (ofFn (n + 1) c f) (ofM (1 : Matrix (Fin (n + 1)) (Fin (n + 1)) K)) (n + 1)
        (tab (n + 2) (fun k => if k = 0 then ofM (1 : Matrix (Fin (n + 1)) (Fin (n + 1)) K)
          else ofFn (n + 1) (n + 1) (fun _ _ => 0)), s) 0 = .exn (.mml "MatrixDimensionError") := by
      intro s
      rw [fadStep]
      simp only
      rw [index_tab _ (by omega), Outcome.bind_ret, if_pos rfl, Dense.mul,
        if_pos (by show c ≠ n + 1; omega), Outcome.bind_exn]
    have hloop : ∀ m s, forRange (m + 1) (tab (n + 2) (fun k => if k = 0 then ofM (1 : Matrix (Fin (n + 1)) (Fin (n + 1)) K)
          else ofFn (n + 1) (n + 1) (fun _ _ => 0)), s) (fadStep (ofFn (n + 1) c f) (ofM (1 : Matrix (Fin (n + 1)) (Fin (n + 1)) K)) (n + 1))
          = .exn (.mml "MatrixDimensionError") := by
      intro m s
      induction m with
      | zero => rw [forRange, forRange, Outcome.bind_ret, hstep]
      | succ m ih => rw [forRange, ih, Outcome.bind_exn]
    rw [faddeev]
    simp only [show (ofFn (n + 1) c f).rows = n + 1 from rfl]
    rw [identity_ofM hs (by omega), Outcome.bind_ret, Dense.new_spec hs, Outcome.bind_ret, replicate_eq_tab,
      store_tab _ (by omega), Outcome.bind_ret, hq, store_tab _ (by omega), Outcome.bind_ret, hloop, Outcome.bind_exn]

/-- A case of `faddeev_spec`: a `2 × 2` matrix with determinant `-2`. -/
example : faddeev (⟨2, 2, [1, 2, 3, 4]⟩ : Dense ℚ) [] =
    .ret ⟨[-2, -5, 1], -2, .ret ⟨2, 2, [-2, 1, 3 / 2, -1 / 2]⟩⟩ := by
  decide +kernel

example : Is (⟨2, 2, [1, 2, 3, 4]⟩ : Dense ℚ) 2 2 (fun i j => 2 * i + j + 1) := by
  refine ⟨⟨rfl, Or.inr (by decide)⟩, rfl, rfl, ?_⟩
  intro i hi j hj
  interval_cases i <;> interval_cases j <;> norm_num [Dense.get, Dense.idx, Outcome.index]

/-! ## Nilpotent and unipotent matrices -/

theorem nilLoop_ofM {n : ℕ} (h : Shape n n) (A : Matrix (Fin n) (Fin n) K) (eps : K) (k e : ℕ) :
    ∃ b, nilLoop (ofM A) eps k (ofM (A ^ e)) = .ret b ∧
      (b = true ↔ ∃ d, e < d ∧ d ≤ e + k ∧ ∀ i j, |(A ^ d) i j| ≤ eps) := by
  induction k generalizing e with
  | zero =>
    refine ⟨false, rfl, by simp; intro d h1 h2; omega⟩
  | succ k ih =>
    rw [nilLoop, mul_ofM h, Outcome.bind_ret, ← pow_succ']
    by_cases hz : (ofM (A ^ (e + 1))).isZero eps = true
    · rw [if_pos hz]
      exact ⟨true, rfl, by simpa using ⟨e + 1, by omega, by omega, (isZero_ofM h _ _).1 hz⟩⟩
    · rw [if_neg hz]
      obtain ⟨b, hb, hP⟩ := ih (e + 1)
      refine ⟨b, hb, hP.trans ⟨?_, ?_⟩⟩
      · rintro ⟨d, h1, h2, h3⟩
        exact ⟨d, by omega, by omega, h3⟩
      · rintro ⟨d, h1, h2, h3⟩
        by_cases hd : d = e + 1
        · subst hd
          exact absurd ((isZero_ofM h _ _).2 h3) hz
        · exact ⟨d, by omega, by omega, h3⟩

theorem uniLoop_ofM {n : ℕ} (h : Shape n n) (A : Matrix (Fin n) (Fin n) K) (eps : K) (k e : ℕ) :
    ∃ b, uniLoop (ofM A) eps k (ofM (A ^ e)) = .ret b ∧
      (b = true ↔ ∃ d, e ≤ d ∧ d ≤ e + k ∧ ∀ i j, |(A ^ d) i j| ≤ eps) := by
  induction k generalizing e with
  | zero =>
    refine ⟨_, rfl, (isZero_ofM h _ _).trans ⟨fun h => ⟨e, le_rfl, by omega, h⟩, ?_⟩⟩
    rintro ⟨d, h1, h2, h3⟩
    have : d = e := by omega
    subst this
    exact h3
  | succ k ih =>
    rw [uniLoop]
    by_cases hz : (ofM (A ^ e)).isZero eps = true
    · rw [if_pos hz]
      exact ⟨true, rfl, by simpa using ⟨e, by omega, by omega, (isZero_ofM h _ _).1 hz⟩⟩
    · rw [if_neg hz, mul_ofM h, Outcome.bind_ret, ← pow_succ']
      obtain ⟨b, hb, hP⟩ := ih (e + 1)
      refine ⟨b, hb, hP.trans ⟨?_, ?_⟩⟩
      · rintro ⟨d, h1, h2, h3⟩
        exact ⟨d, by omega, by omega, h3⟩
      · rintro ⟨d, h1, h2, h3⟩
        by_cases hd : d = e
        · subst hd
          exact absurd ((isZero_ofM h _ _).2 h3) hz
        · exact ⟨d, by omega, by omega, h3⟩

omit [LinearOrder K] in
/-- A nilpotent matrix is zero at the power of its dimension. -/
theorem pow_dim_of_nilpotent {n : ℕ} (A : Matrix (Fin n) (Fin n) K) (h : IsNilpotent A) : A ^ n = 0 := by
  have h1 := Matrix.isNilpotent_charpoly_sub_pow_of_isNilpotent h
  rw [isNilpotent_iff_eq_zero, sub_eq_zero, Fintype.card_fin] at h1
  have h2 := Matrix.aeval_self_charpoly A
  rwa [h1, map_pow, aeval_X] at h2

/-- **C142.**  What the two tests decide with a tolerance: whether one of the powers they form has no element
above it. -/
theorem nilpotent_tests (a : Dense K) (n : ℕ) (f : ℕ → ℕ → K) (ha : Is a n n f) (eps : K) :
    (∃ b, isNilpotent a eps = .ret b ∧
      (b = true ↔ ∃ d, 2 ≤ d ∧ d ≤ n ∧ ∀ i j, |(toMat n f ^ d) i j| ≤ eps)) ∧
    (0 < n → ∃ b, isUnipotent a eps = .ret b ∧
      (b = true ↔ ∃ d, 1 ≤ d ∧ d ≤ n ∧ ∀ i j, |((toMat n f - 1) ^ d) i j| ≤ eps)) := by
  obtain ⟨h, rfl⟩ := Dense.is_unique.1 ha
  rw [ofFn_eq_ofM]
  set A := toMat n f with hA
  constructor
  · rw [isNilpotent, if_neg (by simp [ofM])]
    obtain ⟨b, hb, hP⟩ := nilLoop_ofM h A eps (n - 1) 1
    rw [pow_one] at hb
    refine ⟨b, hb, hP.trans ⟨?_, ?_⟩⟩
    · rintro ⟨d, h1, h2, h3⟩; exact ⟨d, by omega, by omega, h3⟩
    · rintro ⟨d, h1, h2, h3⟩; exact ⟨d, by omega, by omega, h3⟩
  · intro hn
    rw [isUnipotent, if_neg (by simp [ofM])]
    simp only [show (ofM A).rows = n from rfl]
    rw [identity_ofM h hn, Outcome.bind_ret, Dense.sub, zip_ofM h, Outcome.bind_ret]
    have e : (Matrix.of fun i j => A i j - (1 : Matrix (Fin n) (Fin n) K) i j) = A - 1 := rfl
    rw [e]
    obtain ⟨b, hb, hP⟩ := uniLoop_ofM h (A - 1) eps (n - 1) 1
    rw [pow_one] at hb
    refine ⟨b, hb, hP.trans ⟨?_, ?_⟩⟩
    · rintro ⟨d, h1, h2, h3⟩; exact ⟨d, by omega, by omega, h3⟩
    · rintro ⟨d, h1, h2, h3⟩; exact ⟨d, by omega, by omega, h3⟩

/-- **C142.**  Every nilpotent matrix with at least two rows and every unipotent matrix is recognised, for every
tolerance that is not negative.  With the tolerance zero nothing else is. -/
theorem nilpotent_recognised [IsStrictOrderedRing K] (a : Dense K) (n : ℕ) (f : ℕ → ℕ → K) (ha : Is a n n f) (eps : K) (he : 0 ≤ eps) :
    (2 ≤ n → IsNilpotent (toMat n f) → isNilpotent a eps = .ret true) ∧
    (0 < n → IsNilpotent (toMat n f - 1) → isUnipotent a eps = .ret true) ∧
    (isNilpotent a 0 = .ret true → IsNilpotent (toMat n f)) ∧
    (0 < n → isUnipotent a 0 = .ret true → IsNilpotent (toMat n f - 1)) := by
  refine ⟨fun hn h => ?_, fun hn h => ?_, fun h => ?_, fun hn h => ?_⟩
  · obtain ⟨b, hb, hP⟩ := (nilpotent_tests a n f ha eps).1
    rw [hb, hP.2 ⟨n, hn, le_rfl, ?_⟩]
    rw [pow_dim_of_nilpotent _ h]
    exact fun i j => by simpa using he
  · obtain ⟨b, hb, hP⟩ := (nilpotent_tests a n f ha eps).2 hn
    rw [hb, hP.2 ⟨n, hn, le_rfl, ?_⟩]
    rw [pow_dim_of_nilpotent _ h]
    exact fun i j => by simpa using he
  · obtain ⟨b, hb, hP⟩ := (nilpotent_tests a n f ha 0).1
    rw [hb] at h
    obtain ⟨d, _, _, h3⟩ := hP.1 (Outcome.ret.inj h)
    exact ⟨d, by ext i j; simpa using h3 i j⟩
  · obtain ⟨b, hb, hP⟩ := (nilpotent_tests a n f ha 0).2 hn
    rw [hb] at h
    obtain ⟨d, _, _, h3⟩ := hP.1 (Outcome.ret.inj h)
    exact ⟨d, by ext i j; simpa using h3 i j⟩

/-- **C142.**  A matrix that is not square is rejected by both tests. -/
theorem nilpotent_reject (a : Dense K) (eps : K) (h : a.rows ≠ a.cols) :
    isNilpotent a eps = .exn (.mml "MatrixDimensionError") ∧
    isUnipotent a eps = .exn (.mml "MatrixDimensionError") := by
  simp [isNilpotent, isUnipotent, h]

/-- Cases of `nilpotent_recognised`: a strictly upper triangular matrix, and the identity plus it. -/
example : isNilpotent (⟨2, 2, [0, 5, 0, 0]⟩ : Dense ℚ) (1 / 10 ^ 10) = .ret true ∧
    isUnipotent (⟨2, 2, [1, 5, 0, 1]⟩ : Dense ℚ) (1 / 10 ^ 10) = .ret true ∧
    isNilpotent (⟨2, 2, [1, 5, 0, 1]⟩ : Dense ℚ) (1 / 10 ^ 10) = .ret false := by
  decide +kernel

/-- **C142, finding.**  The `1 × 1` zero matrix is nilpotent and is reported as not nilpotent, for every
tolerance: the loop never looks at the first power. -/
theorem one_by_one_missed (eps : ℚ) :
    isNilpotent (⟨1, 1, [0]⟩ : Dense ℚ) eps = .ret false ∧ IsNilpotent (toMat 1 (fun _ _ => (0 : ℚ))) := by
  refine ⟨rfl, 1, ?_⟩
  ext i j
  simp [toMat]

/-- **C142, finding.**  With the default tolerance the invertible matrix `10⁻⁶ I` is reported as nilpotent. -/
theorem small_invertible_nilpotent :
    isNilpotent (⟨2, 2, [1 / 10 ^ 6, 0, 0, 1 / 10 ^ 6]⟩ : Dense ℚ) (1 / 10 ^ 10) = .ret true := by
  decide +kernel

end Verif.Mat.Utils
