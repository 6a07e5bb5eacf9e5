import Verif.LinAlg.QRReduce

/-! # Helper lemmas: solving with a QR decomposition, and its two factors -/

set_option autoImplicit false

namespace Verif.LinAlg.QR

open Verif.Mat Finset

theorem back_spec {m n : ℕ} (hnm : n ≤ m) (f : ℕ → ℕ → ℝ) (c : List ℝ) (d : ℕ → ℝ) (sing : Bool) (refl : ℕ)
    (hd : ∀ t < n, d t ≠ 0) (y : ℕ → ℝ) :
    ∃ x : ℕ → ℝ, forDown 0 n (tab n y) (backStep ⟨Dense.ofFn m n f, c, tab n d, sing, refl⟩ n) = .ret (tab n x) ∧
      ∀ r < n, d r * x r + ∑ t ∈ Ico (r + 1) n, f r t * x t = y r := by
  obtain ⟨t, ht, x, rfl, _, h2⟩ := forDown_rule
    (fun i (v : List ℝ) => ∃ x : ℕ → ℝ, v = tab n x ∧ (∀ r < i, x r = y r) ∧
      ∀ r, i ≤ r → r < n → d r * x r + ∑ t ∈ Ico (r + 1) n, f r t * x t = y r)
    0 n (by omega) (tab n y) (backStep ⟨Dense.ofFn m n f, c, tab n d, sing, refl⟩ n)
    ⟨y, rfl, fun _ _ => rfl, fun r h1 h2 => by omega⟩
    (by
      rintro i _ _ hi ⟨x, rfl, h1, h2⟩
      refine ⟨_, by
        rw [backStep]
        simp only
        rw [index_tab _ hi, Outcome.bind_ret, forFromTo_sum (i + 1) n _ _ (fun j => - (f i j * x j)) (by
          intro j h4 h5 s
          rw [Dense.get_ofFn _ (by omega) (by omega), Outcome.bind_ret, index_tab _ (by omega), Outcome.bind_ret,
            sub_eq_add_neg]), Outcome.bind_ret, index_tab _ hi, Outcome.bind_ret, divU, if_neg (hd i hi),
          Outcome.bind_ret, store_tab _ hi], _, rfl, fun r hr => ?_, fun r hr hrn => ?_⟩
      · rw [if_neg (by omega)]; exact h1 r (by omega)
      · have hrest : ∑ c ∈ Ico (r + 1) n, f r c *
            (if c = i then (x i + ∑ j ∈ Ico (i + 1) n, -(f i j * x j)) / d i else x c) =
            ∑ c ∈ Ico (r + 1) n, f r c * x c := by
          refine sum_congr rfl fun c hc => ?_
          have := mem_Ico.1 hc
          rw [if_neg (by omega)]
        rw [hrest]
        by_cases hri : r = i
        · subst hri
          have := hd r hi
          rw [if_pos rfl, h1 r (by omega), sum_neg_distrib]
          field_simp
          ring
        · rw [if_neg hri]
          exact h2 r (by omega) hrn)
  exact ⟨x, ht, fun r hr => h2 r (by omega) hr⟩

theorem sum_R {n : ℕ} (f : ℕ → ℕ → ℝ) (d x : ℕ → ℝ) {r : ℕ} (hr : r < n) :
    ∑ j ∈ range n, x j * R f d j r = d r * x r + ∑ t ∈ Ico (r + 1) n, f r t * x t := by
  rw [← sum_range_add_sum_Ico _ (show r + 1 ≤ n by omega), sum_range_succ, sum_eq_zero, zero_add]
  · congr 1
    · rw [R, if_neg (by omega), if_pos rfl, mul_comm]
    · refine sum_congr rfl fun t ht => ?_
      have := mem_Ico.1 ht
      rw [R, if_pos (by omega), mul_comm]
  · intro t ht
    have := mem_range.1 ht
    rw [R, if_neg (by omega), if_neg (by omega), mul_zero]

theorem sum_R_out {n : ℕ} (f : ℕ → ℕ → ℝ) (d x : ℕ → ℝ) {r : ℕ} (hr : n ≤ r) :
    ∑ j ∈ range n, x j * R f d j r = 0 := by
  refine sum_eq_zero fun t ht => ?_
  have := mem_range.1 ht
  rw [R, if_neg (by omega), if_neg (by omega), mul_zero]

/-- A triangular system with nonzero diagonal has at most one solution. -/
theorem tri_unique {n : ℕ} (f : ℕ → ℕ → ℝ) (d : ℕ → ℝ) (hd : ∀ j < n, d j ≠ 0) (u : ℕ → ℝ)
    (h : ∀ r < n, ∑ j ∈ range n, u j * R f d j r = 0) : ∀ j < n, u j = 0 := by
  have key : ∀ k, ∀ j < n, n - j ≤ k → u j = 0 := by
    intro k
    induction k with
    | zero => intro j hj hk; omega
    | succ k ih =>
      intro j hj hk
      have e := h j hj
      rw [sum_R f d u hj, sum_eq_zero, add_zero] at e
      · exact (mul_eq_zero.1 e).resolve_left (hd j hj)
      · intro t ht
        have := mem_Ico.1 ht
        rw [ih t this.2 (by omega), mul_zero]
  exact fun j hj => key _ j hj le_rfl

variable {eps : ℝ} {m n : ℕ} {A : ℕ → ℕ → ℝ} {s : QR} {f : ℕ → ℕ → ℝ} {c d : ℕ → ℝ}

theorem Dec.rows (h : Dec eps m n A s f c d) : s.qr.rows = m := by rw [h.qr]; rfl

theorem Dec.cols (h : Dec eps m n A s f c d) : s.qr.cols = n := by rw [h.qr]; rfl

theorem Dec.eta (h : Dec eps m n A s f c d) : s = ⟨Dense.ofFn m n f, tab n c, tab n d, s.sing, s.refl⟩ := by
  obtain ⟨qr, sc, sd, sing, refl⟩ := s
  obtain ⟨rfl, rfl, rfl⟩ : qr = _ ∧ sc = _ ∧ sd = _ := ⟨h.qr, h.hc, h.hd⟩
  rfl

theorem Dec.qt (h : Dec eps m n A s f c d) (hnm : n ≤ m) (b : ℕ → ℝ) :
    qtMultiply s (tab m b) = .ret (tab m (Qt m (V f) c n b)) := by
  rw [qtMultiply, h.rows, h.cols, length_tab, if_neg (by simp), h.eta, qtLoop_eq hnm _ _ _ _ _ _ (ncols_le m n),
    Qt_stop (ncols_le m n) fun k hk _ => h.cz k hk]

theorem Dec.qm (h : Dec eps m n A s f c d) (hnm : n ≤ m) (b : ℕ → ℝ) :
    qMultiply s (tab m b) = .ret (tab m (Qm m (V f) c n b)) := by
  rw [qMultiply, h.rows, h.cols, length_tab, if_neg (by simp), h.eta, qmLoop_eq hnm _ _ _ _ _ _ (ncols_le m n),
    Qm_stop (ncols_le m n) fun k hk _ => h.cz k hk]

theorem Dec.rsolve (h : Dec eps m n A s f c d) (hnm : n ≤ m) (hs : s.sing = false) (hd : ∀ j < n, d j ≠ 0) (y : ℕ → ℝ) :
    ∃ x, rSolve s (tab n y) = .ret (tab n x) ∧ ∀ r < n, ∑ j ∈ range n, x j * R f d j r = y r := by
  obtain ⟨x, hx, hy⟩ := back_spec hnm f (tab n c) d s.sing s.refl hd y
  refine ⟨x, ?_, fun r hr => by rw [sum_R f d x hr, hy r hr]⟩
  rw [rSolve, h.cols, length_tab, if_neg (by simp), hs, if_neg (by simp), ← hx, ← h.eta]

/-- The sum of the squares of the residuals of `A x = b`. -/
noncomputable def resid (m n : ℕ) (A : ℕ → ℕ → ℝ) (b x : ℕ → ℝ) : ℝ :=
  ∑ i ∈ range m, (∑ j ∈ range n, A i j * x j - b i) ^ 2

theorem Dec.resid_eq (h : Dec eps m n A s f c d) (hnm : n ≤ m) (hs : s.sing = false) (b z : ℕ → ℝ) :
    resid m n A b z = ∑ i ∈ range n, (∑ j ∈ range n, z j * R f d j i - Qt m (V f) c n b i) ^ 2 +
      ∑ i ∈ Ico n m, (Qt m (V f) c n b i) ^ 2 := by
  have e1 : resid m n A b z = dot m (fun i => ∑ j ∈ range n, z j * (fun j i => A i j) j i - b i)
      (fun i => ∑ j ∈ range n, z j * (fun j i => A i j) j i - b i) := by
    refine sum_congr rfl fun i _ => ?_
    rw [sq]
    simp only [mul_comm]
  rw [e1, ← dot_Qt h.good le_rfl, Qt_sub, Qt_comb, dot, ← sum_range_add_sum_Ico _ hnm]
  have e2 : ∀ i < m, ∑ j ∈ range n, z j * Qt m (V f) c n (fun i => A i j) i = ∑ j ∈ range n, z j * R f d j i :=
    fun i hi => sum_congr rfl fun j hj => by rw [h.exact hs j (mem_range.1 hj) i hi]
  congr 1
  · refine sum_congr rfl fun i hi => ?_
    have := mem_range.1 hi
    beta_reduce
    rw [e2 i (by omega), sq]
  · refine sum_congr rfl fun i hi => ?_
    have := mem_Ico.1 hi
    beta_reduce
    rw [e2 i this.2, sum_R_out f d z this.1]
    ring

theorem Dec.min (h : Dec eps m n A s f c d) (hnm : n ≤ m) (hs : s.sing = false) (hd : ∀ j < n, d j ≠ 0) {b x : ℕ → ℝ}
    (hx : ∀ r < n, ∑ j ∈ range n, x j * R f d j r = Qt m (V f) c n b r) (z : ℕ → ℝ) :
    resid m n A b x ≤ resid m n A b z ∧ (resid m n A b z = resid m n A b x → ∀ j < n, z j = x j) := by
  rw [h.resid_eq hnm hs, h.resid_eq hnm hs, sum_eq_zero (s := range n)
    (f := fun i => (∑ j ∈ range n, x j * R f d j i - Qt m (V f) c n b i) ^ 2)
    (fun i hi => by rw [hx i (mem_range.1 hi), sub_self]; ring)]
  have h0 : 0 ≤ ∑ i ∈ range n, (∑ j ∈ range n, z j * R f d j i - Qt m (V f) c n b i) ^ 2 :=
    sum_nonneg fun i _ => sq_nonneg _
  refine ⟨by linarith, fun he j hj => ?_⟩
  have hz : ∑ i ∈ range n, (∑ j ∈ range n, z j * R f d j i - Qt m (V f) c n b i) ^ 2 = 0 := by linarith
  rw [sum_eq_zero_iff_of_nonneg fun i _ => sq_nonneg _] at hz
  have := tri_unique f d hd (fun j => z j - x j) (fun r hr => by
    have h1 := hz r (mem_range.2 hr)
    have h2 := pow_eq_zero_iff (two_ne_zero) |>.1 h1
    simp only [sub_mul, sum_sub_distrib]
    rw [hx r hr]
    exact h2) j hj
  linarith

theorem Dec.zero_resid (h : Dec eps n n A s f c d) (hs : s.sing = false) {b x : ℕ → ℝ}
    (hx : ∀ r < n, ∑ j ∈ range n, x j * R f d j r = Qt n (V f) c n b r) : ∀ i < n, ∑ j ∈ range n, A i j * x j = b i := by
  have h1 := h.resid_eq le_rfl hs b x
  rw [sum_eq_zero (s := range n) (f := fun i => (∑ j ∈ range n, x j * R f d j i - Qt n (V f) c n b i) ^ 2)
    (fun i hi => by rw [hx i (mem_range.1 hi), sub_self]; ring), Ico_self, sum_empty, add_zero, resid,
    sum_eq_zero_iff_of_nonneg fun i _ => sq_nonneg _] at h1
  intro i hi
  have := pow_eq_zero_iff (two_ne_zero) |>.1 (h1 i (mem_range.2 hi))
  linarith

/-! ## The factors -/

theorem Dec.getR (h : Dec eps m n A s f c d) (hsh : Dense.Shape n n) (hnm : n ≤ m) :
    QR.getR s = .ret (Dense.ofFn n n fun i j => R f d j i) := by
  rw [QR.getR, h.cols, Dense.new_spec hsh, Outcome.bind_ret,
    Dense.forRange_row n (fun _ _ => (0 : ℝ)) (fun i j => R f d j i) le_rfl]
  · congr 1
    exact Dense.ofFn_congr fun i hi j _ => by rw [if_pos hi]
  · intro i hi g _
    rw [Dense.forRange_cols n i g (fun j => R f d j i) hi le_rfl]
    · congr 1
      refine Dense.ofFn_congr fun p _ q hq => ?_
      rw [if_pos hq]
    · intro j hj g'
      rw [R, h.qr, h.hd]
      by_cases hij : i ≤ j
      · rw [if_pos hij]
        by_cases he : i = j
        · subst he
          rw [if_pos rfl, index_tab _ hi, Outcome.bind_ret, if_neg (by omega), if_pos rfl]
        · rw [if_neg he, Dense.get_ofFn _ (by omega) hj, Outcome.bind_ret, if_pos (by omega)]
      · rw [if_neg hij, if_neg (by omega), if_neg (by omega)]

theorem qCol_eq {m n : ℕ} (f : ℕ → ℕ → ℝ) (c d : List ℝ) (sing : Bool) (refl : ℕ) (q : ℕ → ℕ → ℝ) {k j : ℕ} (hk : k < n)
    (hkm : k ≤ m) (hj : j < n) (ck : ℝ) :
    qCol ⟨Dense.ofFn m n f, c, d, sing, refl⟩ m k ck (Dense.ofFn m n q) j =
      .ret (Dense.ofFn m n fun p t => if t = j then house m (V f k) ck (fun i => q i j) p else q p t) := by
  rw [qCol]
  simp only
  rw [forFromTo_sum k m _ _ (fun i => f i k * q i j), zero_add, sum_V f hkm (fun i => q i j), Outcome.bind_ret,
    forFromTo_col le_rfl q (fun p => q p j - dot m (V f k) (fun i => q i j) / ck * f p k)]
  · congr 1
    refine Dense.ofFn_congr fun p hp t _ => ?_
    by_cases hq : t = j
    · subst hq
      by_cases hkp : k ≤ p
      · rw [if_pos ⟨rfl, hkp, hp⟩, if_pos rfl, house, V, if_pos hkp]
      · rw [if_neg (by tauto), if_pos rfl, house, V, if_neg hkp]; ring
    · rw [if_neg (by tauto), if_neg hq]
  · intro i hi1 hi2 g hg hg'
    rw [Dense.get_ofFn _ hi2 hj, Outcome.bind_ret, Dense.get_ofFn _ hi2 hk, Outcome.bind_ret, Dense.set_ofFn _ hi2 hj, hg]
  · intro i _ hi s
    rw [Dense.get_ofFn _ hi hk, Outcome.bind_ret, Dense.get_ofFn _ hi hj, Outcome.bind_ret]

theorem qStep_eq {m n : ℕ} (f : ℕ → ℕ → ℝ) (c : ℕ → ℝ) (d : List ℝ) (sing : Bool) (refl : ℕ) (q : ℕ → ℕ → ℝ) {k : ℕ}
    (hk : k < n) (hkm : k ≤ m) :
    qStep ⟨Dense.ofFn m n f, tab n c, d, sing, refl⟩ (Dense.ofFn m n q) k =
      .ret (Dense.ofFn m n fun p t => H m (V f) c k (fun i => q i t) p) := by
  rw [qStep]
  simp only
  rw [index_tab _ hk, Outcome.bind_ret]
  by_cases hc : c k ≠ 0
  · rw [if_pos hc]
    have e1 : (Dense.ofFn m n f).cols = n := rfl
    have e2 : (Dense.ofFn m n f).rows = m := rfl
    rw [e1, e2]
    obtain ⟨t, ht, hP⟩ := forRange_rule
      (fun j v => v = Dense.ofFn m n (fun p t => if t < j then house m (V f k) (c k) (fun i => q i t) p else q p t))
      n (Dense.ofFn m n q) (qCol ⟨Dense.ofFn m n f, tab n c, d, sing, refl⟩ m k (c k))
      (Dense.ofFn_congr fun i _ k _ => by rw [if_neg (by omega)])
      (by
        rintro j v hj rfl
        refine ⟨_, qCol_eq f _ d sing refl _ hk hkm hj (c k), Dense.ofFn_congr fun p _ t _ => ?_⟩
        have e2 : (fun i => if j < j then house m (V f k) (c k) (fun i => q i j) i else q i j) = fun i => q i j := by
          funext i
          rw [if_neg (by omega)]
        rw [e2]
        by_cases ht : t = j
        · subst ht; rw [if_pos rfl, if_pos (by omega)]
        · rw [if_neg ht]
          by_cases h2 : t < j
          · rw [if_pos h2, if_pos (by omega)]
          · rw [if_neg h2, if_neg (by omega)])
    rw [ht, hP]
    congr 1
    refine Dense.ofFn_congr fun p _ t ht => ?_
    rw [if_pos ht, H, if_pos hc]
  · rw [if_neg hc]
    congr 1
    refine Dense.ofFn_congr fun p _ t ht => ?_
    rw [H, if_neg hc]

/-- The unit vector. -/
def unit (j i : ℕ) : ℝ := if i = j then 1 else 0

theorem Dec.getQ (h : Dec eps m n A s f c d) (hsh : Dense.Shape m n) (hnm : n ≤ m) :
    QR.getQ s = .ret (Dense.ofFn m n fun i j => Qm m (V f) c n (unit j) i) := by
  rw [QR.getQ, h.cols, h.rows, Dense.new_spec hsh, Outcome.bind_ret,
    Dense.forRange_row m (fun _ _ => (0 : ℝ)) (fun i j => unit j i) le_rfl, Outcome.bind_ret]
  · have e0 : Dense.ofFn m n (fun i j => if i < m then unit j i else 0) = Dense.ofFn m n fun i j => unit j i :=
      Dense.ofFn_congr fun i hi j _ => by rw [if_pos hi]
    rw [e0, h.eta]
    obtain ⟨t, ht, g, rfl, hg⟩ := forDown_rule
      (fun k v => ∃ g : ℕ → ℕ → ℝ, v = Dense.ofFn m n g ∧
        ∀ j < n, Qm m (V f) c k (fun i => g i j) = Qm m (V f) c n (unit j))
      0 n (by omega) (Dense.ofFn m n fun i j => unit j i) (qStep ⟨Dense.ofFn m n f, tab n c, tab n d, s.sing, s.refl⟩)
      ⟨_, rfl, fun j _ => rfl⟩
      (by
        rintro k _ _ hk ⟨g, rfl, hg⟩
        exact ⟨_, qStep_eq f c _ _ _ g hk (by omega), _, rfl, fun j hj => hg j hj⟩)
    rw [ht]
    congr 1
    exact Dense.ofFn_congr fun i _ j hj => congrFun (hg j hj) i
  · intro i hi g _
    rw [Dense.forRange_cols n i g (fun j => unit j i) hi le_rfl (fun q j => q.set i j (if i = j then 1 else 0))
      (fun j _ g' => rfl)]
    congr 1
    refine Dense.ofFn_congr fun p _ q hq => ?_
    rw [if_pos hq]

theorem dot_unit {m : ℕ} {j k : ℕ} (hj : j < m) : dot m (unit j) (unit k) = if j = k then 1 else 0 := by
  rw [dot, sum_eq_single j]
  · simp only [unit, if_true, one_mul]
  · intro i _ h
    rw [unit, if_neg h, zero_mul]
  · intro h
    exact absurd (mem_range.2 hj) h

theorem Dec.prod (h : Dec eps m n A s f c d) {j : ℕ} (hj : j < n) (i : ℕ) (hi : i < m) :
    ∑ t ∈ range n, Qm m (V f) c n (unit t) i * R f d j t = Qm m (V f) c n (R f d j) i := by
  have e : ∀ i < m, R f d j i = ∑ t ∈ range n, R f d j t * unit t i := by
    intro i _
    by_cases hin : i < n
    · rw [sum_eq_single i]
      · rw [unit, if_pos rfl, mul_one]
      · intro t _ ht
        rw [unit, if_neg (fun h => ht h.symm), mul_zero]
      · intro h; exact absurd (mem_range.2 hin) h
    · rw [sum_eq_zero, R, if_neg (by omega), if_neg (by omega)]
      intro t ht
      have := mem_range.1 ht
      rw [unit, if_neg (by omega), mul_zero]
  rw [Qm_congr n e i hi, Qm_comb]
  exact sum_congr rfl fun t _ => mul_comm _ _

theorem Dec.det (h : Dec eps n n A s f c d) (hn : 0 < n) (hs : s.sing = false) :
    QR.det s = .ret (Matrix.of fun i j : Fin n => A i j).det := by
  have hL : ncols n n = n - 1 := by rw [ncols, if_pos rfl]
  obtain ⟨hr, hc⟩ := h.refl hs
  have hprod : forRange n (1 : ℝ) (fun dd i => do
      let x ← Outcome.index s.d i
      Outcome.ret (dd * x)) = .ret (∏ i ∈ range n, d i) := by
    obtain ⟨t, ht, hP⟩ := forRange_rule (fun i (t : ℝ) => t = ∏ i ∈ range i, d i) n (1 : ℝ) (fun dd i => do
      let x ← Outcome.index s.d i
      Outcome.ret (dd * x)) (by simp)
      (by
        rintro i _ hi rfl
        exact ⟨_, by rw [h.hd, index_tab _ hi, Outcome.bind_ret], by rw [prod_range_succ]⟩)
    rw [ht, hP]
  have hdet := det_Qt (n := n) (h.good) (ncols_le n n) hc (fun j i => A i j)
  have hR : (Matrix.of fun i j : Fin n => Qt n (V f) c (ncols n n) (fun i => A i j) i).det = ∏ i ∈ range n, d i := by
    have e : (Matrix.of fun i j : Fin n => Qt n (V f) c (ncols n n) (fun i => A i j) i) =
        Matrix.of fun i j : Fin n => R f d j i := by
      ext i j
      rw [Matrix.of_apply, Matrix.of_apply, ← Qt_stop (ncols_le n n) (fun k hk _ => h.cz k hk),
        h.exact hs j j.2 i i.2]
    rw [e, Matrix.det_of_upperTriangular]
    · rw [← Fin.prod_univ_eq_prod_range (fun i => d i) n]
      refine prod_congr rfl fun i _ => ?_
      rw [Matrix.of_apply, R, if_neg (by omega), if_pos rfl]
    · intro i j hij
      have : (j : ℕ) < i := hij
      rw [Matrix.of_apply, R, if_neg (by omega), if_neg (by omega)]
  rw [hR] at hdet
  rw [QR.det, h.rows, h.cols, if_neg (by simp), hs, if_neg (by simp), hprod, Outcome.bind_ret, hdet, hr]
  congr 1
  rcases Nat.even_or_odd (ncols n n) with he | ho
  · rw [if_neg (by rw [Nat.even_iff.1 he]; omega), he.neg_one_pow, one_mul]
  · rw [if_pos (Nat.odd_iff.1 ho), ho.neg_one_pow]
    ring

end Verif.LinAlg.QR
