import Verif.Interp.CurveModel
import Verif.Interp.BicubicProps

/-!
# C87: curves through points, with straight segments
-/

set_option autoImplicit false

namespace Verif.Interp

open Verif Finset

/-- The distance of two points in space with `N` dimensions. -/
noncomputable def pointDist (N : ℕ) (p q : ℕ → ℝ) : ℝ := Real.sqrt (∑ j ∈ range N, (p j - q j) ^ 2)

/-- The length of the path along the points up to point `i`. -/
noncomputable def pathLen (N : ℕ) (P : ℕ → ℕ → ℝ) (i : ℕ) : ℝ := ∑ k ∈ range i, pointDist N (P (k + 1)) (P k)

theorem pointDist_nonneg (N : ℕ) (p q : ℕ → ℝ) : 0 ≤ pointDist N p q := Real.sqrt_nonneg _

theorem abs_le_pointDist {N : ℕ} (p q : ℕ → ℝ) {j : ℕ} (hj : j < N) : |p j - q j| ≤ pointDist N p q := by
  rw [pointDist, ← Real.sqrt_sq_eq_abs]
  exact Real.sqrt_le_sqrt (single_le_sum (f := fun j => (p j - q j) ^ 2) (fun _ _ => sq_nonneg _) (mem_range.mpr hj))

theorem rowDist_eq {np c : ℕ} (N : ℕ) (hN : N ≤ c) (P : ℕ → ℕ → ℝ) {i k : ℕ} (hi : i < np) (hk : k < np) :
    rowDist N (Mat.Dense.ofFn np c P) i k = .ret (pointDist N (P i) (P k)) := by
  rw [rowDist, forRange_sum N 0 _ (fun j => (P i j - P k j) ^ 2) (fun j hj s => by
    rw [sqDiffStep, Mat.Dense.get_ofFn P hi (by omega), Outcome.bind_ret, Mat.Dense.get_ofFn P hk (by omega), Outcome.bind_ret]),
    Outcome.bind_ret, zero_add]
  rfl

section

variable {np c N : ℕ} {P : ℕ → ℕ → ℝ}

/-- The divisor. -/
noncomputable def divisor (L : ℝ) : ℝ := if L > 0 then L else 1

theorem linCurve_new (hnp : 1 ≤ np) (hN : N ≤ c) (close : Bool) :
    LinCurve.new N (Mat.Dense.ofFn np c P) close =
      .ret ⟨Mat.Dense.ofFn np c P, tab np fun i => pathLen N P i / divisor (pathLen N P (np - 1)), close⟩ := by
  have h0 : Outcome.store (List.replicate np (0 : ℝ)) 0 0 = .ret (tab np fun _ => 0) := by
    rw [replicate_eq_tab, store_tab _ (by omega)]
    exact congrArg _ (tab_congr fun k _ => by split <;> rfl)
  obtain ⟨st, h1, h2⟩ := forFromTo_rule
    (fun i (st : ℝ × List ℝ) => st = (pathLen N P (i - 1), tab np fun k => if k < i then pathLen N P k else 0)) 1 np hnp
    (0, tab np fun _ => 0) (arcStep N (Mat.Dense.ofFn np c P))
    (by
      refine Prod.ext (by simp [pathLen]) (tab_congr fun k _ => ?_)
      by_cases hk : k < 1
      · rw [if_pos hk, show k = 0 by omega]
        simp [pathLen]
      · rw [if_neg hk])
    (by
      rintro i _ hi1 hi2 rfl
      have e : pathLen N P (i - 1) + pointDist N (P i) (P (i - 1)) = pathLen N P i := by
        conv_rhs => rw [show i = i - 1 + 1 by omega, pathLen, sum_range_succ]
        rw [show i - 1 + 1 = i by omega]
        rfl
      refine ⟨_, by
        rw [arcStep, rowDist_eq N hN P hi2 (by omega), Outcome.bind_ret, store_tab _ hi2, Outcome.bind_ret], ?_⟩
      dsimp only
      rw [e]
      refine Prod.ext (by rw [Nat.add_sub_cancel]) (tab_congr fun k _ => ?_)
      by_cases hk : k = i
      · rw [if_pos hk, if_pos (by omega), hk]
      · rw [if_neg hk]
        by_cases hk2 : k < i
        · rw [if_pos hk2, if_pos (by omega)]
        · rw [if_neg hk2, if_neg (by omega)])
  rw [LinCurve.new, Mat.Dense.ofFn_rows, h0, Outcome.bind_ret, h1, Outcome.bind_ret, h2]
  have hnorm : ∀ k ≤ np, forRange k (tab np fun k => if k < np then pathLen N P k else 0) (arcNormStep (pathLen N P (np - 1))) =
      .ret (tab np fun i => if i < k then pathLen N P i / divisor (pathLen N P (np - 1)) else pathLen N P i) := by
    intro k
    induction k with
    | zero => intro _; rw [forRange]; exact congrArg _ (tab_congr fun i hi => by rw [if_pos hi, if_neg (by omega)])
    | succ k ih =>
      intro hk
      rw [forRange, ih (by omega), Outcome.bind_ret, arcNormStep, index_tab _ (by omega), Outcome.bind_ret, store_tab _ (by omega),
        if_neg (lt_irrefl k)]
      refine congrArg _ (tab_congr fun i _ => ?_)
      by_cases hi : i = k
      · rw [if_pos hi, hi, if_pos (Nat.lt_succ_self k)]
        rfl
      · rw [if_neg hi]
        by_cases hi2 : i < k
        · rw [if_pos hi2, if_pos (by omega)]
        · rw [if_neg hi2, if_neg (by omega)]
  dsimp only
  rw [hnorm np le_rfl, Outcome.bind_ret]
  have e : (tab np fun i => if i < np then pathLen N P i / divisor (pathLen N P (np - 1)) else pathLen N P i) =
      tab np fun i => pathLen N P i / divisor (pathLen N P (np - 1)) := tab_congr fun i hi => by rw [if_pos hi]
  rw [e]

theorem pathLen_mono {i k : ℕ} (h : i ≤ k) : pathLen N P i ≤ pathLen N P k :=
  sum_le_sum_of_subset_of_nonneg (range_subset_range.mpr h) fun _ _ _ => pointDist_nonneg _ _ _

theorem pathLen_dist {i k j : ℕ} (h : i ≤ k) (hj : j < N) : |P k j - P i j| ≤ pathLen N P k - pathLen N P i := by
  induction k, h using Nat.le_induction with
  | base => simp
  | succ k hk ih =>
    have e : pathLen N P (k + 1) = pathLen N P k + pointDist N (P (k + 1)) (P k) := by rw [pathLen, sum_range_succ]; rfl
    have h1 := abs_le_pointDist (P (k + 1)) (P k) hj
    have h2 := abs_add_le (P (k + 1) j - P k j) (P k j - P i j)
    rw [show P (k + 1) j - P k j + (P k j - P i j) = P (k + 1) j - P i j by ring] at h2
    linarith

/-- The point at the fraction `α` of segment `i` lies at the length `s` of the path. -/
structure AtLen (N : ℕ) (P : ℕ → ℕ → ℝ) (i : ℕ) (α s : ℝ) (v : ℕ → ℝ) : Prop where
  nonneg : 0 ≤ α
  le_one : α ≤ 1
  len : s = pathLen N P i + α * pointDist N (P (i + 1)) (P i)
  point : ∀ j < N, v j = P i j + α * (P (i + 1) j - P i j)

theorem AtLen.near {i : ℕ} {α s : ℝ} {v : ℕ → ℝ} (h : AtLen N P i α s v) {j : ℕ} (hj : j < N) :
    |v j - P i j| ≤ s - pathLen N P i ∧ |P (i + 1) j - v j| ≤ pathLen N P (i + 1) - s ∧ pathLen N P i ≤ s ∧ s ≤ pathLen N P (i + 1) := by
  have e : pathLen N P (i + 1) = pathLen N P i + pointDist N (P (i + 1)) (P i) := by rw [pathLen, sum_range_succ]; rfl
  have h1 := abs_le_pointDist (P (i + 1)) (P i) hj
  have h0 := pointDist_nonneg N (P (i + 1)) (P i)
  have h2 := h.nonneg
  have h3 := h.le_one
  have h4 := h.len
  rw [h.point j hj, e, h4]
  refine ⟨?_, ?_, ?_, ?_⟩
  · rw [show P i j + α * (P (i + 1) j - P i j) - P i j = α * (P (i + 1) j - P i j) by ring, abs_mul, abs_of_nonneg h2]
    have := mul_le_mul_of_nonneg_left h1 h2
    linarith
  · rw [show P (i + 1) j - (P i j + α * (P (i + 1) j - P i j)) = (1 - α) * (P (i + 1) j - P i j) by ring, abs_mul,
      abs_of_nonneg (by linarith : 0 ≤ 1 - α)]
    have := mul_le_mul_of_nonneg_left h1 (by linarith : 0 ≤ 1 - α)
    linarith
  · have := mul_nonneg h2 h0
    linarith
  · have := mul_le_mul_of_nonneg_right h3 h0
    linarith

theorem AtLen.lipschitz {i k : ℕ} {α β s t : ℝ} {v w : ℕ → ℝ} (h : AtLen N P i α s v) (h' : AtLen N P k β t w) (hst : s ≤ t) {j : ℕ} (hj : j < N) :
    |w j - v j| ≤ t - s := by
  obtain ⟨a1, a2, a3, a4⟩ := h.near hj
  obtain ⟨b1, b2, b3, b4⟩ := h'.near hj
  rcases Nat.lt_trichotomy i k with hlt | rfl | hgt
  · have c1 := pathLen_dist (N := N) (P := P) (show i + 1 ≤ k by omega) hj
    have d1 := abs_add_le (w j - P k j) (P k j - P (i + 1) j)
    have d2 := abs_add_le (w j - P k j + (P k j - P (i + 1) j)) (P (i + 1) j - v j)
    rw [show w j - P k j + (P k j - P (i + 1) j) + (P (i + 1) j - v j) = w j - v j by ring] at d2
    linarith
  · have h0 := pointDist_nonneg N (P (i + 1)) (P i)
    have hl := h.len
    have hl' := h'.len
    have h1 := abs_le_pointDist (P (i + 1)) (P i) hj
    rw [h.point j hj, h'.point j hj, show P i j + β * (P (i + 1) j - P i j) - (P i j + α * (P (i + 1) j - P i j)) = (β - α) * (P (i + 1) j - P i j) by ring, abs_mul]
    rcases eq_or_lt_of_le h0 with h00 | h00
    · have : |P (i + 1) j - P i j| = 0 := le_antisymm (by linarith) (abs_nonneg _)
      rw [this, mul_zero]
      linarith
    · have hab : α ≤ β := by
        by_contra hc
        have := mul_lt_mul_of_pos_right (lt_of_not_ge hc) h00
        linarith
      rw [abs_of_nonneg (by linarith : 0 ≤ β - α)]
      have := mul_le_mul_of_nonneg_left h1 (by linarith : 0 ≤ β - α)
      linarith
  · have c1 := pathLen_dist (N := N) (P := P) (show k + 1 ≤ i by omega) hj
    have d1 := abs_add_le (v j - P i j) (P i j - P (k + 1) j)
    have d2 := abs_add_le (v j - P i j + (P i j - P (k + 1) j)) (P (k + 1) j - w j)
    rw [show v j - P i j + (P i j - P (k + 1) j) + (P (k + 1) j - w j) = -(w j - v j) by ring, abs_neg] at d2
    linarith

/-- An evaluation finds the point of the path. -/
theorem linCurve_core (hnp : 2 ≤ np) (hN : N ≤ c) (hpos : 0 < pathLen N P (np - 1)) (f : LinCurve)
    (hp : f.points = Mat.Dense.ofFn np c P) (ha : f.arc = tab np fun i => pathLen N P i / divisor (pathLen N P (np - 1))) (t : ℝ)
    (h0 : 0 ≤ f.param t) (h1 : f.param t ≤ 1) :
    ∃ i α v, i + 1 < np ∧ f.eval N t = .ret (tab N v) ∧ AtLen N P i α (f.param t * pathLen N P (np - 1)) v := by
  generalize hu : f.param t = u at *
  have hd : divisor (pathLen N P (np - 1)) = pathLen N P (np - 1) := if_pos hpos
  rw [hd] at ha
  generalize hL : pathLen N P (np - 1) = L at *
  obtain ⟨i, hi, ⟨hi2, hi3⟩, hi4⟩ := whileFuel_rule (segmentStep f.arc np u) (fun i => i + 2 ≤ np ∧ (i = 0 ∨ pathLen N P i < u * L))
    (fun i => np - i) (by
      rintro i i' ⟨hi, _⟩ hs
      rw [segmentStep] at hs
      split_ifs at hs with hc
      cases hs
      have : f.arc.getD (i + 1) 0 = pathLen N P (i + 1) / L := by rw [ha, getD_tab _ _ _ (by omega)]
      rw [this, gt_iff_lt, div_lt_iff₀ hpos] at hc
      exact ⟨⟨by omega, Or.inr hc.2⟩, by omega⟩) (np + 1) 0 ⟨hnp, Or.inl rfl⟩ (by omega)
  have lo : pathLen N P i ≤ u * L := by
    rcases hi3 with rfl | h
    · simp only [pathLen, range_zero, sum_empty]
      positivity
    · exact h.le
  have hi5 : u * L ≤ pathLen N P (i + 1) := by
    rw [segmentStep] at hi4
    split_ifs at hi4 with hc
    by_cases h2 : i < np - 2
    · have : ¬ u > f.arc.getD (i + 1) 0 := fun h => hc ⟨h2, h⟩
      rw [ha, getD_tab _ _ _ (by omega), gt_iff_lt, div_lt_iff₀ hpos, not_lt] at this
      exact this
    · rw [show i + 1 = np - 1 by omega, hL]
      nlinarith
  have e : pathLen N P (i + 1) = pathLen N P i + pointDist N (P (i + 1)) (P i) := by rw [pathLen, sum_range_succ]; rfl
  have hseg : f.eval N t = f.onSegment N i u := by
    rw [LinCurve.eval, hp, Mat.Dense.ofFn_rows, hu, hi]
  have key : ∀ α, (if pathLen N P (i + 1) / L - pathLen N P i / L > 0 then (u - pathLen N P i / L) / (pathLen N P (i + 1) / L - pathLen N P i / L) else 0) = α →
      f.onSegment N i u = .ret (tab N fun j => (1 - α) * P i j + α * P (i + 1) j) := by
    rintro α rfl
    rw [LinCurve.onSegment, ha, index_tab _ (by omega), Outcome.bind_ret, index_tab _ (by omega), Outcome.bind_ret, hp]
    exact fill_values N _ _ fun j hj r => by
      rw [lerpStep, Mat.Dense.get_ofFn P (by omega) (by omega), Outcome.bind_ret, Mat.Dense.get_ofFn P (by omega) (by omega), Outcome.bind_ret]
  have h00 := pointDist_nonneg N (P (i + 1)) (P i)
  refine ⟨i, (if pathLen N P (i + 1) / L - pathLen N P i / L > 0 then (u - pathLen N P i / L) / (pathLen N P (i + 1) / L - pathLen N P i / L) else 0),
    _, by omega, hseg.trans (key _ rfl), ?_⟩
  rcases eq_or_lt_of_le h00 with hz | hz
  · have : ¬ pathLen N P (i + 1) / L - pathLen N P i / L > 0 := by rw [e, ← hz, add_zero, sub_self]; exact lt_irrefl _
    rw [if_neg this]
    refine ⟨le_rfl, by norm_num, ?_, fun j _ => by ring⟩
    rw [zero_mul, add_zero]
    linarith
  · have hq : pathLen N P (i + 1) / L - pathLen N P i / L = pointDist N (P (i + 1)) (P i) / L := by rw [e]; ring
    have hqp : 0 < pointDist N (P (i + 1)) (P i) / L := div_pos hz hpos
    rw [hq, if_pos hqp]
    have hL0 : L ≠ 0 := hpos.ne'
    have hz0 := hz.ne'
    have ev : (u - pathLen N P i / L) / (pointDist N (P (i + 1)) (P i) / L) = (u * L - pathLen N P i) / pointDist N (P (i + 1)) (P i) := by
      field_simp
    rw [ev]
    refine ⟨div_nonneg (by linarith) h00, ?_, ?_, fun j _ => by ring⟩
    · rw [div_le_one hz]
      linarith
    · field_simp
      ring

end

/-- C87, linear: for at least two points, not all equal, every parameter gives a point; the point at the fraction `α` of the segment from
point `i` to the next is reached at the parameter equal to the length of the path up to it divided by the length of the whole; parameters
are clamped to `[0, 1]`; and no coordinate changes by more than the change of the parameter times the length of the path. -/
theorem linCurve_spec (np c N : ℕ) (hnp : 2 ≤ np) (hN : N ≤ c) (P : ℕ → ℕ → ℝ) (hpos : 0 < pathLen N P (np - 1)) :
    ∃ f, LinCurve.new N (Mat.Dense.ofFn np c P) false = .ret f ∧ ∃ F : ℝ → ℕ → ℝ, (∀ t, f.eval N t = .ret (tab N (F t))) ∧
      (∀ i α, i + 1 < np → 0 ≤ α → α ≤ 1 → ∀ j < N,
        F ((pathLen N P i + α * pointDist N (P (i + 1)) (P i)) / pathLen N P (np - 1)) j = P i j + α * (P (i + 1) j - P i j)) ∧
      (∀ t ≤ 0, ∀ j < N, F t j = P 0 j) ∧ (∀ t ≥ 1, ∀ j < N, F t j = P (np - 1) j) ∧
      ∀ s t, ∀ j < N, |F t j - F s j| ≤ pathLen N P (np - 1) * |t - s| := by
  have hnew := linCurve_new (P := P) (show 1 ≤ np by omega) hN false
  refine ⟨_, hnew, ?_⟩
  generalize hf : (⟨Mat.Dense.ofFn np c P, tab np fun i => pathLen N P i / divisor (pathLen N P (np - 1)), false⟩ : LinCurve) = f
  have hc : f.closed = false := by rw [← hf]
  have hpar : ∀ t, f.param t = max 0 (min 1 t) := by
    intro t
    rw [LinCurve.param, hc]
    simp only [Bool.false_eq_true, if_false]
    split_ifs with h1 h2 h2
    · norm_num at h2
    · rw [min_eq_right (by linarith), max_eq_left h1]
    · rw [min_eq_left h2, max_eq_right zero_le_one]
    · rw [min_eq_right (by linarith), max_eq_right (by linarith)]
  have core := fun t => linCurve_core hnp hN hpos f (by rw [← hf]) (by rw [← hf]) t (by rw [hpar]; exact le_max_left _ _)
    (by rw [hpar]; exact max_le zero_le_one (min_le_left _ _))
  choose seg al F hseg hF hat using core
  set L := pathLen N P (np - 1) with hLdef
  have pin : ∀ i α t, 0 ≤ α → α ≤ 1 → f.param t * L = pathLen N P i + α * pointDist N (P (i + 1)) (P i) → ∀ j < N,
      F t j = P i j + α * (P (i + 1) j - P i j) := by
    intro i α t h0 h1 ht j hj
    have hb : AtLen N P i α (f.param t * L) fun j => P i j + α * (P (i + 1) j - P i j) := ⟨h0, h1, ht, fun _ _ => rfl⟩
    have := (hb.lipschitz (hat t) le_rfl hj)
    rw [sub_self] at this
    exact sub_eq_zero.mp (abs_nonpos_iff.mp this)
  have succ : ∀ i, pathLen N P (i + 1) = pathLen N P i + pointDist N (P (i + 1)) (P i) := fun i => by rw [pathLen, sum_range_succ]; rfl
  have z0 : pathLen N P 0 = 0 := by simp [pathLen]
  refine ⟨F, hF, ?_, ?_, ?_, ?_⟩
  · intro i α hi h0 h1 j hj
    have h00 := pointDist_nonneg N (P (i + 1)) (P i)
    have a1 : 0 ≤ pathLen N P i := z0 ▸ pathLen_mono (Nat.zero_le i)
    have a2 : pathLen N P (i + 1) ≤ L := pathLen_mono (by omega)
    have a3 := mul_nonneg h0 h00
    have a4 := mul_le_mul_of_nonneg_right h1 h00
    have a5 := succ i
    refine pin i α _ h0 h1 ?_ j hj
    rw [hpar, min_eq_right, max_eq_right, div_mul_cancel₀ _ hpos.ne']
    · exact div_nonneg (by linarith) hpos.le
    · rw [div_le_one hpos]
      linarith
  · intro t ht j hj
    have := pin 0 0 t le_rfl zero_le_one (by rw [hpar, min_eq_right (by linarith), max_eq_left ht, z0]; ring) j hj
    rw [this]
    ring
  · intro t ht j hj
    have := pin (np - 2) 1 t zero_le_one le_rfl (by
      rw [hpar, min_eq_left ht, max_eq_right zero_le_one, one_mul, one_mul, ← succ, hLdef]
      congr 1
      omega) j hj
    rw [this, show np - 2 + 1 = np - 1 by omega]
    ring
  · intro s t j hj
    have hcl : |f.param t - f.param s| ≤ |t - s| := by
      rw [hpar, hpar]
      have h1 := abs_max_sub_max_le_abs (min 1 t) (min 1 s) 0
      have h2 := abs_min_sub_min_le_max 1 t 1 s
      rw [sub_self, abs_zero, max_eq_right (abs_nonneg _)] at h2
      rw [max_comm, max_comm 0]
      exact h1.trans h2
    refine le_trans ?_ (mul_le_mul_of_nonneg_left hcl hpos.le)
    rcases le_total (f.param s) (f.param t) with h | h
    · have := (hat s).lipschitz (hat t) (mul_le_mul_of_nonneg_right h hpos.le) hj
      rw [abs_of_nonneg (sub_nonneg.mpr h)]
      linarith
    · have := (hat t).lipschitz (hat s) (mul_le_mul_of_nonneg_right h hpos.le) hj
      rw [abs_sub_comm, abs_of_nonpos (sub_nonpos.mpr h)]
      linarith

/-- Non-vacuity: three points of the plane; the middle of the second segment is reached at 3/4. -/
example : ∃ f, LinCurve.new 2 (Mat.Dense.ofFn 3 2 fun i j => if j = 0 then min (i : ℝ) 1 else max ((i : ℝ) - 1) 0) false = .ret f ∧
    ∃ F : ℝ → ℕ → ℝ, (∀ t, f.eval 2 t = .ret (tab 2 (F t))) ∧ F (3 / 4) 0 = 1 ∧ F (3 / 4) 1 = 1 / 2 := by
  have d0 : pointDist 2 (fun j => if j = 0 then min ((0 + 1 : ℕ) : ℝ) 1 else max (((0 + 1 : ℕ) : ℝ) - 1) 0)
      (fun j => if j = 0 then min ((0 : ℕ) : ℝ) 1 else max (((0 : ℕ) : ℝ) - 1) 0) = 1 := by
    rw [pointDist, sum_range_succ, sum_range_one]
    norm_num
  have d1 : pointDist 2 (fun j => if j = 0 then min ((1 + 1 : ℕ) : ℝ) 1 else max (((1 + 1 : ℕ) : ℝ) - 1) 0)
      (fun j => if j = 0 then min ((1 : ℕ) : ℝ) 1 else max (((1 : ℕ) : ℝ) - 1) 0) = 1 := by
    rw [pointDist, sum_range_succ, sum_range_one]
    norm_num
  have e1 : pathLen 2 (fun i j => if j = 0 then min (i : ℝ) 1 else max ((i : ℝ) - 1) 0) 1 = 1 := by
    rw [pathLen, sum_range_one, d0]
  have e2 : pathLen 2 (fun i j => if j = 0 then min (i : ℝ) 1 else max ((i : ℝ) - 1) 0) (3 - 1) = 2 := by
    rw [show 3 - 1 = 1 + 1 from rfl, pathLen, sum_range_succ, sum_range_one, d0, d1]
    norm_num
  obtain ⟨f, hf, F, hF, h, _⟩ := linCurve_spec 3 2 2 (by norm_num) le_rfl (fun i j => if j = 0 then min (i : ℝ) 1 else max ((i : ℝ) - 1) 0) (by rw [e2]; norm_num)
  refine ⟨f, hf, F, hF, ?_, ?_⟩
  · have := h 1 (1 / 2) (by norm_num) (by norm_num) (by norm_num) 0 (by norm_num)
    rw [e1, e2, d1] at this
    norm_num at this
    exact this
  · have := h 1 (1 / 2) (by norm_num) (by norm_num) (by norm_num) 1 (by norm_num)
    rw [e1, e2, d1] at this
    norm_num at this
    exact this

/-- C87, linear: a closed curve has period one and coincides with the open one for parameters in `[0, 1)`. -/
theorem linCurve_closed (np c N : ℕ) (hnp : 1 ≤ np) (hN : N ≤ c) (P : ℕ → ℕ → ℝ) (f g : LinCurve)
    (hf : LinCurve.new N (Mat.Dense.ofFn np c P) true = .ret f) (hg : LinCurve.new N (Mat.Dense.ofFn np c P) false = .ret g) :
    (∀ t, f.eval N (t + 1) = f.eval N t) ∧ ∀ t, 0 ≤ t → t < 1 → f.eval N t = g.eval N t := by
  rw [linCurve_new hnp hN] at hf hg
  cases hf
  cases hg
  refine ⟨fun t => ?_, fun t h0 h1 => ?_⟩
  · have : ∀ p a, (⟨p, a, true⟩ : LinCurve).param (t + 1) = (⟨p, a, true⟩ : LinCurve).param t := by
      intro p a
      rw [LinCurve.param, LinCurve.param, if_pos rfl, if_pos rfl, Int.floor_add_one]
      push_cast
      ring
    simp only [LinCurve.eval, this]
  · have e1 : ∀ p a, (⟨p, a, true⟩ : LinCurve).param t = t := by
      intro p a
      rw [LinCurve.param, if_pos rfl, Int.floor_eq_zero_iff.mpr ⟨h0, h1⟩]
      simp
    have e2 : ∀ p a, (⟨p, a, false⟩ : LinCurve).param t = t := by
      intro p a
      rw [LinCurve.param]
      simp only [Bool.false_eq_true, if_false]
      split_ifs with h1 h2 h2 <;> linarith
    simp only [LinCurve.eval, e1, e2, LinCurve.onSegment]

/-- C87, against the documentation: "closed (connects last to first point)" does not hold.  For the corners `(0, 0)`, `(1, 0)`, `(1, 1)` no
parameter gives a point strictly inside the edge from the last corner to the first. -/
theorem linCurve_closed_gap : ∃ f, LinCurve.new 2 (Mat.Dense.ofFn 3 2 fun i j => if j = 0 then min (i : ℝ) 1 else max ((i : ℝ) - 1) 0) true = .ret f ∧
    ∀ t a, 0 < a → a < 1 → f.eval 2 t ≠ .ret [a, a] := by
  have hnew := linCurve_new (N := 2) (c := 2) (np := 3) (P := fun i j => if j = 0 then min (i : ℝ) 1 else max ((i : ℝ) - 1) 0) (by norm_num) le_rfl true
  refine ⟨_, hnew, fun t a h0 h1 => ?_⟩
  generalize hf : (⟨Mat.Dense.ofFn 3 2 _, tab 3 _, true⟩ : LinCurve) = f
  have hpos : 0 < pathLen 2 (fun i j => if j = 0 then min (i : ℝ) 1 else max ((i : ℝ) - 1) 0) (3 - 1) := by
    have := pathLen_dist (N := 2) (P := fun i j => if j = 0 then min (i : ℝ) 1 else max ((i : ℝ) - 1) 0) (i := 0) (k := 3 - 1) (j := 0) (by norm_num) (by norm_num)
    have z0 : pathLen 2 (fun i j => if j = 0 then min (i : ℝ) 1 else max ((i : ℝ) - 1) 0) 0 = 0 := by simp [pathLen]
    rw [z0] at this
    norm_num at this
    linarith
  have hpar : f.param t = Int.fract t := by rw [LinCurve.param, ← hf, if_pos rfl]; rfl
  obtain ⟨i, α, v, hi, he, hat⟩ := linCurve_core (np := 3) (c := 2) (by norm_num) le_rfl hpos f (by rw [← hf]) (by rw [← hf]) t
    (by rw [hpar]; exact Int.fract_nonneg t) (by rw [hpar]; exact (Int.fract_lt_one t).le)
  rw [he]
  intro h
  have hv : v 0 = a ∧ v 1 = a := by
    have := Outcome.ret.inj h
    simpa [tab, List.range_succ] using this
  have p0 := hat.point 0 (by norm_num)
  have p1 := hat.point 1 (by norm_num)
  have hi2 : i = 0 ∨ i = 1 := by omega
  rcases hi2 with rfl | rfl
  · norm_num at p0 p1
    linarith
  · norm_num at p0 p1
    linarith

/-- C87: without points construction reads past the end of the array, with one point evaluation does. -/
theorem linCurve_few (N c : ℕ) (P : ℕ → ℕ → ℝ) (hN : N ≤ c) (close : Bool) :
    LinCurve.new N (Mat.Dense.ofFn 0 c P) close = .ub ∧
    ∃ f, LinCurve.new N (Mat.Dense.ofFn 1 c P) close = .ret f ∧ ∀ t, f.eval N t = .ub := by
  refine ⟨?_, _, linCurve_new le_rfl hN close, fun t => ?_⟩
  · rfl
  · rw [LinCurve.eval]
    simp only [Mat.Dense.ofFn_rows]
    rw [show whileFuel (segmentStep (tab 1 fun i => pathLen N P i / divisor (pathLen N P (1 - 1))) 1 _) (1 + 1) 0 = some 0 from by
      rw [whileFuel, segmentStep, if_neg (by omega)]]
    dsimp only
    rw [LinCurve.onSegment, index_tab _ (by omega), Outcome.bind_ret]
    rfl

end Verif.Interp
