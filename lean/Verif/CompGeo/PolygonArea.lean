import Verif.CompGeo.PolygonLemmas
import Mathlib.MeasureTheory.Measure.Lebesgue.Basic
import Mathlib.MeasureTheory.Integral.Prod
import Mathlib.MeasureTheory.Integral.IntervalIntegral.FundThmCalculus
import Mathlib.Analysis.SpecialFunctions.Integrals.Basic
import Mathlib.Analysis.Calculus.Deriv.Pow

/-!
# The integral of the winding number
-/

set_option autoImplicit false

open MeasureTheory

namespace Verif.CompGeo.Poly

/-- The abscissa of the side at height `y`. -/
noncomputable def absc (a b : Pt) (y : ℝ) : ℝ := a.1 + (y - a.2) * ((b.1 - a.1) / (b.2 - a.2))

open Classical in
/-- How the side crosses the height `y`: 1 upwards, -1 downwards. -/
noncomputable def level (a b : Pt) (y : ℝ) : ℤ := (if y < b.2 then 1 else 0) - (if y < a.2 then 1 else 0)

open Classical in
theorem winds_level (pt a b : Pt) : winds pt a b = level a b pt.2 * (if pt.1 < absc a b pt.2 then 1 else 0) := by
  rw [winds, level]
  by_cases h1 : a.2 ≤ pt.2 <;> by_cases h2 : b.2 ≤ pt.2
  · simp [h1, not_lt.2 h1, not_lt.2 h2]
  · have h3 := not_le.1 h2
    have hd : 0 < b.2 - a.2 := by linarith
    have : 0 < side a b pt ↔ pt.1 < absc a b pt.2 := by
      rw [side, absc, ← mul_div_assoc, ← sub_lt_iff_lt_add', lt_div_iff₀ hd]
      constructor <;> intro h <;> linarith
    simp [h1, h3, not_lt.2 h1, this]
  · have h3 := not_le.1 h1
    have hd : b.2 - a.2 < 0 := by linarith
    have : side a b pt < 0 ↔ pt.1 < absc a b pt.2 := by
      rw [side, absc, ← mul_div_assoc, ← sub_lt_iff_lt_add', lt_div_iff_of_neg hd]
      constructor <;> intro h <;> linarith
    simp [h1, h2, h3, not_lt.2 h2, this]
  · simp [h1, h2, not_le.1 h1, not_le.1 h2]

theorem sum_level (v : List Pt) (y : ℝ) : ((sides v).map fun e => level e.1 e.2 y).sum = 0 := by
  classical
  have := sum_map_sub (sides v) (fun e => (if y < e.2.2 then (1 : ℤ) else 0)) (fun e => if y < e.1.2 then 1 else 0)
  rw [sum_shift v (fun p => if y < p.2 then (1 : ℤ) else 0), sub_self] at this
  exact this

/-- The part of the plane between the line `x = c` and the side. -/
def strip (c : ℝ) (a b : Pt) : Set Pt := {p | min a.2 b.2 ≤ p.2 ∧ p.2 < max a.2 b.2 ∧ c ≤ p.1 ∧ p.1 < absc a b p.2}

open Classical in
/-- The direction of a side. -/
noncomputable def dir (a b : Pt) : ℤ := if a.2 < b.2 then 1 else if b.2 < a.2 then -1 else 0

theorem absc_mem {a b : Pt} {y : ℝ} (h1 : min a.2 b.2 ≤ y) (h2 : y < max a.2 b.2) :
    min a.1 b.1 ≤ absc a b y ∧ absc a b y ≤ max a.1 b.1 := by
  have hne : b.2 - a.2 ≠ 0 := by
    intro h
    have : a.2 = b.2 := by linarith
    rw [this, min_self] at h1
    rw [this, max_self] at h2
    linarith
  obtain ⟨t, ht0, ht1, ht⟩ : ∃ t : ℝ, 0 ≤ t ∧ t ≤ 1 ∧ y = a.2 + t * (b.2 - a.2) := by
    refine ⟨(y - a.2) / (b.2 - a.2), ?_, ?_, by field_simp; ring⟩
    · rcases lt_or_gt_of_ne hne with h | h
      · exact div_nonneg_of_nonpos (by rw [max_eq_left (by linarith)] at h2; linarith) h.le
      · exact div_nonneg (by rw [min_eq_left (by linarith)] at h1; linarith) h.le
    · rcases lt_or_gt_of_ne hne with h | h
      · rw [div_le_one_of_neg h]; rw [min_eq_right (by linarith)] at h1; linarith
      · rw [div_le_one h]; rw [max_eq_right (by linarith)] at h2; linarith
  have hx : absc a b y = a.1 + t * (b.1 - a.1) := by rw [absc, ht]; field_simp; ring
  rw [hx]
  constructor
  · rcases le_total a.1 b.1 with h | h
    · rw [min_eq_left h]; nlinarith
    · rw [min_eq_right h]; nlinarith
  · rcases le_total a.1 b.1 with h | h
    · rw [max_eq_right h]; nlinarith
    · rw [max_eq_left h]; nlinarith

open Classical in
theorem level_strip {c : ℝ} {a b : Pt} (p : Pt) (hc : c ≤ p.1) :
    level a b p.2 * (if p.1 < absc a b p.2 then 1 else 0) = dir a b * (strip c a b).indicator (fun _ => (1 : ℤ)) p := by
  rw [Set.indicator_apply]
  have hm : p ∈ strip c a b ↔ min a.2 b.2 ≤ p.2 ∧ p.2 < max a.2 b.2 ∧ c ≤ p.1 ∧ p.1 < absc a b p.2 := Iff.rfl
  rw [level, dir]
  simp only [hm, min_le_iff, lt_max_iff]
  grind

theorem level_zero {a b : Pt} {y : ℝ} (h : level a b y ≠ 0) : min a.2 b.2 ≤ y ∧ y < max a.2 b.2 := by
  rw [level] at h
  rw [min_le_iff, lt_max_iff]
  grind

/-- The winding number is a combination of the indicators of strips. -/
theorem wind_strip {v : List Pt} {c : ℝ} (hc : ∀ p ∈ v, c ≤ p.1) (pt : Pt) :
    wind v pt = ((sides v).map fun e => dir e.1 e.2 * (strip c e.1 e.2).indicator (fun _ => (1 : ℤ)) pt).sum := by
  classical
  rw [wind]
  rcases le_or_gt c pt.1 with h | h
  · exact sum_map_congr fun e _ => by rw [winds_level, level_strip pt h]
  · have h1 : ∀ e ∈ sides v, winds pt e.1 e.2 = level e.1 e.2 pt.2 := by
      intro e he
      obtain ⟨m1, m2⟩ := mem_sides he
      rw [winds_level]
      by_cases h0 : level e.1 e.2 pt.2 = 0
      · rw [h0, zero_mul]
      · obtain ⟨g1, g2⟩ := level_zero h0
        have := (absc_mem g1 g2).1
        have : c ≤ min e.1.1 e.2.1 := le_min (hc _ m1) (hc _ m2)
        rw [if_pos (by linarith), mul_one]
    rw [sum_map_congr h1, sum_level]
    rw [sum_map_congr (g := fun _ => (0 : ℤ))]
    · simp
    · intro e _
      rw [Set.indicator_of_notMem, mul_zero]
      exact fun hm => absurd hm.2.2.1 (not_le.2 h)

theorem measurable_strip (c : ℝ) (a b : Pt) : MeasurableSet (strip c a b) := by
  have h1 : Measurable fun p : Pt => absc a b p.2 := by
    unfold absc
    fun_prop
  have e : strip c a b = {p | min a.2 b.2 ≤ p.2} ∩ ({p | p.2 < max a.2 b.2} ∩ ({p | c ≤ p.1} ∩ {p | p.1 < absc a b p.2})) := rfl
  rw [e]
  refine (measurableSet_le measurable_const measurable_snd).inter ((measurableSet_lt measurable_snd measurable_const).inter
    ((measurableSet_le measurable_const measurable_fst).inter (measurableSet_lt measurable_fst h1)))

theorem strip_subset (c : ℝ) (a b : Pt) : strip c a b ⊆ Set.Icc c (max a.1 b.1) ×ˢ Set.Icc (min a.2 b.2) (max a.2 b.2) := by
  rintro p ⟨h1, h2, h3, h4⟩
  exact ⟨⟨h3, h4.le.trans (absc_mem h1 h2).2⟩, h1, h2.le⟩

theorem integrable_strip {φ : Pt → ℝ} (hφ : Continuous φ) (c : ℝ) (a b : Pt) : IntegrableOn φ (strip c a b) :=
  (hφ.continuousOn.integrableOn_compact (isCompact_Icc.prod isCompact_Icc)).mono_set (strip_subset c a b)

theorem integral_strip {φ : Pt → ℝ} (hφ : Continuous φ) {c : ℝ} {a b : Pt} (hc : c ≤ min a.1 b.1) :
    dir a b * ∫ p in strip c a b, φ p = ∫ y in a.2..b.2, ∫ x in c..absc a b y, φ (x, y) := by
  have h1 : ∫ p in strip c a b, φ p = ∫ y in (min a.2 b.2)..(max a.2 b.2), ∫ x in c..absc a b y, φ (x, y) := by
    rw [← integral_indicator (measurable_strip c a b), Measure.volume_eq_prod, integral_prod_symm]
    · rw [intervalIntegral.integral_of_le min_le_max, ← integral_Ico_eq_integral_Ioc,
        ← integral_indicator measurableSet_Ico]
      refine integral_congr_ae (Filter.Eventually.of_forall fun y => ?_)
      beta_reduce
      by_cases hy : y ∈ Set.Ico (min a.2 b.2) (max a.2 b.2)
      · rw [Set.indicator_of_mem hy, intervalIntegral.integral_of_le (hc.trans (absc_mem hy.1 hy.2).1), ← integral_Ico_eq_integral_Ioc,
          ← integral_indicator measurableSet_Ico]
        refine integral_congr_ae (Filter.Eventually.of_forall fun x => ?_)
        beta_reduce
        by_cases hx : x ∈ Set.Ico c (absc a b y)
        · rw [Set.indicator_of_mem hx, Set.indicator_of_mem]
          exact ⟨hy.1, hy.2, hx.1, hx.2⟩
        · rw [Set.indicator_of_notMem hx, Set.indicator_of_notMem]
          exact fun h => hx ⟨h.2.2.1, h.2.2.2⟩
      · rw [Set.indicator_of_notMem hy]
        have : ∀ x, (strip c a b).indicator φ (x, y) = 0 := fun x => Set.indicator_of_notMem (fun h => hy ⟨h.1, h.2.1⟩) _
        simp [this]
    · rw [← Measure.volume_eq_prod]
      exact (integrable_strip hφ c a b).integrable_indicator (measurable_strip c a b)
  rw [h1, dir]
  by_cases h : a.2 < b.2
  · rw [if_pos h, min_eq_left h.le, max_eq_right h.le]; simp
  · rw [if_neg h]
    by_cases h' : b.2 < a.2
    · rw [if_pos h', min_eq_right h'.le, max_eq_left h'.le, intervalIntegral.integral_symm]; simp
    · have : a.2 = b.2 := le_antisymm (not_lt.1 h') (not_lt.1 h)
      rw [if_neg h', this]; simp

theorem integral_list {l : List (Pt × Pt)} (f : Pt × Pt → Pt → ℝ) (h : ∀ e ∈ l, Integrable (f e)) :
    Integrable (fun p => (l.map fun e => f e p).sum) ∧ ∫ p, (l.map fun e => f e p).sum = (l.map fun e => ∫ p, f e p).sum := by
  induction l with
  | nil => simp
  | cons e l ih =>
    obtain ⟨h1, h2⟩ := ih fun e he => h e (List.mem_cons_of_mem _ he)
    have h3 := h e (List.mem_cons_self ..)
    simp only [List.map_cons, List.sum_cons]
    exact ⟨h3.add h1, by rw [integral_add h3 h1, h2]⟩

/-- Green's formula for the winding number. -/
theorem green {φ : Pt → ℝ} (hφ : Continuous φ) {v : List Pt} {c : ℝ} (hc : ∀ p ∈ v, c ≤ p.1) :
    Integrable (fun p => (wind v p : ℝ) * φ p) ∧
    ∫ p, (wind v p : ℝ) * φ p = ((sides v).map fun e => ∫ y in e.1.2..e.2.2, ∫ x in c..absc e.1 e.2 y, φ (x, y)).sum := by
  have h1 : (fun p => (wind v p : ℝ) * φ p) = fun p => ((sides v).map fun e => (dir e.1 e.2 : ℝ) * (strip c e.1 e.2).indicator φ p).sum := by
    funext p
    rw [wind_strip hc p]
    induction sides v with
    | nil => simp
    | cons e l ih =>
      simp only [List.map_cons, List.sum_cons, Int.cast_add, add_mul] at ih ⊢
      rw [ih]
      congr 1
      by_cases hp : p ∈ strip c e.1 e.2
      · rw [Set.indicator_of_mem hp, Set.indicator_of_mem hp]; push_cast; ring
      · rw [Set.indicator_of_notMem hp, Set.indicator_of_notMem hp]; simp
  have h2 := integral_list (l := sides v) (fun e p => (dir e.1 e.2 : ℝ) * (strip c e.1 e.2).indicator φ p)
    fun e _ => ((integrable_strip hφ c e.1 e.2).integrable_indicator (measurable_strip c e.1 e.2)).const_mul _
  rw [h1]
  refine ⟨h2.1, ?_⟩
  rw [h2.2]
  refine sum_map_congr fun e he => ?_
  obtain ⟨m1, m2⟩ := mem_sides he
  rw [integral_const_mul, integral_indicator (measurable_strip c e.1 e.2), integral_strip hφ (le_min (hc _ m1) (hc _ m2))]

theorem exists_bound (v : List Pt) : ∃ c, ∀ p ∈ v, c ≤ p.1 := by
  induction v with
  | nil => exact ⟨0, by simp⟩
  | cons a l ih =>
    obtain ⟨c, hc⟩ := ih
    refine ⟨min c a.1, fun p hp => ?_⟩
    rcases List.mem_cons.1 hp with rfl | hp
    · exact min_le_right _ _
    · exact (min_le_left _ _).trans (hc p hp)

/-- The integral of a polynomial of degree at most three. -/
theorem integral_cubic (k0 k1 k2 a b : ℝ) : ∫ y in a..b, (k0 + k1 * (y - a) + k2 * (y - a) ^ 2) =
    k0 * (b - a) + k1 * (b - a) ^ 2 / 2 + k2 * (b - a) ^ 3 / 3 := by
  have h : ∀ y ∈ Set.uIcc a b, HasDerivAt (fun y => k0 * (y - a) + k1 * (y - a) ^ 2 / 2 + k2 * (y - a) ^ 3 / 3)
      (k0 + k1 * (y - a) + k2 * (y - a) ^ 2) y := by
    intro y _
    have h0 : HasDerivAt (fun y => y - a) 1 y := (hasDerivAt_id y).sub_const a
    have := (((h0.const_mul k0).add (((h0.pow 2).const_mul k1).div_const 2)).add (((h0.pow 3).const_mul k2).div_const 3))
    exact this.congr_deriv (by push_cast; norm_num; ring)
  rw [intervalIntegral.integral_eq_sub_of_hasDerivAt h (Continuous.intervalIntegrable (by fun_prop) _ _)]
  ring

theorem slope_mul (a b : Pt) (h : a.2 ≠ b.2) : (b.1 - a.1) / (b.2 - a.2) * (b.2 - a.2) = b.1 - a.1 :=
  div_mul_cancel₀ _ (sub_ne_zero.2 h.symm)

theorem edge_one (c : ℝ) (a b : Pt) : ∫ y in a.2..b.2, ∫ _ in c..absc a b y, (1 : ℝ) =
    (a.1 * b.2 - a.2 * b.1) / 2 + ((b.1 * b.2 / 2 - c * b.2) - (a.1 * a.2 / 2 - c * a.2)) := by
  by_cases h : a.2 = b.2
  · rw [h, intervalIntegral.integral_same]; ring
  · have hm := slope_mul a b h
    generalize hmd : (b.1 - a.1) / (b.2 - a.2) = m at hm
    have : ∀ y, ∫ _ in c..absc a b y, (1 : ℝ) = (a.1 - c) + m * (y - a.2) + 0 * (y - a.2) ^ 2 := by
      intro y
      rw [intervalIntegral.integral_const, smul_eq_mul, mul_one, absc, hmd]; ring
    simp only [this]
    rw [integral_cubic]
    linear_combination ((b.2 - a.2) / 2) * hm

theorem edge_x (c : ℝ) (a b : Pt) : ∫ y in a.2..b.2, ∫ x in c..absc a b y, x =
    (a.1 + b.1) * (a.1 * b.2 - b.1 * a.2) / 6 + ((b.1 ^ 2 * b.2 / 6 - c ^ 2 / 2 * b.2) - (a.1 ^ 2 * a.2 / 6 - c ^ 2 / 2 * a.2)) := by
  by_cases h : a.2 = b.2
  · rw [h, intervalIntegral.integral_same]; ring
  · have hm := slope_mul a b h
    generalize hmd : (b.1 - a.1) / (b.2 - a.2) = m at hm
    have : ∀ y, ∫ x in c..absc a b y, x = (a.1 ^ 2 - c ^ 2) / 2 + (a.1 * m) * (y - a.2) + (m ^ 2 / 2) * (y - a.2) ^ 2 := by
      intro y
      rw [integral_id, absc, hmd]; ring
    simp only [this]
    rw [integral_cubic]
    linear_combination (a.1 * (b.2 - a.2) / 2 + (m * (b.2 - a.2) + (b.1 - a.1)) * (b.2 - a.2) / 6) * hm

theorem edge_y (c : ℝ) (a b : Pt) : ∫ y in a.2..b.2, ∫ _ in c..absc a b y, y =
    (a.2 + b.2) * (a.1 * b.2 - b.1 * a.2) / 6 + ((b.1 * b.2 ^ 2 / 3 - c * b.2 ^ 2 / 2) - (a.1 * a.2 ^ 2 / 3 - c * a.2 ^ 2 / 2)) := by
  by_cases h : a.2 = b.2
  · rw [h, intervalIntegral.integral_same]; ring
  · have hm := slope_mul a b h
    generalize hmd : (b.1 - a.1) / (b.2 - a.2) = m at hm
    have : ∀ y, ∫ _ in c..absc a b y, y = a.2 * (a.1 - c) + (a.1 - c + a.2 * m) * (y - a.2) + m * (y - a.2) ^ 2 := by
      intro y
      rw [intervalIntegral.integral_const, smul_eq_mul, absc, hmd]; ring
    simp only [this]
    rw [integral_cubic]
    linear_combination (a.2 * (b.2 - a.2) / 2 + (b.2 - a.2) ^ 2 / 3) * hm

/-- A sum over the sides with a telescoping part. -/
theorem sum_telescope (v : List Pt) (f : Pt × Pt → ℝ) (G : Pt → ℝ) :
    ((sides v).map fun e => f e + (G e.2 - G e.1)).sum = ((sides v).map f).sum := by
  rw [sum_map_add, sum_map_sub, sum_shift v G, sub_self, add_zero]

theorem integral_one (v : List Pt) : Integrable (fun p => (wind v p : ℝ)) ∧
    ∫ p, (wind v p : ℝ) = ((sides v).map fun e => (e.1.1 * e.2.2 - e.1.2 * e.2.1) / 2).sum := by
  obtain ⟨c, hc⟩ := exists_bound v
  obtain ⟨h1, h2⟩ := green (φ := fun _ => 1) continuous_const hc
  simp only [mul_one] at h1 h2
  refine ⟨h1, h2.trans ?_⟩
  exact (sum_map_congr fun e _ => edge_one c e.1 e.2).trans (sum_telescope v _ (fun p => p.1 * p.2 / 2 - c * p.2))

theorem integral_x (v : List Pt) : Integrable (fun p => (wind v p : ℝ) * p.1) ∧
    ∫ p, (wind v p : ℝ) * p.1 = ((sides v).map fun e => (e.1.1 + e.2.1) * (e.1.1 * e.2.2 - e.2.1 * e.1.2) / 6).sum := by
  obtain ⟨c, hc⟩ := exists_bound v
  obtain ⟨h1, h2⟩ := green (φ := fun p => p.1) continuous_fst hc
  refine ⟨h1, h2.trans ?_⟩
  exact (sum_map_congr fun e _ => edge_x c e.1 e.2).trans (sum_telescope v _ (fun p => p.1 ^ 2 * p.2 / 6 - c ^ 2 / 2 * p.2))

theorem integral_y (v : List Pt) : Integrable (fun p => (wind v p : ℝ) * p.2) ∧
    ∫ p, (wind v p : ℝ) * p.2 = ((sides v).map fun e => (e.1.2 + e.2.2) * (e.1.1 * e.2.2 - e.2.1 * e.1.2) / 6).sum := by
  obtain ⟨c, hc⟩ := exists_bound v
  obtain ⟨h1, h2⟩ := green (φ := fun p => p.2) continuous_snd hc
  refine ⟨h1, h2.trans ?_⟩
  exact (sum_map_congr fun e _ => edge_y c e.1 e.2).trans (sum_telescope v _ (fun p => p.1 * p.2 ^ 2 / 3 - c * p.2 ^ 2 / 2))

end Verif.CompGeo.Poly
