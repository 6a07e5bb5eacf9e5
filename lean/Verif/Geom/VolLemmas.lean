import Verif.Geom.Bound3DProps
import Mathlib.MeasureTheory.Measure.Lebesgue.Complex
import Mathlib.MeasureTheory.Integral.IntervalIntegral.FundThmCalculus
import Mathlib.Analysis.SpecialFunctions.Integrals.Basic

/-!
# Volumes and centroids by slices
-/

set_option autoImplicit false

namespace Verif.Geom.Bod

open MeasureTheory B3

/-! ## Specification -/

/-- The points of a set of space as triples, on which the Lebesgue measure lives. -/
def triples (S : Set (V3 ℝ)) : Set (Fin 3 → ℝ) := {p | (⟨p 0, p 1, p 2⟩ : V3 ℝ) ∈ S}

/-- The point `c` is the centroid of `S`: the coordinates are integrable over `S`, and the integral over `S` of `p - c` is zero. -/
def IsCentroid (S : Set (V3 ℝ)) (c : V3 ℝ) : Prop :=
  (∀ i : Fin 3, IntegrableOn (fun p : Fin 3 → ℝ => p i) (triples S)) ∧
  ∫ p in triples S, (p 0 - c.x) = 0 ∧ ∫ p in triples S, (p 1 - c.y) = 0 ∧ ∫ p in triples S, (p 2 - c.z) = 0

/-! ## Slices -/

theorem mp3 : MeasurePreserving (fun p : Fin 3 → ℝ => (p 2, p 0, p 1)) volume volume := by
  have h := volume_preserving_piFinSuccAbove (fun _ : Fin 3 => ℝ) 2
  have h2 := (MeasurePreserving.id (volume : Measure ℝ)).prod (volume_preserving_finTwoArrow ℝ)
  exact h2.comp h

theorem me3 : MeasurableEmbedding (fun p : Fin 3 → ℝ => (p 2, p 0, p 1)) := by
  have h := (MeasurableEquiv.piFinSuccAbove (fun _ : Fin 3 => ℝ) 2).trans
    ((MeasurableEquiv.refl ℝ).prodCongr (MeasurableEquiv.finTwoArrow (α := ℝ)))
  have he : (fun p : Fin 3 → ℝ => (p 2, p 0, p 1)) = ((MeasurableEquiv.piFinSuccAbove (fun _ : Fin 3 => ℝ) 2).trans
    ((MeasurableEquiv.refl ℝ).prodCongr (MeasurableEquiv.finTwoArrow (α := ℝ)))) := rfl
  rw [he]
  exact MeasurableEquiv.measurableEmbedding _

/-- The set with the coordinate `z` first. -/
def zFirst (S : Set (V3 ℝ)) : Set (ℝ × ℝ × ℝ) := {q | (⟨q.2.1, q.2.2, q.1⟩ : V3 ℝ) ∈ S}

theorem triples_eq (S : Set (V3 ℝ)) : triples S = (fun p : Fin 3 → ℝ => (p 2, p 0, p 1)) ⁻¹' zFirst S := rfl

/-- The volume is the integral of the areas of the slices. -/
theorem vol_slices (S : Set (V3 ℝ)) (hS : MeasurableSet (zFirst S)) : vol S = ∫⁻ z, volume {q : ℝ × ℝ | (⟨q.1, q.2, z⟩ : V3 ℝ) ∈ S} := by
  have : vol S = volume (zFirst S) := mp3.measure_preimage hS.nullMeasurableSet
  rw [this, Measure.volume_eq_prod, Measure.prod_apply hS]
  rfl

theorem integral_slices (S : Set (V3 ℝ)) (hS : MeasurableSet (zFirst S)) (f : ℝ × ℝ × ℝ → ℝ) (hf : IntegrableOn f (zFirst S)) :
    ∫ p in triples S, f (p 2, p 0, p 1) = ∫ z, ∫ q in {q : ℝ × ℝ | (⟨q.1, q.2, z⟩ : V3 ℝ) ∈ S}, f (z, q) := by
  rw [triples_eq, mp3.setIntegral_preimage_emb me3, ← integral_indicator hS, Measure.volume_eq_prod, integral_prod]
  · refine integral_congr_ae (Filter.Eventually.of_forall fun z => ?_)
    have hz : MeasurableSet {q : ℝ × ℝ | (⟨q.1, q.2, z⟩ : V3 ℝ) ∈ S} := measurable_prodMk_left hS
    simp only
    rw [← integral_indicator hz]
    rfl
  · rw [integrable_indicator_iff hS]; exact hf

/-- A set that is symmetric about a point has its centroid there. -/
theorem centroid_of_symm (S : Set (V3 ℝ)) (c : V3 ℝ) (h : ∀ p, p ∈ S → (⟨2 * c.x - p.x, 2 * c.y - p.y, 2 * c.z - p.z⟩ : V3 ℝ) ∈ S)
    (hc : IsCompact (triples S)) : IsCentroid S c := by
  have hS := hc.isClosed.measurableSet
  have key : ∀ (i : Fin 3) (d : ℝ), d = (![c.x, c.y, c.z] : Fin 3 → ℝ) i → ∫ p in triples S, (p i - d) = 0 := by
    intro i d hd
    rw [← integral_indicator hS]
    set F : (Fin 3 → ℝ) → ℝ := (triples S).indicator (fun p => p i - d) with hF
    have h1 := integral_sub_left_eq_self F volume (![2 * c.x, 2 * c.y, 2 * c.z])
    have h2 : ∀ p, F (![2 * c.x, 2 * c.y, 2 * c.z] - p) = -F p := by
      intro p
      have hm : (![2 * c.x, 2 * c.y, 2 * c.z] - p) ∈ triples S ↔ p ∈ triples S := by
        constructor
        · intro hp
          have := h _ hp
          simp only [triples, Set.mem_setOf_eq]
          convert this using 2 <;> simp
        · intro hp; exact h _ hp
      have hv : (![2 * c.x, 2 * c.y, 2 * c.z] - p) i - d = -(p i - d) := by
        have : (![2 * c.x, 2 * c.y, 2 * c.z] : Fin 3 → ℝ) i = 2 * d := by rw [hd]; fin_cases i <;> rfl
        rw [Pi.sub_apply, this]; ring
      by_cases hp : p ∈ triples S
      · rw [hF, Set.indicator_of_mem (hm.mpr hp), Set.indicator_of_mem hp]; exact hv
      · rw [hF, Set.indicator_of_notMem (fun e => hp (hm.mp e)), Set.indicator_of_notMem hp, neg_zero]
    simp only [h2, integral_neg] at h1
    linarith
  exact ⟨fun i => (by fun_prop : Continuous fun p : Fin 3 → ℝ => p i).continuousOn.integrableOn_compact hc, key 0 _ rfl, key 1 _ rfl, key 2 _ rfl⟩

theorem compact_triples {S : Set (V3 ℝ)} (b : Box) (hS : S ⊆ b.pts) (hc : IsClosed (triples S)) : IsCompact (triples S) := by
  refine (isCompact_Icc (a := ![b.lo.x, b.lo.y, b.lo.z]) (b := ![b.hi.x, b.hi.y, b.hi.z])).of_isClosed_subset hc ?_
  intro p hp
  obtain ⟨h1, h2, h3, h4, h5, h6⟩ := hS hp
  constructor <;> intro i <;> fin_cases i <;> assumption

theorem compact_zFirst {S : Set (V3 ℝ)} (b : Box) (hS : S ⊆ b.pts) (hc : IsClosed (zFirst S)) : IsCompact (zFirst S) := by
  refine (isCompact_Icc (a := (b.lo.z, b.lo.x, b.lo.y)) (b := (b.hi.z, b.hi.x, b.hi.y))).of_isClosed_subset hc ?_
  intro p hp
  obtain ⟨h1, h2, h3, h4, h5, h6⟩ := hS hp
  exact ⟨⟨h5, h1, h3⟩, h6, h2, h4⟩

theorem zFirst_closed {S : Set (V3 ℝ)} (hc : IsClosed (triples S)) : IsClosed (zFirst S) := by
  have : zFirst S = (fun q : ℝ × ℝ × ℝ => (![q.2.1, q.2.2, q.1] : Fin 3 → ℝ)) ⁻¹' triples S := rfl
  rw [this]
  refine hc.preimage (continuous_pi fun i => ?_)
  fin_cases i <;> simp <;> fun_prop

/-- A set with a two-fold axis of symmetry and slices of known area: the centroid is on the axis, at the height given by the areas. -/
theorem centroid_of_axis (S : Set (V3 ℝ)) (c : V3 ℝ) (h : ∀ p, p ∈ S → (⟨2 * c.x - p.x, 2 * c.y - p.y, p.z⟩ : V3 ℝ) ∈ S)
    (b : Box) (hb : S ⊆ b.pts) (hcl : IsClosed (triples S))
    (hz : ∫ z, (volume {q : ℝ × ℝ | (⟨q.1, q.2, z⟩ : V3 ℝ) ∈ S}).toReal * (z - c.z) = 0) : IsCentroid S c := by
  have hc := compact_triples b hb hcl
  have hcz := compact_zFirst b hb (zFirst_closed hcl)
  have hm : MeasurableSet (zFirst S) := hcz.isClosed.measurableSet
  have key : ∀ (f : ℝ × ℝ × ℝ → ℝ), Continuous f → (∀ z x y, f (z, 2 * c.x - x, 2 * c.y - y) = - f (z, x, y)) →
      ∫ p in triples S, f (p 2, p 0, p 1) = 0 := by
    intro f hf hs
    rw [integral_slices S hm f (hf.continuousOn.integrableOn_compact hcz)]
    refine integral_eq_zero_of_ae (Filter.Eventually.of_forall fun z => ?_)
    have hzm : MeasurableSet {q : ℝ × ℝ | (⟨q.1, q.2, z⟩ : V3 ℝ) ∈ S} := measurable_prodMk_left hm
    simp only [Pi.zero_apply]
    rw [← integral_indicator hzm]
    set F : ℝ × ℝ → ℝ := {q : ℝ × ℝ | (⟨q.1, q.2, z⟩ : V3 ℝ) ∈ S}.indicator (fun q => f (z, q)) with hF
    have h1 := integral_sub_left_eq_self F volume (2 * c.x, 2 * c.y)
    have h2 : ∀ q, F ((2 * c.x, 2 * c.y) - q) = -F q := by
      intro q
      have hm : ((2 * c.x, 2 * c.y) - q) ∈ {q : ℝ × ℝ | (⟨q.1, q.2, z⟩ : V3 ℝ) ∈ S} ↔ q ∈ {q : ℝ × ℝ | (⟨q.1, q.2, z⟩ : V3 ℝ) ∈ S} := by
        constructor
        · intro hp
          have := h _ hp
          simp only [Set.mem_setOf_eq]
          convert this using 2 <;> simp
        · intro hp; exact h _ hp
      by_cases hp : q ∈ {q : ℝ × ℝ | (⟨q.1, q.2, z⟩ : V3 ℝ) ∈ S}
      · rw [hF, Set.indicator_of_mem (hm.mpr hp), Set.indicator_of_mem hp]; exact hs z q.1 q.2
      · rw [hF, Set.indicator_of_notMem (fun e => hp (hm.mp e)), Set.indicator_of_notMem hp, neg_zero]
    simp only [h2, integral_neg] at h1
    linarith
  refine ⟨fun i => (by fun_prop : Continuous fun p : Fin 3 → ℝ => p i).continuousOn.integrableOn_compact hc,
    key (fun q => q.2.1 - c.x) (by fun_prop) (fun z x y => by ring), key (fun q => q.2.2 - c.y) (by fun_prop) (fun z x y => by ring), ?_⟩
  have := integral_slices S hm (fun q => q.1 - c.z) ((by fun_prop : Continuous fun q : ℝ × ℝ × ℝ => q.1 - c.z).continuousOn.integrableOn_compact hcz)
  simp only [setIntegral_const, smul_eq_mul, Measure.real] at this
  rw [this]; exact hz

/-! ## Plane figures -/

/-- The area of a disc. -/
theorem disc_area (x y r : ℝ) (hr : 0 ≤ r) :
    volume {q : ℝ × ℝ | (q.1 - x) * (q.1 - x) + (q.2 - y) * (q.2 - y) ≤ r * r} = ENNReal.ofReal (Real.pi * r * r) := by
  have hpi := Real.pi_pos
  have hm : MeasurableSet {q : ℝ × ℝ | (q.1 - x) * (q.1 - x) + (q.2 - y) * (q.2 - y) ≤ r * r} :=
    (isClosed_le (by fun_prop) (by fun_prop)).measurableSet
  rw [← Complex.volume_preserving_equiv_real_prod.measure_preimage hm.nullMeasurableSet]
  have : Complex.measurableEquivRealProd ⁻¹' {q : ℝ × ℝ | (q.1 - x) * (q.1 - x) + (q.2 - y) * (q.2 - y) ≤ r * r} = Metric.closedBall (⟨x, y⟩ : ℂ) r := by
    ext z
    simp only [Set.mem_preimage, Set.mem_setOf_eq, Metric.mem_closedBall, Complex.dist_eq, Complex.measurableEquivRealProd_apply]
    rw [← sq_le_sq₀ (norm_nonneg _) hr, Complex.sq_norm, Complex.normSq_apply, sq r]
    simp
  rw [this, Complex.volume_closedBall, ← ENNReal.ofReal_pow hr]
  have hp : (NNReal.pi : ENNReal) = ENNReal.ofReal Real.pi := by
    rw [← NNReal.coe_real_pi, ENNReal.ofReal_coe_nnreal]
  rw [hp, ← ENNReal.ofReal_mul (by positivity)]
  congr 1; ring

/-- The area of a disc without its circle. -/
theorem open_disc_area (x y r : ℝ) (hr : 0 ≤ r) :
    volume {q : ℝ × ℝ | (q.1 - x) * (q.1 - x) + (q.2 - y) * (q.2 - y) < r * r} = ENNReal.ofReal (Real.pi * r * r) := by
  have hpi := Real.pi_pos
  have hm : MeasurableSet {q : ℝ × ℝ | (q.1 - x) * (q.1 - x) + (q.2 - y) * (q.2 - y) < r * r} :=
    (isOpen_lt (by fun_prop) (by fun_prop)).measurableSet
  rw [← Complex.volume_preserving_equiv_real_prod.measure_preimage hm.nullMeasurableSet]
  have : Complex.measurableEquivRealProd ⁻¹' {q : ℝ × ℝ | (q.1 - x) * (q.1 - x) + (q.2 - y) * (q.2 - y) < r * r} = Metric.ball (⟨x, y⟩ : ℂ) r := by
    ext z
    simp only [Set.mem_preimage, Set.mem_setOf_eq, Metric.mem_ball, Complex.dist_eq, Complex.measurableEquivRealProd_apply]
    rw [← sq_lt_sq₀ (norm_nonneg _) hr, Complex.sq_norm, Complex.normSq_apply, sq r]
    simp
  rw [this, Complex.volume_ball, ← ENNReal.ofReal_pow hr]
  have hp : (NNReal.pi : ENNReal) = ENNReal.ofReal Real.pi := by
    rw [← NNReal.coe_real_pi, ENNReal.ofReal_coe_nnreal]
  rw [hp, ← ENNReal.ofReal_mul (by positivity)]
  congr 1; ring

/-- The area of a ring. -/
theorem ring_area (x y s r : ℝ) (hs : 0 ≤ s) (hsr : s ≤ r) :
    volume {q : ℝ × ℝ | s * s ≤ (q.1 - x) * (q.1 - x) + (q.2 - y) * (q.2 - y) ∧ (q.1 - x) * (q.1 - x) + (q.2 - y) * (q.2 - y) ≤ r * r} =
      ENNReal.ofReal (Real.pi * r * r - Real.pi * s * s) := by
  have hpi := Real.pi_pos
  have hm : MeasurableSet {q : ℝ × ℝ | (q.1 - x) * (q.1 - x) + (q.2 - y) * (q.2 - y) < s * s} :=
    (isOpen_lt (by fun_prop) (by fun_prop)).measurableSet
  have : {q : ℝ × ℝ | s * s ≤ (q.1 - x) * (q.1 - x) + (q.2 - y) * (q.2 - y) ∧ (q.1 - x) * (q.1 - x) + (q.2 - y) * (q.2 - y) ≤ r * r} =
      {q : ℝ × ℝ | (q.1 - x) * (q.1 - x) + (q.2 - y) * (q.2 - y) ≤ r * r} \ {q : ℝ × ℝ | (q.1 - x) * (q.1 - x) + (q.2 - y) * (q.2 - y) < s * s} := by
    ext q
    simp only [Set.mem_setOf_eq, Set.mem_diff, not_lt]
    exact and_comm
  rw [this, measure_diff _ hm.nullMeasurableSet, disc_area x y r (hs.trans hsr), open_disc_area x y s hs, ENNReal.ofReal_sub _ (by positivity)]
  · rw [open_disc_area x y s hs]; exact ENNReal.ofReal_ne_top
  · intro q hq
    simp only [Set.mem_setOf_eq] at hq ⊢
    nlinarith

/-- The area of a square. -/
theorem square_area (x y s : ℝ) (hs : 0 ≤ s) : volume {q : ℝ × ℝ | |q.1 - x| ≤ s ∧ |q.2 - y| ≤ s} = ENNReal.ofReal (4 * s ^ 2) := by
  have : {q : ℝ × ℝ | |q.1 - x| ≤ s ∧ |q.2 - y| ≤ s} = Set.Icc (x - s) (x + s) ×ˢ Set.Icc (y - s) (y + s) := by
    ext q
    simp only [Set.mem_setOf_eq, Set.mem_prod, Set.mem_Icc, abs_le]
    constructor
    · rintro ⟨⟨a, b⟩, c, d⟩; exact ⟨⟨by linarith, by linarith⟩, by linarith, by linarith⟩
    · rintro ⟨⟨a, b⟩, c, d⟩; exact ⟨⟨by linarith, by linarith⟩, by linarith, by linarith⟩
  rw [this, Measure.volume_eq_prod, Measure.prod_prod, Real.volume_Icc, Real.volume_Icc, ← ENNReal.ofReal_mul (by linarith)]
  congr 1; ring

/-- An integral over an interval of numbers that are not negative. -/
theorem lint_interval (a b : ℝ) (hab : a ≤ b) (f : ℝ → ℝ) (hf : Continuous f) (h0 : ∀ z ∈ Set.Icc a b, 0 ≤ f z) :
    ∫⁻ z in Set.Icc a b, ENNReal.ofReal (f z) = ENNReal.ofReal (∫ z in a..b, f z) := by
  rw [intervalIntegral.integral_of_le hab, ← integral_Icc_eq_integral_Ioc, ofReal_integral_eq_lintegral_ofReal]
  · exact hf.continuousOn.integrableOn_Icc
  · rw [Filter.EventuallyLE, ae_restrict_iff' measurableSet_Icc]
    exact Filter.Eventually.of_forall fun z hz => h0 z hz

/-- The volume of a set whose slices have the area `f z` for `z` between `a` and `b` and are empty elsewhere. -/
theorem vol_of_slices (S : Set (V3 ℝ)) (hS : MeasurableSet (zFirst S)) (a b : ℝ) (hab : a ≤ b) (f : ℝ → ℝ) (hf : Continuous f)
    (h0 : ∀ z ∈ Set.Icc a b, 0 ≤ f z) (hin : ∀ z ∈ Set.Icc a b, volume {q : ℝ × ℝ | (⟨q.1, q.2, z⟩ : V3 ℝ) ∈ S} = ENNReal.ofReal (f z))
    (hout : ∀ z, z ∉ Set.Icc a b → ∀ x y, (⟨x, y, z⟩ : V3 ℝ) ∉ S) : vol S = ENNReal.ofReal (∫ z in a..b, f z) := by
  rw [vol_slices S hS, ← lint_interval a b hab f hf h0, ← lintegral_indicator measurableSet_Icc]
  refine lintegral_congr fun z => ?_
  by_cases hz : z ∈ Set.Icc a b
  · rw [Set.indicator_of_mem hz, hin z hz]
  · rw [Set.indicator_of_notMem hz]
    have : {q : ℝ × ℝ | (⟨q.1, q.2, z⟩ : V3 ℝ) ∈ S} = ∅ := by
      ext q; simp only [Set.mem_setOf_eq, Set.mem_empty_iff_false, iff_false]; exact hout z hz _ _
    rw [this, measure_empty]

/-- Half the area of a disc as an integral. -/
theorem half_disc (r : ℝ) (hr : 0 ≤ r) : ∫ z in (-r)..r, Real.sqrt (r * r - z * z) = Real.pi * r * r / 2 := by
  have hpi := Real.pi_pos
  have hm : MeasurableSet {q : ℝ × ℝ | (q.1 - 0) * (q.1 - 0) + (q.2 - 0) * (q.2 - 0) ≤ r * r} :=
    (isClosed_le (by fun_prop) (by fun_prop)).measurableSet
  have h1 := disc_area 0 0 r hr
  rw [Measure.volume_eq_prod, Measure.prod_apply hm] at h1
  have h2 : ∫⁻ x, volume (Prod.mk x ⁻¹' {q : ℝ × ℝ | (q.1 - 0) * (q.1 - 0) + (q.2 - 0) * (q.2 - 0) ≤ r * r}) =
      ∫⁻ z in Set.Icc (-r) r, ENNReal.ofReal (2 * Real.sqrt (r * r - z * z)) := by
    rw [← lintegral_indicator measurableSet_Icc]
    refine lintegral_congr fun x => ?_
    by_cases hx : x ∈ Set.Icc (-r) r
    · rw [Set.indicator_of_mem hx]
      have hx2 : x * x ≤ r * r := by nlinarith [hx.1, hx.2]
      have : (Prod.mk x ⁻¹' {q : ℝ × ℝ | (q.1 - 0) * (q.1 - 0) + (q.2 - 0) * (q.2 - 0) ≤ r * r}) =
          Set.Icc (-Real.sqrt (r * r - x * x)) (Real.sqrt (r * r - x * x)) := by
        ext y
        simp only [Set.mem_preimage, Set.mem_setOf_eq, Set.mem_Icc, sub_zero]
        rw [← abs_le, ← sq_le_sq₀ (abs_nonneg _) (Real.sqrt_nonneg _), Real.sq_sqrt (by linarith), sq_abs]
        constructor <;> intro h <;> nlinarith
      rw [this, Real.volume_Icc]; congr 1; ring
    · rw [Set.indicator_of_notMem hx]
      have : (Prod.mk x ⁻¹' {q : ℝ × ℝ | (q.1 - 0) * (q.1 - 0) + (q.2 - 0) * (q.2 - 0) ≤ r * r}) = ∅ := by
        ext y
        simp only [Set.mem_preimage, Set.mem_setOf_eq, sub_zero, Set.mem_empty_iff_false, iff_false, not_le]
        have : r * r < x * x := by
          rw [Set.mem_Icc, not_and_or, not_le, not_le] at hx
          rcases hx with hx | hx <;> nlinarith
        nlinarith [mul_self_nonneg y]
      rw [this, measure_empty]
  rw [h2, lint_interval (-r) r (by linarith) _ (by fun_prop) (fun z _ => by positivity)] at h1
  rw [intervalIntegral.integral_const_mul] at h1
  have h3 : 0 ≤ ∫ z in (-r)..r, Real.sqrt (r * r - z * z) := intervalIntegral.integral_nonneg (by linarith) (fun z _ => Real.sqrt_nonneg _)
  have h4 := (ENNReal.ofReal_eq_ofReal_iff (by positivity) (by positivity)).mp h1
  linarith

end Verif.Geom.Bod
