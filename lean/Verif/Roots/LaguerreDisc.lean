import Verif.Roots.LaguerreSpec
import Verif.Roots.ClosedProps

/-! # A root near a short Laguerre step -/

set_option autoImplicit false

namespace Verif.Roots

open Polynomial

/-- The polynomial with given leading coefficient and roots. -/
noncomputable def ofRoots (a : ℂ) (l : List ℂ) : ℂ[X] := C a * (l.map fun r => X - C r).prod

theorem ofRoots_nil (a : ℂ) : ofRoots a [] = C a := by simp [ofRoots]

theorem ofRoots_cons (a r : ℂ) (l : List ℂ) : ofRoots a (r :: l) = (X - C r) * ofRoots a l := by
  simp only [ofRoots, List.map_cons, List.prod_cons]; ring

theorem ofRoots_eval_cons (a r : ℂ) (l : List ℂ) (y : ℂ) : (ofRoots a (r :: l)).eval y = (y - r) * (ofRoots a l).eval y := by
  rw [ofRoots_cons]; simp

theorem ofRoots_root (a r : ℂ) (l : List ℂ) (h : r ∈ l) : (ofRoots a l).eval r = 0 := by
  induction l with
  | nil => simp at h
  | cons s l ih =>
    rw [ofRoots_eval_cons]
    rcases List.mem_cons.1 h with rfl | h
    · rw [sub_self, zero_mul]
    · rw [ih h, mul_zero]

theorem exists_ofRoots (q : ℂ[X]) : ∃ l : List ℂ, q = ofRoots q.leadingCoeff l ∧ l.length = q.natDegree := by
  have h := (IsAlgClosed.splits q)
  refine ⟨q.roots.toList, ?_, ?_⟩
  · conv_lhs => rw [h.eq_prod_roots]
    rw [ofRoots, ← Multiset.prod_coe, ← Multiset.map_coe, Multiset.coe_toList]
  · rw [Multiset.length_toList]; exact h.natDegree_eq_card_roots.symm

/-- The logarithmic derivatives. -/
theorem ofRoots_derivs (a : ℂ) (l : List ℂ) (y : ℂ) (h : ∀ r ∈ l, y ≠ r) :
    (ofRoots a l).derivative.eval y = (ofRoots a l).eval y * (l.map fun r => 1 / (y - r)).sum ∧
    (ofRoots a l).derivative.derivative.eval y =
      (ofRoots a l).eval y * ((l.map fun r => 1 / (y - r)).sum ^ 2 - (l.map fun r => (1 / (y - r)) ^ 2).sum) := by
  induction l with
  | nil => simp [ofRoots_nil]
  | cons r l ih =>
    obtain ⟨h1, h2⟩ := ih fun r hr => h r (List.mem_cons_of_mem _ hr)
    have hr : y - r ≠ 0 := sub_ne_zero.2 (h r List.mem_cons_self)
    rw [ofRoots_cons]
    simp only [derivative_mul, derivative_sub, derivative_X, derivative_C, sub_zero, one_mul, derivative_add, eval_add, eval_mul,
      eval_sub, eval_X, eval_C, h1, h2, List.map_cons, List.sum_cons]
    constructor
    · field_simp
    · field_simp; ring

theorem sum_sq_sub (m : ℂ) (l : List ℂ) : (l.map fun s => (s - m) ^ 2).sum = (l.map fun s => s ^ 2).sum - 2 * m * l.sum + l.length * m ^ 2 := by
  induction l with
  | nil => simp
  | cons s l ih =>
    simp only [List.map_cons, List.sum_cons, ih, List.length_cons]
    push_cast; ring

theorem sum_norm_sub (m : ℂ) (l : List ℂ) : (l.map fun s => ‖s - m‖ ^ 2).sum =
    (l.map fun s => ‖s‖ ^ 2).sum - 2 * (m.re * l.sum.re + m.im * l.sum.im) + l.length * ‖m‖ ^ 2 := by
  induction l with
  | nil => simp
  | cons s l ih =>
    have hs : ‖s - m‖ ^ 2 = ‖s‖ ^ 2 - 2 * (m.re * s.re + m.im * s.im) + ‖m‖ ^ 2 := by
      simp only [Complex.sq_norm, Complex.normSq_apply, Complex.sub_re, Complex.sub_im]; ring
    simp only [List.map_cons, List.sum_cons, ih, List.length_cons, Complex.add_re, Complex.add_im, hs]
    push_cast; ring

theorem norm_sum_sq_le (l : List ℂ) (m : ℂ) : ‖(l.map fun s => (s - m) ^ 2).sum‖ ≤ (l.map fun s => ‖s - m‖ ^ 2).sum := by
  induction l with
  | nil => simp
  | cons s l ih =>
    simp only [List.map_cons, List.sum_cons]
    calc _ ≤ ‖(s - m) ^ 2‖ + ‖(l.map fun s => (s - m) ^ 2).sum‖ := norm_add_le _ _
      _ ≤ _ := by rw [norm_pow]; linarith

theorem sum_le_length (l : List ℂ) (S : ℝ) (hS : ∀ s ∈ l, ‖s‖ ^ 2 ≤ S) : (l.map fun s => ‖s‖ ^ 2).sum ≤ l.length * S := by
  induction l with
  | nil => simp
  | cons s l ih =>
    have := ih fun s hs => hS s (List.mem_cons_of_mem _ hs)
    have h1 := hS s List.mem_cons_self
    simp only [List.map_cons, List.sum_cons, List.length_cons]
    push_cast; linarith

/-- The variance bound. -/
theorem variance_le (l : List ℂ) (hl : l ≠ []) (S : ℝ) (hS : ∀ s ∈ l, ‖s‖ ^ 2 ≤ S) :
    ‖l.length * (l.map fun s => s ^ 2).sum - l.sum * l.sum‖ ≤ (l.length : ℝ) ^ 2 * S - ‖l.sum‖ ^ 2 := by
  have hn : (0 : ℝ) < l.length := by exact_mod_cast List.length_pos_of_ne_nil hl
  have hnC : (l.length : ℂ) ≠ 0 := by exact_mod_cast hn.ne'
  have e1 := sum_sq_sub (l.sum / l.length) l
  have e2 := sum_norm_sub (l.sum / l.length) l
  have e3 : (l.length : ℂ) * (l.map fun s => s ^ 2).sum - l.sum * l.sum = l.length * (l.map fun s => (s - l.sum / l.length) ^ 2).sum := by
    rw [e1]; field_simp; ring
  rw [e3, norm_mul, Complex.norm_natCast]
  have e4 := norm_sum_sq_le l (l.sum / l.length)
  have e5 := sum_le_length l S hS
  have e6 : ‖l.sum / l.length‖ ^ 2 = ‖l.sum‖ ^ 2 / (l.length : ℝ) ^ 2 := by
    rw [norm_div, Complex.norm_natCast, div_pow]
  have e7 : (l.sum / l.length).re * l.sum.re + (l.sum / l.length).im * l.sum.im = ‖l.sum‖ ^ 2 / l.length := by
    rw [Complex.div_natCast_re, Complex.div_natCast_im, Complex.sq_norm, Complex.normSq_apply]; ring
  rw [e6, e7] at e2
  have e8 : (l.length : ℝ) * (l.map fun s => ‖s - l.sum / l.length‖ ^ 2).sum = l.length * (l.map fun s => ‖s‖ ^ 2).sum - ‖l.sum‖ ^ 2 := by
    rw [e2]; field_simp; ring
  nlinarith

/-- The denominator of the Laguerre step, with either sign of the root. -/
theorem denom_le (l : List ℂ) (hl : l ≠ []) (S : ℝ) (hS0 : 0 ≤ S) (hS : ∀ s ∈ l, ‖s‖ ^ 2 ≤ S) (w : ℂ)
    (hw : w * w = (l.length - 1) * (l.length * (l.map fun s => s ^ 2).sum - l.sum * l.sum)) :
    (‖l.sum‖ + ‖w‖) ^ 2 ≤ (l.length : ℝ) ^ 3 * S := by
  have hv := variance_le l hl S hS
  have hn : (1 : ℝ) ≤ l.length := by exact_mod_cast List.length_pos_of_ne_nil hl
  have e : ‖w‖ ^ 2 = ((l.length : ℝ) - 1) * ‖l.length * (l.map fun s => s ^ 2).sum - l.sum * l.sum‖ := by
    have := congrArg norm hw
    rw [norm_mul, norm_mul] at this
    rw [pow_two, this]
    congr 1
    have h : ((l.length : ℂ) - 1) = ((l.length - 1 : ℝ) : ℂ) := by push_cast; rfl
    rw [h, Complex.norm_real, Real.norm_of_nonneg (by linarith)]
  have hV := norm_nonneg (l.length * (l.map fun s => s ^ 2).sum - l.sum * l.sum)
  generalize ‖l.sum‖ = g at *
  generalize ‖w‖ = t at *
  generalize ‖l.length * (l.map fun s => s ^ 2).sum - l.sum * l.sum‖ = V at *
  generalize (l.length : ℝ) = n at *
  have h1 : t ^ 2 ≤ (n - 1) * (n ^ 2 * S - g ^ 2) := by rw [e]; exact mul_le_mul_of_nonneg_left hv (by linarith)
  by_cases hn1 : n = 1
  · subst hn1
    have : t = 0 := by nlinarith [sq_nonneg t]
    subst this
    nlinarith [sq_nonneg g]
  · have hn2 : 0 < n - 1 := lt_of_le_of_ne (by linarith) (Ne.symm (sub_ne_zero.2 hn1))
    have h2 : 2 * (g * t) ≤ (n - 1) * g ^ 2 + t ^ 2 / (n - 1) := by
      have : 0 ≤ ((n - 1) * g - t) ^ 2 / (n - 1) := by positivity
      have e : ((n - 1) * g - t) ^ 2 / (n - 1) = (n - 1) * g ^ 2 - 2 * (g * t) + t ^ 2 / (n - 1) := by field_simp; ring
      linarith
    have h3 : t ^ 2 / (n - 1) ≤ n ^ 2 * S - g ^ 2 := by rw [div_le_iff₀ hn2]; linarith
    nlinarith

/-- A root lies within `√n` times the length of a Laguerre step, whichever sign of the square root it uses. -/
theorem root_near {q : ℂ[X]} {y : ℂ} (hd : 0 < q.natDegree) (hy : q.eval y ≠ 0) (w D : ℂ)
    (hw : w * w = (q.natDegree - 1) * (q.natDegree *
      (q.derivative.eval y / q.eval y * (q.derivative.eval y / q.eval y) - q.derivative.derivative.eval y / q.eval y) -
      q.derivative.eval y / q.eval y * (q.derivative.eval y / q.eval y)))
    (hD : D = q.derivative.eval y / q.eval y + w ∨ D = q.derivative.eval y / q.eval y - w) (hD0 : D ≠ 0) :
    ∃ z, q.IsRoot z ∧ ‖y - z‖ ≤ Real.sqrt q.natDegree * ‖(q.natDegree : ℂ) / D‖ := by
  obtain ⟨l, hq, hlen⟩ := exists_ofRoots q
  have hroot : ∀ r ∈ l, q.IsRoot r := by
    intro r hr
    rw [hq, IsRoot, ofRoots_root _ _ _ hr]
  have hne : ∀ r ∈ l, y ≠ r := fun r hr h => hy (h ▸ hroot r hr)
  obtain ⟨h1, h2⟩ := ofRoots_derivs q.leadingCoeff l y hne
  rw [← hq] at h1 h2
  rw [h1, h2] at hw
  rw [h1] at hD
  have e1 : q.eval y * (l.map fun r => 1 / (y - r)).sum / q.eval y = (l.map fun r => 1 / (y - r)).sum := by field_simp
  have e2 : ∀ s : ℂ, q.eval y * s / q.eval y = s := fun s => by field_simp
  rw [e2, e2] at hw
  rw [e2] at hD
  set ss := l.map fun r => 1 / (y - r) with hss
  have hmap : (l.map fun r => (1 / (y - r)) ^ 2) = ss.map fun s => s ^ 2 := by rw [hss, List.map_map]; rfl
  have hl : l ≠ [] := by rintro rfl; simp at hlen; omega
  have hslen : ss.length = q.natDegree := by rw [hss, List.length_map, hlen]
  have hsne : ss ≠ [] := by rw [hss]; simpa using hl
  -- the largest element
  obtain ⟨r, hr, hmax⟩ : ∃ r ∈ l, ∀ r' ∈ l, ‖y - r‖ ≤ ‖y - r'‖ := by
    obtain ⟨r, hr, h⟩ := List.toFinset l |>.exists_min_image (fun r => ‖y - r‖)
      (by rw [List.toFinset_nonempty_iff]; exact hl)
    exact ⟨r, List.mem_toFinset.1 hr, fun r' hr' => h r' (List.mem_toFinset.2 hr')⟩
  refine ⟨r, hroot r hr, ?_⟩
  have hpos : 0 < ‖y - r‖ := norm_pos_iff.2 (sub_ne_zero.2 (hne r hr))
  have hS : ∀ s ∈ ss, ‖s‖ ^ 2 ≤ 1 / ‖y - r‖ ^ 2 := by
    intro s hs
    obtain ⟨r', hr', rfl⟩ := List.mem_map.1 hs
    rw [norm_div, norm_one, div_pow, one_pow]
    exact one_div_le_one_div_of_le (by positivity) (pow_le_pow_left₀ hpos.le (hmax r' hr') 2)
  have hden := denom_le ss hsne (1 / ‖y - r‖ ^ 2) (by positivity) hS w (by
    rw [hw, hmap, hslen]; ring)
  rw [hslen] at hden
  have hDle : ‖D‖ ≤ ‖ss.sum‖ + ‖w‖ := by
    rcases hD with h | h
    · rw [h]; exact norm_add_le _ _
    · rw [h]; exact norm_sub_le _ _
  have hD2 : ‖D‖ ^ 2 ≤ (q.natDegree : ℝ) ^ 3 * (1 / ‖y - r‖ ^ 2) :=
    (pow_le_pow_left₀ (norm_nonneg _) hDle 2).trans hden
  have hDp : 0 < ‖D‖ := norm_pos_iff.2 hD0
  rw [norm_div, Complex.norm_natCast]
  have hn : (0 : ℝ) < q.natDegree := by exact_mod_cast hd
  rw [← pow_le_pow_iff_left₀ hpos.le (by positivity) two_ne_zero, mul_pow, Real.sq_sqrt hn.le, div_pow]
  have h3 : ‖D‖ ^ 2 * ‖y - r‖ ^ 2 ≤ (q.natDegree : ℝ) ^ 3 := by
    calc _ ≤ (q.natDegree : ℝ) ^ 3 * (1 / ‖y - r‖ ^ 2) * ‖y - r‖ ^ 2 := mul_le_mul_of_nonneg_right hD2 (by positivity)
      _ = _ := by field_simp
  rw [← mul_div_assoc, le_div_iff₀ (by positivity)]
  linarith

end Verif.Roots
