import Verif.CompGeo.PolygonArea
import Verif.CompGeo.HullSpec
import Verif.CompGeo.ClosestProps
import Mathlib.Analysis.LocallyConvex.Separation
import Mathlib.Analysis.Convex.Topology
import Mathlib.Analysis.SpecialFunctions.Complex.Arg

/-!
# C112: polygons
-/

set_option autoImplicit false

open MeasureTheory

namespace Verif.CompGeo.Poly

/-! ## Winding numbers -/

/-- **C112.**  Seen from a point that is on no side, the polygon turns around it `WindingNumber` times: the angles under which the sides are seen
sum up to that multiple of `2π`. -/
theorem windingNumber_angle (v : List Pt) (pt : Pt) (h : ∀ e ∈ sides v, pt ∉ segment ℝ e.1 e.2) :
    ∃ w : ℤ, windingNumber v pt = .ret w ∧ ((sides v).map fun e => angle pt e.1 e.2).sum = 2 * Real.pi * w :=
  ⟨_, windingNumber_eq v pt, (wind_angle h).symm⟩

theorem fdiv_of_ne {a b : ℝ} (h : b ≠ 0) : Interp.fdiv a b = .ret (a / b) := by rw [Interp.fdiv, if_neg h]

theorem crossing_eq (pt a b : Pt) (n : ℕ) : crossing pt a b n = .ret (n + (winds pt a b).natAbs) := by
  classical
  rw [crossing, winds_level, level]
  by_cases h1 : pt.2 < a.2 <;> by_cases h2 : pt.2 < b.2
  · simp [h1, h2]
  · have hne : b.2 - a.2 ≠ 0 := by intro h; linarith
    simp only [h1, h2]
    rw [if_pos (by simp), fdiv_of_ne hne, Outcome.bind_ret, mul_div_assoc]
    by_cases h3 : pt.1 < absc a b pt.2
    · rw [if_pos h3, if_pos (by rw [absc] at h3; exact h3)]; simp
    · rw [if_neg h3, if_neg (by rw [absc] at h3; exact h3)]; simp
  · have hne : b.2 - a.2 ≠ 0 := by intro h; linarith
    simp only [h1, h2]
    rw [if_pos (by simp), fdiv_of_ne hne, Outcome.bind_ret, mul_div_assoc]
    by_cases h3 : pt.1 < absc a b pt.2
    · rw [if_pos h3, if_pos (by rw [absc] at h3; exact h3)]; simp
    · rw [if_neg h3, if_neg (by rw [absc] at h3; exact h3)]; simp
  · simp [h1, h2]

theorem sum_parity (l : List (Pt × Pt)) (f : Pt × Pt → ℤ) : Odd ((l.map fun e => (f e).natAbs).sum) ↔ Odd ((l.map f).sum) := by
  induction l with
  | nil => simp
  | cons e l ih =>
    simp only [List.map_cons, List.sum_cons]
    rw [Nat.odd_add, Int.odd_add, ← Nat.not_odd_iff_even, ← Int.not_odd_iff_even, ih, Int.natAbs_odd]

/-- **C112.**  `Contains` says whether the winding number is odd, for every polygon and every point. -/
theorem contains_spec (v : List Pt) (pt : Pt) : ∃ (b : Bool) (w : ℤ), contains v pt = .ret b ∧ windingNumber v pt = .ret w ∧ (b = true ↔ Odd w) := by
  refine ⟨decide (Odd (wind v pt)), wind v pt, ?_, windingNumber_eq v pt, by simp⟩
  rw [contains]
  by_cases h : v.length < 3
  · rw [if_pos h, wind, short_sum _ (fun a b => winds_swap pt a b) (fun a => winds_self pt a) h]
    simp
  · rw [if_neg h, forRange_sides v 0 (containsStep v pt) (fun p q => (winds pt p q).natAbs), zero_add, Outcome.bind_ret]
    · have := sum_parity (sides v) (fun e => winds pt e.1 e.2)
      congr 1
      rw [Bool.eq_iff_iff]
      rw [decide_eq_true_eq, beq_iff_eq, ← Nat.odd_iff, this, wind]
    · intro i p q s h1 h2
      rw [containsStep, h1, Outcome.bind_ret, h2, Outcome.bind_ret, crossing_eq]

theorem arg_div_of_re {z w : ℂ} (hz : 0 < z.re) (hw : 0 < w.re) : Complex.arg (w / z) = Complex.arg w - Complex.arg z := by
  have hz0 : z ≠ 0 := by rintro rfl; simp at hz
  have hw0 : w ≠ 0 := by rintro rfl; simp at hw
  have h := Complex.arg_div_coe_angle hw0 hz0
  rw [← Real.Angle.coe_sub] at h
  have h1 := congrArg Real.Angle.toReal h
  have e1 := Complex.abs_arg_lt_pi_div_two_iff.2 (.inl hz)
  have e2 := Complex.abs_arg_lt_pi_div_two_iff.2 (.inl hw)
  rw [abs_lt] at e1 e2
  rw [Complex.arg_coe_angle_toReal_eq_arg, Real.Angle.toReal_coe_eq_self_iff.2 ⟨by linarith, by linarith⟩] at h1
  exact h1

theorem wind_separated {v : List Pt} {pt : Pt} {u : ℝ × ℝ} (h : ∀ p ∈ v, u.1 * pt.1 + u.2 * pt.2 < u.1 * p.1 + u.2 * p.2) : wind v pt = 0 := by
  have hre : ∀ p ∈ v, 0 < (cx pt p * ⟨u.1, -u.2⟩).re := by
    intro p hp
    rw [Complex.mul_re]
    simp only [cx]
    have := h p hp
    nlinarith
  have hoff : ∀ e ∈ sides v, Off pt e.1 e.2 := by
    rintro e he ⟨s, t, hs, ht, hst, hx⟩
    obtain ⟨m1, m2⟩ := mem_sides he
    have h1 := h _ m1
    have h2 := h _ m2
    have hx1 := congrArg Prod.fst hx
    have hx2 := congrArg Prod.snd hx
    simp only [Prod.fst_add, Prod.smul_fst, smul_eq_mul, Prod.snd_add, Prod.smul_snd] at hx1 hx2
    have e : u.1 * pt.1 + u.2 * pt.2 = s * (u.1 * e.1.1 + u.2 * e.1.2) + t * (u.1 * e.2.1 + u.2 * e.2.2) := by rw [← hx1, ← hx2]; ring
    rcases hs.lt_or_eq with hs' | hs'
    · have f1 := mul_lt_mul_of_pos_left h1 hs'
      have f2 := mul_le_mul_of_nonneg_left h2.le ht
      have f3 : (s + t) * (u.1 * pt.1 + u.2 * pt.2) = u.1 * pt.1 + u.2 * pt.2 := by rw [hst, one_mul]
      linarith
    · have : t = 1 := by linarith
      rw [← hs', this] at e; linarith
  have h1 := wind_angle hoff
  have h2 : ((sides v).map fun e => angle pt e.1 e.2).sum =
      ((sides v).map fun e => Complex.arg (cx pt e.2 * ⟨u.1, -u.2⟩) - Complex.arg (cx pt e.1 * ⟨u.1, -u.2⟩)).sum := by
    refine sum_map_congr fun e he => ?_
    obtain ⟨m1, m2⟩ := mem_sides he
    rw [← arg_div_of_re (hre _ m1) (hre _ m2), angle]
    have : (⟨u.1, -u.2⟩ : ℂ) ≠ 0 := by
      intro h0
      have := hre _ m1
      rw [h0, mul_zero] at this
      simp at this
    rw [mul_div_mul_right _ _ this]
  rw [h2, sum_map_sub, sum_shift v (fun p => Complex.arg (cx pt p * ⟨u.1, -u.2⟩)), sub_self] at h1
  have := Real.pi_pos
  have h3 : (wind v pt : ℝ) = 0 := by
    rcases mul_eq_zero.1 h1 with h | h
    · linarith
    · exact h
  exact_mod_cast h3

/-- **C112.**  Points outside the convex hull of the vertices have winding number zero and are not contained. -/
theorem contains_hull (v : List Pt) (pt : Pt) (h : pt ∉ convexHull ℝ {p | p ∈ v}) :
    windingNumber v pt = .ret 0 ∧ contains v pt = .ret false := by
  have hc : IsClosed (convexHull ℝ {p | p ∈ v}) := ((List.finite_toSet v).isCompact_convexHull (𝕜 := ℝ)).isClosed
  obtain ⟨f, k, h1, h2⟩ := geometric_hahn_banach_point_closed (convex_convexHull ℝ _) hc h
  have hf : ∀ p : Pt, f p = f (1, 0) * p.1 + f (0, 1) * p.2 := by
    intro p
    have : p = p.1 • ((1, 0) : Pt) + p.2 • ((0, 1) : Pt) := by ext <;> simp
    conv_lhs => rw [this, map_add, map_smul, map_smul]
    simp only [smul_eq_mul]; ring
  have h0 : wind v pt = 0 := by
    refine wind_separated (u := (f (1, 0), f (0, 1))) fun p hp => ?_
    have := h2 p (subset_convexHull ℝ _ hp)
    have e1 := hf p
    have e2 := hf pt
    simp only
    linarith
  refine ⟨by rw [windingNumber_eq, h0], ?_⟩
  obtain ⟨b, w, e1, e2, e3⟩ := contains_spec v pt
  rw [windingNumber_eq, h0, Outcome.ret.injEq] at e2
  rw [e1]
  congr 1
  rw [← e2] at e3
  simpa using e3

/-! ## Convex polygons -/

/-- The vertices are distinct and go counterclockwise around a convex region without three of them on a line with a side: all other vertices are
strictly to the left of every side. -/
structure Convex (v : List Pt) : Prop where
  nodup : v.Nodup
  left : ∀ e ∈ sides v, ∀ p ∈ v, p ≠ e.1 → p ≠ e.2 → 0 < area2 e.1 e.2 p

theorem side_area2 (a b p : Pt) : side a b p = area2 a b p := by rw [side, area2]; ring

theorem angle_pos {pt a b : Pt} (h : 0 < side a b pt) : 0 < angle pt a b := by
  have h0 : cx pt a ≠ 0 := by
    intro h0
    have e1 := congrArg Complex.re h0
    have e2 := congrArg Complex.im h0
    simp only [cx, Complex.zero_re, Complex.zero_im] at e1 e2
    rw [side_eq, e1, e2] at h
    simp at h
  have him : 0 < (cx pt b / cx pt a).im := by
    rw [Complex.div_im, ← sub_div]
    refine div_pos ?_ (Complex.normSq_pos.2 h0)
    rw [side_eq] at h
    simp only [cx]
    linarith
  have h1 : 0 ≤ angle pt a b := Complex.arg_nonneg_iff.2 him.le
  refine lt_of_le_of_ne h1 fun h2 => ?_
  have := (Complex.arg_eq_zero_iff.1 h2.symm).2
  linarith

theorem off_of_side {pt a b : Pt} (h : side a b pt ≠ 0) : Off pt a b := by
  rintro ⟨s, t, hs, ht, hst, rfl⟩
  apply h
  have : s = 1 - t := by linarith
  subst this
  simp only [side, Prod.fst_add, Prod.smul_fst, smul_eq_mul, Prod.snd_add, Prod.smul_snd]
  ring

/-- Where two sides of a convex polygon go up through the same height they are equal. -/
theorem up_unique {v : List Pt} (h : Convex v) {e e' : Pt × Pt} (he : e ∈ sides v) (he' : e' ∈ sides v) {y : ℝ}
    (h1 : e.1.2 ≤ y) (h2 : y < e.2.2) (h3 : e'.1.2 ≤ y) (h4 : y < e'.2.2) (hx : absc e.1 e.2 y ≤ absc e'.1 e'.2 y) : e.1 = e'.1 := by
  by_contra hne
  obtain ⟨m1, m2⟩ := mem_sides he'
  have hd : 0 < e.2.2 - e.1.2 := by linarith
  have hd' : 0 < e'.2.2 - e'.1.2 := by linarith
  -- the point of the second side at that height is left of the first side, or on it
  set t := (y - e'.1.2) / (e'.2.2 - e'.1.2) with ht
  have ht0 : 0 ≤ t := div_nonneg (by linarith) hd'.le
  have ht1 : t < 1 := (div_lt_one hd').2 (by linarith)
  have hX : absc e'.1 e'.2 y = (1 - t) * e'.1.1 + t * e'.2.1 := by rw [absc, ht]; field_simp; ring
  have hY : y = (1 - t) * e'.1.2 + t * e'.2.2 := by rw [ht]; field_simp; ring
  have hs : side e.1 e.2 (absc e'.1 e'.2 y, y) = (1 - t) * side e.1 e.2 e'.1 + t * side e.1 e.2 e'.2 := by
    rw [hX]
    conv_lhs => rw [hY]
    simp only [side]; ring
  have hs0 : side e.1 e.2 (absc e'.1 e'.2 y, y) ≤ 0 := by
    have : side e.1 e.2 (absc e'.1 e'.2 y, y) = (absc e.1 e.2 y - absc e'.1 e'.2 y) * (e.2.2 - e.1.2) := by
      rw [side]
      have : absc e.1 e.2 y * (e.2.2 - e.1.2) = e.1.1 * (e.2.2 - e.1.2) + (y - e.1.2) * (e.2.1 - e.1.1) := by
        rw [absc]; field_simp
      rw [sub_mul (absc e.1 e.2 y), this]
      ring
    rw [this]
    exact mul_nonpos_of_nonpos_of_nonneg (by linarith) hd.le
  have hA : 0 < side e.1 e.2 e'.1 := by
    rw [side_area2]
    refine h.left e he _ m1 (fun h => hne h.symm) ?_
    intro h
    rw [h] at h3
    linarith
  have hB : 0 ≤ side e.1 e.2 e'.2 := by
    by_cases g1 : e'.2 = e.1
    · rw [g1, side]; simp
    by_cases g2 : e'.2 = e.2
    · rw [g2, side]; simp [mul_comm]
    · rw [side_area2]; exact (h.left e he _ m2 g1 g2).le
  have : 0 < (1 - t) * side e.1 e.2 e'.1 := mul_pos (by linarith) hA
  have : 0 ≤ t * side e.1 e.2 e'.2 := mul_nonneg ht0 hB
  linarith

theorem sum_le_one (l : List (Pt × Pt)) (f : Pt × Pt → ℤ) (h : ∀ e ∈ l, f e = 0 ∨ f e = 1)
    (hu : l.Pairwise fun e e' => ¬(f e = 1 ∧ f e' = 1)) : (l.map f).sum ≤ 1 := by
  induction l with
  | nil => simp
  | cons e l ih =>
    rw [List.pairwise_cons] at hu
    have := ih (fun e he => h e (by simp [he])) hu.2
    simp only [List.map_cons, List.sum_cons]
    rcases h e (by simp) with h0 | h0
    · omega
    · have : (l.map f).sum = 0 := by
        rw [sum_map_congr (g := fun _ => (0 : ℤ))]
        · simp
        · intro e' he'
          rcases h e' (by simp [he']) with h1 | h1
          · exact h1
          · exact absurd ⟨h0, h1⟩ (hu.1 e' he')
      omega

/-- **C112.**  Points strictly to the left of all sides of a convex counterclockwise polygon are contained in it, with winding number 1. -/
theorem convex_inside (v : List Pt) (hv : Convex v) (hne : v ≠ []) (pt : Pt) (h : ∀ e ∈ sides v, 0 < area2 e.1 e.2 pt) :
    windingNumber v pt = .ret 1 ∧ contains v pt = .ret true := by
  classical
  have hw : ∀ e ∈ sides v, winds pt e.1 e.2 = if e.1.2 ≤ pt.2 ∧ pt.2 < e.2.2 then 1 else 0 := by
    intro e he
    have := h e he
    rw [← side_area2] at this
    rw [winds, if_pos this, if_neg (not_lt.2 this.le)]
    by_cases h1 : e.1.2 ≤ pt.2 <;> by_cases h2 : pt.2 < e.2.2 <;> simp [h1, h2]
  have hle : wind v pt ≤ 1 := by
    refine sum_le_one _ _ ?_ ?_
    · intro e he
      rw [hw e he]; split_ifs <;> simp
    · have hnd : (sides v).Pairwise fun e e' => e.1 ≠ e'.1 := by
        have := hv.nodup
        rw [← map_fst_sides v, List.Nodup, List.pairwise_map] at this
        exact this
      refine hnd.imp_of_mem fun {e e'} he he' hn ⟨g1, g2⟩ => hn ?_
      rw [hw e he] at g1
      rw [hw e' he'] at g2
      have g1 : e.1.2 ≤ pt.2 ∧ pt.2 < e.2.2 := by by_contra hc; rw [if_neg hc] at g1; exact absurd g1 (by norm_num)
      have g2 : e'.1.2 ≤ pt.2 ∧ pt.2 < e'.2.2 := by by_contra hc; rw [if_neg hc] at g2; exact absurd g2 (by norm_num)
      rcases le_total (absc e.1 e.2 pt.2) (absc e'.1 e'.2 pt.2) with hx | hx
      · exact up_unique hv he he' g1.1 g1.2 g2.1 g2.2 hx
      · exact (up_unique hv he' he g2.1 g2.2 g1.1 g1.2 hx).symm
  have hpos : 0 < wind v pt := by
    have h1 := wind_angle (v := v) (pt := pt) fun e he => off_of_side (by rw [side_area2]; exact (h e he).ne')
    have h2 : 0 < ((sides v).map fun e => angle pt e.1 e.2).sum := by
      have hall : ∀ e ∈ sides v, 0 < angle pt e.1 e.2 := fun e he => angle_pos (by rw [side_area2]; exact h e he)
      have hs : sides v ≠ [] := by
        intro h0
        have := map_fst_sides v
        rw [h0] at this
        exact hne this.symm
      refine List.sum_pos _ ?_ (by simpa using hs)
      intro x hx
      obtain ⟨e, he, rfl⟩ := List.mem_map.1 hx
      exact hall e he
    rw [← h1] at h2
    have := (mul_pos_iff_of_pos_left Real.two_pi_pos).1 h2
    exact_mod_cast this
  have h1 : wind v pt = 1 := by omega
  refine ⟨by rw [windingNumber_eq, h1], ?_⟩
  obtain ⟨b, w, e1, e2, e3⟩ := contains_spec v pt
  rw [windingNumber_eq, h1, Outcome.ret.injEq] at e2
  rw [e1, e3.2 (by rw [← e2]; exact odd_one)]

/-- **C112.**  Points strictly to the right of a side of a convex counterclockwise polygon are not contained in it. -/
theorem convex_outside (v : List Pt) (hv : Convex v) (pt : Pt) (e : Pt × Pt) (he : e ∈ sides v) (h : area2 e.1 e.2 pt < 0) :
    windingNumber v pt = .ret 0 ∧ contains v pt = .ret false := by
  refine contains_hull v pt fun hm => ?_
  have hs : {p : Pt | p ∈ v} ⊆ {p | 0 ≤ area2 e.1 e.2 p} := by
    intro p hp
    by_cases g1 : p = e.1
    · rw [g1]; simp only [Set.mem_setOf_eq, area2]; nlinarith
    by_cases g2 : p = e.2
    · rw [g2]; simp only [Set.mem_setOf_eq, area2]; nlinarith
    · exact (hv.left e he p hp g1 g2).le
  have hc : _root_.Convex ℝ {p : Pt | 0 ≤ area2 e.1 e.2 p} := by
    intro p hp q hq s t hs ht hst
    simp only [Set.mem_setOf_eq] at hp hq ⊢
    have : area2 e.1 e.2 (s • p + t • q) = s * area2 e.1 e.2 p + t * area2 e.1 e.2 q := by
      have : s = 1 - t := by linarith
      subst this
      simp only [area2, Prod.fst_add, Prod.smul_fst, smul_eq_mul, Prod.snd_add, Prod.smul_snd]; ring
    rw [this]
    positivity
  have := convexHull_min hs hc hm
  simp only [Set.mem_setOf_eq] at this
  linarith

/-! ## Area and centroid -/

theorem signedArea_eq (v : List Pt) : signedArea v = .ret (((sides v).map fun e => e.1.1 * e.2.2 - e.1.2 * e.2.1).sum / 2) := by
  rw [signedArea]
  by_cases h : v.length < 3
  · rw [if_pos h, short_sum (fun p q : Pt => p.1 * q.2 - p.2 * q.1) (fun a b => by ring) (fun a => by ring) h, zero_div]
  · rw [if_neg h, forRange_sides v 0 (areaStep v) (fun p q => p.1 * q.2 - p.2 * q.1), zero_add, Outcome.bind_ret]
    intro i p q s h1 h2
    rw [areaStep, h1, Outcome.bind_ret, h2, Outcome.bind_ret, add_sub_assoc]

theorem sum_map_div {α : Type} (l : List α) (f : α → ℝ) (k : ℝ) : (l.map fun x => f x / k).sum = (l.map f).sum / k := by
  induction l with
  | nil => simp
  | cons a l ih => simp only [List.map_cons, List.sum_cons, ih]; ring

/-- **C112.**  The signed area is the integral of the winding number over the plane. -/
theorem signedArea_integral (v : List Pt) (w : Pt → ℤ) (hw : ∀ p, windingNumber v p = .ret (w p)) :
    Integrable (fun p => (w p : ℝ)) ∧ signedArea v = .ret (∫ p, (w p : ℝ)) ∧ area v = .ret |∫ p, (w p : ℝ)| := by
  have e : w = wind v := by
    funext p
    have := hw p
    rw [windingNumber_eq, Outcome.ret.injEq] at this
    exact this.symm
  subst e
  obtain ⟨h1, h2⟩ := integral_one v
  rw [sum_map_div] at h2
  rw [area, signedArea_eq, h2]
  exact ⟨h1, rfl, rfl⟩

theorem sum_moments (l : List (Pt × Pt)) (f g h : Pt × Pt → ℝ) : (l.map fun e => ((f e, g e, h e) : ℝ × ℝ × ℝ)).sum =
    ((l.map f).sum, (l.map g).sum, (l.map h).sum) := by
  induction l with
  | nil => rfl
  | cons e l ih => simp only [List.map_cons, List.sum_cons, ih]; rfl

theorem centroidLoop (v : List Pt) : forRange v.length ⟨0, 0, 0⟩ (centroidStep v) =
    .ret ⟨((sides v).map fun e => e.1.1 * e.2.2 - e.1.2 * e.2.1).sum,
      ((sides v).map fun e => (e.1.1 + e.2.1) * (e.1.1 * e.2.2 - e.2.1 * e.1.2)).sum,
      ((sides v).map fun e => (e.1.2 + e.2.2) * (e.1.1 * e.2.2 - e.2.1 * e.1.2)).sum⟩ := by
  obtain ⟨n, f, rfl⟩ := exists_tab v ((0, 0) : Pt)
  rw [sides_tab, sum_map_tab, sum_map_tab, sum_map_tab, length_tab]
  obtain ⟨t, h1, h2⟩ := forRange_rule (fun k (s : Moments) => s = ⟨∑ i ∈ Finset.range k, ((f i).1 * (f ((i + 1) % n)).2 - (f i).2 * (f ((i + 1) % n)).1),
      ∑ i ∈ Finset.range k, ((f i).1 + (f ((i + 1) % n)).1) * ((f i).1 * (f ((i + 1) % n)).2 - (f ((i + 1) % n)).1 * (f i).2),
      ∑ i ∈ Finset.range k, ((f i).2 + (f ((i + 1) % n)).2) * ((f i).1 * (f ((i + 1) % n)).2 - (f ((i + 1) % n)).1 * (f i).2)⟩)
    n ⟨0, 0, 0⟩ (centroidStep (tab n f)) rfl (by
      rintro i t hi rfl
      rw [centroidStep, index_tab _ hi, Outcome.bind_ret, length_tab, index_tab _ (Nat.mod_lt _ (by omega)), Outcome.bind_ret]
      refine ⟨_, rfl, ?_⟩
      rw [Finset.sum_range_succ, Finset.sum_range_succ, Finset.sum_range_succ, mul_comm (f i).2])
  rw [h1, h2]

/-- **C112.**  The centroid of a polygon of three or more vertices is the mean of the points weighted by the winding number; it is refused
exactly when the signed area is below `10⁻¹⁰` in size. -/
theorem centroid_spec (v : List Pt) (hv : 3 ≤ v.length) (w : Pt → ℤ) (hw : ∀ p, windingNumber v p = .ret (w p)) (a : ℝ) (ha : signedArea v = .ret a) :
    (|a| < 1 / 10 ^ 10 → centroid v = .exn (.mml "GeometryError")) ∧
    (1 / 10 ^ 10 ≤ |a| → ∃ c, centroid v = .ret c ∧ a * c.1 = ∫ p, (w p : ℝ) * p.1 ∧ a * c.2 = ∫ p, (w p : ℝ) * p.2) := by
  have e : w = wind v := by
    funext p
    have := hw p
    rw [windingNumber_eq, Outcome.ret.injEq] at this
    exact this.symm
  subst e
  rw [signedArea_eq, Outcome.ret.injEq] at ha
  obtain ⟨-, hx⟩ := integral_x v
  obtain ⟨-, hy⟩ := integral_y v
  rw [sum_map_div] at hx hy
  have hc : centroid v = centroidOf ⟨((sides v).map fun e => e.1.1 * e.2.2 - e.1.2 * e.2.1).sum,
      ((sides v).map fun e => (e.1.1 + e.2.1) * (e.1.1 * e.2.2 - e.2.1 * e.1.2)).sum,
      ((sides v).map fun e => (e.1.2 + e.2.2) * (e.1.1 * e.2.2 - e.2.1 * e.1.2)).sum⟩ := by
    rw [centroid, if_neg (by omega), if_neg (by omega), if_neg (by omega), centroidLoop, Outcome.bind_ret]
  rw [hc, centroidOf]
  simp only [ha, geomEps]
  constructor
  · intro h
    rw [if_pos h]
  · intro h
    have hne : a ≠ 0 := by
      rintro rfl
      rw [abs_zero] at h
      norm_num at h
    rw [if_neg (not_lt.2 h), fdiv_of_ne (by positivity), fdiv_of_ne (by positivity)]
    refine ⟨_, rfl, ?_, ?_⟩
    · rw [hx]; field_simp
    · rw [hy]; field_simp

/-- **C112.**  The centroid of a point, of two points and of the empty polygon. -/
theorem centroid_short (a b : Pt) : centroid [] = .exn (.mml "GeometryError") ∧ centroid [a] = .ret a ∧
    centroid [a, b] = .ret (midpoint ℝ a b) := by
  refine ⟨rfl, rfl, ?_⟩
  rw [midpoint_eq_smul_add]
  change Outcome.ret ((a.1 + b.1) / 2, (a.2 + b.2) / 2) = _
  congr 1
  ext
  · simp; ring
  · simp; ring

/-! ## Reversal and triangulation -/

theorem sum_sides_reverse {β : Type} [AddCommMonoid β] (v : List Pt) (g : Pt → Pt → β) :
    ((sides v.reverse).map fun e => g e.1 e.2).sum = ((sides v).map fun e => g e.2 e.1).sum := by
  obtain ⟨n, f, rfl⟩ := exists_tab v ((0, 0) : Pt)
  have hr : (tab n f).reverse = tab n (fun i => f (n - 1 - i)) := by
    apply List.ext_getElem?
    intro k
    rw [getElem?_tab]
    by_cases h : k < n
    · rw [List.getElem?_reverse (by simpa using h), length_tab, getElem?_tab, if_pos (by omega), if_pos h]
    · rw [if_neg h, List.getElem?_eq_none]
      simpa using h
  rw [hr, sides_tab, sides_tab, sum_map_tab, sum_map_tab]
  rcases n with _ | m
  · rfl
  · refine Finset.sum_bij' (fun i _ => if i = m then m else m - 1 - i) (fun i _ => if i = m then m else m - 1 - i) ?_ ?_ ?_ ?_ ?_
    · intro i hi; rw [Finset.mem_range] at *; split_ifs <;> omega
    · intro i hi; rw [Finset.mem_range] at *; split_ifs <;> omega
    · intro i hi; rw [Finset.mem_range] at *; split_ifs <;> omega
    · intro i hi; rw [Finset.mem_range] at *; split_ifs <;> omega
    · intro i hi
      rw [Finset.mem_range] at hi
      by_cases h : i = m
      · subst h
        simp
      · rw [if_neg h]
        have e1 : (i + 1) % (m + 1) = i + 1 := Nat.mod_eq_of_lt (by omega)
        have e2 : (m - 1 - i + 1) % (m + 1) = m - 1 - i + 1 := Nat.mod_eq_of_lt (by omega)
        simp only [e1, e2]
        have e3 : m + 1 - 1 - i = m - 1 - i + 1 := by omega
        have e4 : m + 1 - 1 - (i + 1) = m - 1 - i := by omega
        rw [e3, e4]

/-- **C112.**  Reversing the vertices changes the signs of the area and of all winding numbers, and does not change what is contained. -/
theorem reverse_spec (v : List Pt) (pt : Pt) : ∃ (a : ℝ) (w : ℤ), signedArea v = .ret a ∧ signedArea (reverse v) = .ret (-a) ∧
    windingNumber v pt = .ret w ∧ windingNumber (reverse v) pt = .ret (-w) ∧ contains (reverse v) pt = contains v pt := by
  have hw : wind v.reverse pt = -wind v pt := by
    rw [wind, sum_sides_reverse v (fun p q => winds pt p q), wind]
    induction sides v with
    | nil => rfl
    | cons e l ih => simp only [List.map_cons, List.sum_cons, ih, winds_swap pt e.1 e.2, neg_add]
  refine ⟨_, _, signedArea_eq v, ?_, windingNumber_eq v pt, ?_, ?_⟩
  · rw [reverse, signedArea_eq, sum_sides_reverse v (fun p q : Pt => p.1 * q.2 - p.2 * q.1)]
    congr 1
    have : ((sides v).map fun e => e.2.1 * e.1.2 - e.2.2 * e.1.1).sum = -((sides v).map fun e => e.1.1 * e.2.2 - e.1.2 * e.2.1).sum := by
      induction sides v with
      | nil => simp
      | cons e l ih => simp only [List.map_cons, List.sum_cons, ih]; ring
    rw [this, neg_div]
  · rw [reverse, windingNumber_eq, hw]
  · obtain ⟨b, w, e1, e2, e3⟩ := contains_spec v pt
    obtain ⟨b', w', f1, f2, f3⟩ := contains_spec v.reverse pt
    rw [windingNumber_eq, Outcome.ret.injEq] at e2 f2
    rw [reverse, e1, f1]
    congr 1
    rw [Bool.eq_iff_iff, e3, f3, ← e2, ← f2, hw, odd_neg]

theorem fan_loop (n : ℕ) (f : ℕ → Pt) (hn : 3 ≤ n) : forFromTo 1 (n - 1) [] (fanStep (tab n f)) =
    .ret (tab (n - 2) (fun i => (⟨f 0, f (i + 1), f (i + 2)⟩ : Tri))) := by
  obtain ⟨t, h1, h2⟩ := forFromTo_rule (fun k (s : List Tri) => s = tab (k - 1) (fun i => (⟨f 0, f (i + 1), f (i + 2)⟩ : Tri)))
    1 (n - 1) (by omega) [] (fanStep (tab n f)) rfl (by
      rintro i t hi1 hi rfl
      rw [fanStep, index_tab _ (by omega), Outcome.bind_ret, index_tab _ (by omega), Outcome.bind_ret, index_tab _ (by omega), Outcome.bind_ret]
      refine ⟨_, rfl, ?_⟩
      obtain ⟨j, rfl⟩ : ∃ j, i = j + 1 := ⟨i - 1, by omega⟩
      simp only [Nat.add_sub_cancel]
      rw [tab, tab, List.range_succ, List.map_append]
      rfl)
  rw [h1, h2]
  congr 2

theorem fan_sum {β : Type} [AddCommGroup β] (n : ℕ) (f : ℕ → Pt) (g : Pt → Pt → β) (hg : ∀ a b, g b a = -g a b) :
    ∑ i ∈ Finset.range (n + 1), (g (f 0) (f (i + 1)) + g (f (i + 1)) (f (i + 2)) + g (f (i + 2)) (f 0)) =
      ∑ i ∈ Finset.range (n + 3), g (f i) (f ((i + 1) % (n + 3))) := by
  have h1 : ∑ i ∈ Finset.range (n + 3), g (f i) (f ((i + 1) % (n + 3))) = ∑ i ∈ Finset.range (n + 2), g (f i) (f (i + 1)) + g (f (n + 2)) (f 0) := by
    rw [Finset.sum_range_succ, Nat.mod_self]
    congr 1
    refine Finset.sum_congr rfl fun i hi => ?_
    rw [Finset.mem_range] at hi
    rw [Nat.mod_eq_of_lt (by omega)]
  rw [h1]
  clear h1
  induction n with
  | zero => simp [Finset.sum_range_succ]
  | succ n ih =>
    rw [Finset.sum_range_succ, ih, Finset.sum_range_succ (n := n + 2), hg (f (n + 2)) (f 0)]
    abel

/-- **C112.**  The triangulation of a polygon of `n ≥ 3` vertices has `n - 2` triangles with corners among the vertices, and they cover the plane
as the polygon does: their winding numbers add up to that of the polygon at every point, their signed areas add up to its signed area. -/
theorem triangularization_spec (v : List Pt) (hv : 3 ≤ v.length) : ∃ l, triangularization v = .ret l ∧ l.length = v.length - 2 ∧
    (∀ t ∈ l, t.a ∈ v ∧ t.b ∈ v ∧ t.c ∈ v) ∧
    (∀ pt, ∃ w : Tri → ℤ, (∀ t, windingNumber [t.a, t.b, t.c] pt = .ret (w t)) ∧ windingNumber v pt = .ret ((l.map w).sum)) ∧
    signedArea v = .ret ((l.map fun t => area2 t.a t.b t.c / 2).sum) := by
  obtain ⟨n, f, rfl⟩ := exists_tab v ((0, 0) : Pt)
  rw [length_tab] at hv
  have hl : triangularization (tab n f) = .ret (tab (n - 2) (fun i => (⟨f 0, f (i + 1), f (i + 2)⟩ : Tri))) := by
    rw [triangularization, length_tab, if_neg (by omega)]
    by_cases h : n = 3
    · subst h
      rfl
    · rw [if_neg h, fan_loop n f hv]
  have hmem : ∀ i, i < n → f i ∈ tab n f := fun i hi => List.mem_iff_getElem?.2 ⟨i, by rw [getElem?_tab, if_pos hi]⟩
  refine ⟨_, hl, by simp, ?_, fun pt => ?_, ?_⟩
  · intro t ht
    obtain ⟨i, hi⟩ := List.mem_iff_getElem?.1 ht
    rw [getElem?_tab] at hi
    by_cases h : i < n - 2
    · rw [if_pos h, Option.some.injEq] at hi
      subst hi
      exact ⟨hmem _ (by omega), hmem _ (by omega), hmem _ (by omega)⟩
    · rw [if_neg h] at hi
      cases hi
  · refine ⟨fun t => wind [t.a, t.b, t.c] pt, fun t => windingNumber_eq _ _, ?_⟩
    rw [windingNumber_eq, wind, sides_tab, sum_map_tab, sum_map_tab]
    congr 1
    obtain ⟨m, rfl⟩ : ∃ m, n = m + 3 := ⟨n - 3, by omega⟩
    rw [← fan_sum m f (fun p q => winds pt p q) (fun a b => winds_swap pt a b)]
    refine Finset.sum_congr rfl fun i _ => ?_
    rw [wind, sides_three]
    simp [add_assoc]
  · rw [signedArea_eq, sides_tab, sum_map_tab, sum_map_tab]
    congr 1
    obtain ⟨m, rfl⟩ : ∃ m, n = m + 3 := ⟨n - 3, by omega⟩
    rw [← fan_sum m f (fun p q : Pt => p.1 * q.2 - p.2 * q.1) (fun a b => by ring), Finset.sum_div]
    refine Finset.sum_congr rfl fun i _ => ?_
    rw [area2]
    ring

end Verif.CompGeo.Poly
