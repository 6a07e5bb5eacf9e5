import Verif.Geom.Lines3D
import Verif.CompGeo.PolygonProps
import Mathlib.Tactic

/-!
# C118: lines and segments in space
-/

set_option autoImplicit false

namespace Verif.Geom.L3

open Verif.CompGeo (geomEps)

/-! ## Specification -/

/-- The distance of two points of space. -/
noncomputable def eucl (a b : V3 ℝ) : ℝ := Real.sqrt ((a.x - b.x) ^ 2 + (a.y - b.y) ^ 2 + (a.z - b.z) ^ 2)

/-- The point `p + t d`. -/
def go (p d : V3 ℝ) (t : ℝ) : V3 ℝ := ⟨p.x + t * d.x, p.y + t * d.y, p.z + t * d.z⟩

/-- The point `q` is on the line. -/
def Line.On (l : Line) (q : V3 ℝ) : Prop := ∃ t : ℝ, q = go l.point l.dir t

/-- The lines a program can have, as long as it does not overwrite the members: those of the two constructors. -/
def Made (l : Line) : Prop := (∃ p d, Line.new p d = .ret l) ∨ ∃ a b, Line.through a b = .ret l

/-- The directions are parallel, in the same or in the opposite sense. -/
def Par (l m : Line) : Prop := l.dir = m.dir ∨ l.dir = V3.neg m.dir

/-- The squared sine of the angle between the directions. -/
def sin2 (l m : Line) : ℝ :=
  (l.dir.y * m.dir.z - l.dir.z * m.dir.y) ^ 2 + (l.dir.z * m.dir.x - l.dir.x * m.dir.z) ^ 2 + (l.dir.x * m.dir.y - l.dir.y * m.dir.x) ^ 2

/-! ## Vectors -/

theorem pdist_eq (a b : V3 ℝ) : pdist a b = eucl a b := by
  rw [pdist, eucl]; congr 1; ring

theorem eucl_comm (a b : V3 ℝ) : eucl a b = eucl b a := by
  rw [eucl, eucl]; congr 1; ring

theorem eucl_nonneg (a b : V3 ℝ) : 0 ≤ eucl a b := Real.sqrt_nonneg _

theorem eucl_sq (a b : V3 ℝ) : eucl a b ^ 2 = (a.x - b.x) ^ 2 + (a.y - b.y) ^ 2 + (a.z - b.z) ^ 2 := Real.sq_sqrt (by positivity)

theorem norm_sq (v : V3 ℝ) : V3.norm v ^ 2 = v.x ^ 2 + v.y ^ 2 + v.z ^ 2 := by
  rw [V3.norm, Real.sq_sqrt]
  · ring
  · nlinarith [mul_self_nonneg v.x, mul_self_nonneg v.y, mul_self_nonneg v.z]

theorem norm_nonneg (v : V3 ℝ) : 0 ≤ V3.norm v := Real.sqrt_nonneg _

theorem norm_eq_zero {v : V3 ℝ} : V3.norm v = 0 ↔ v.x = 0 ∧ v.y = 0 ∧ v.z = 0 := by
  constructor
  · intro h
    have h2 := norm_sq v
    rw [h] at h2
    refine ⟨?_, ?_, ?_⟩ <;> · apply pow_eq_zero_iff (two_ne_zero) |>.mp; nlinarith [sq_nonneg v.x, sq_nonneg v.y, sq_nonneg v.z]
  · rintro ⟨h1, h2, h3⟩
    rw [V3.norm, h1, h2, h3]
    simp

theorem norm_pos {v : V3 ℝ} (h : ¬(v.x = 0 ∧ v.y = 0 ∧ v.z = 0)) : 0 < V3.norm v :=
  lt_of_le_of_ne (norm_nonneg v) (fun e => h (norm_eq_zero.mp e.symm))

theorem unitVec_of {v : V3 ℝ} (h : ¬(v.x = 0 ∧ v.y = 0 ∧ v.z = 0)) :
    unitVec v = ⟨v.x / V3.norm v, v.y / V3.norm v, v.z / V3.norm v⟩ := by
  rw [unitVec, if_neg (fun e => h (norm_eq_zero.mp e))]

theorem unitVec_unit {v : V3 ℝ} (h : ¬(v.x = 0 ∧ v.y = 0 ∧ v.z = 0)) :
    (unitVec v).x ^ 2 + (unitVec v).y ^ 2 + (unitVec v).z ^ 2 = 1 := by
  have hp := norm_pos h
  rw [unitVec_of h]
  dsimp only
  rw [div_pow, div_pow, div_pow, norm_sq, ← add_div, ← add_div, div_self]
  rw [← norm_sq]
  positivity

theorem eucl_eq_norm (a b : V3 ℝ) : eucl a b = V3.norm (V3.sub a b) := by
  rw [eucl, V3.norm, V3.sub]; congr 1; dsimp only; ring

theorem eucl_le_of {a b c d : V3 ℝ}
    (h : (a.x - b.x) ^ 2 + (a.y - b.y) ^ 2 + (a.z - b.z) ^ 2 ≤ (c.x - d.x) ^ 2 + (c.y - d.y) ^ 2 + (c.z - d.z) ^ 2) : eucl a b ≤ eucl c d :=
  Real.sqrt_le_sqrt h

theorem eucl_eq_zero {a b : V3 ℝ} : eucl a b = 0 ↔ a = b := by
  rw [eucl_eq_norm, norm_eq_zero]
  simp only [V3.sub, V3.ext_iff, sub_eq_zero]

theorem at_eq (l : Line) (t : ℝ) : l.at t = go l.point l.dir t := by
  simp only [Line.at, V3.add, V3.scale, go, V3.mk.injEq]; refine ⟨?_, ?_, ?_⟩ <;> ring

theorem add_scale (p d : V3 ℝ) (t : ℝ) : V3.add p (V3.scale d t) = go p d t := by
  simp only [V3.add, V3.scale, go, V3.mk.injEq]; refine ⟨?_, ?_, ?_⟩ <;> ring

/-! ## Constructors -/

/-- The constructor from a point and a direction: the null vector is refused, and for every other direction the line starts at the point, its direction has
length one and the same sense, and its points are exactly the points `p + t d`. -/
theorem new_spec (p d : V3 ℝ) :
    (Line.new p d = .exn (.mml "GeometryError") ↔ d = ⟨0, 0, 0⟩) ∧
    (d ≠ ⟨0, 0, 0⟩ → ∃ l, Line.new p d = .ret l ∧ l.point = p ∧ V3.norm l.dir = 1 ∧ (∃ c, 0 < c ∧ d = V3.scale l.dir c) ∧
      ∀ q, l.On q ↔ ∃ t, q = go p d t) := by
  have hz : (d.x = 0 ∧ d.y = 0 ∧ d.z = 0) ↔ d = ⟨0, 0, 0⟩ := by rw [V3.ext_iff]
  constructor
  · rw [Line.new]
    by_cases h : d = ⟨0, 0, 0⟩
    · rw [if_pos (hz.mpr h)]; simp [h]
    · rw [if_neg (fun e => h (hz.mp e))]; simp [h]
  · intro h
    have hn : ¬(d.x = 0 ∧ d.y = 0 ∧ d.z = 0) := fun e => h (hz.mp e)
    have hp := norm_pos hn
    have hd : ∀ c : ℝ, V3.norm d * c / V3.norm d = c := fun c => mul_div_cancel_left₀ c hp.ne'
    refine ⟨⟨p, unitVec d⟩, by rw [Line.new, if_neg hn], rfl, ?_, ⟨V3.norm d, hp, ?_⟩, ?_⟩
    · have := norm_sq (unitVec d)
      rw [unitVec_unit hn] at this
      nlinarith [norm_nonneg (unitVec d)]
    · rw [unitVec_of hn]
      simp only [V3.scale, V3.ext_iff]
      refine ⟨?_, ?_, ?_⟩ <;> field_simp
    · intro q
      simp only [Line.On, unitVec_of hn, go]
      constructor
      · rintro ⟨t, rfl⟩
        refine ⟨t / V3.norm d, ?_⟩
        simp only [V3.mk.injEq]
        refine ⟨?_, ?_, ?_⟩ <;> field_simp
      · rintro ⟨t, rfl⟩
        refine ⟨t * V3.norm d, ?_⟩
        simp only [V3.mk.injEq]
        refine ⟨?_, ?_, ?_⟩ <;> field_simp

/-- The constructor from two points: equal points are refused, and for different points the line consists exactly of the points `a + t (b - a)`, so it
goes through both. -/
theorem through_spec (a b : V3 ℝ) :
    (Line.through a b = .exn (.mml "GeometryError") ↔ a = b) ∧
    (a ≠ b → ∃ l, Line.through a b = .ret l ∧ V3.norm l.dir = 1 ∧ l.On a ∧ l.On b ∧ ∀ q, l.On q ↔ ∃ t, q = go a (V3.sub b a) t) := by
  have hz : (a.x = b.x ∧ a.y = b.y ∧ a.z = b.z) ↔ a = b := by rw [V3.ext_iff]
  constructor
  · rw [Line.through]
    by_cases h : a = b
    · rw [if_pos (hz.mpr h)]; simp [h]
    · rw [if_neg (fun e => h (hz.mp e))]; simp [h]
  · intro h
    have hne : V3.sub b a ≠ ⟨0, 0, 0⟩ := by
      intro e
      apply h
      rw [V3.ext_iff] at e ⊢
      simp only [V3.sub] at e
      exact ⟨by linarith [e.1], by linarith [e.2.1], by linarith [e.2.2]⟩
    obtain ⟨l, h1, h2, h3, _, h5⟩ := (new_spec a (V3.sub b a)).2 hne
    have e : Line.through a b = .ret l := by
      rw [Line.through, if_neg (fun e => h (hz.mp e)), ← h1, Line.new, if_neg, vec]
      intro e
      exact hne (by rw [V3.ext_iff]; exact e)
    refine ⟨l, e, h3, (h5 a).mpr ⟨0, ?_⟩, (h5 b).mpr ⟨1, ?_⟩, h5⟩ <;> simp [go, V3.sub]

theorem Made.unit {l : Line} (h : Made l) : l.dir.x ^ 2 + l.dir.y ^ 2 + l.dir.z ^ 2 = 1 := by
  rw [← norm_sq]
  have : V3.norm l.dir = 1 := by
    rcases h with ⟨p, d, h⟩ | ⟨a, b, h⟩
    · by_cases hd : d = ⟨0, 0, 0⟩
      · rw [((new_spec p d).1).mpr hd] at h; cases h
      · obtain ⟨l', h1, _, h3, _⟩ := (new_spec p d).2 hd
        rw [h1] at h; cases h; exact h3
    · by_cases hd : a = b
      · rw [((through_spec a b).1).mpr hd] at h; cases h
      · obtain ⟨l', h1, h3, _⟩ := (through_spec a b).2 hd
        rw [h1] at h; cases h; exact h3
  rw [this]; norm_num

theorem Made.norm {l : Line} (h : Made l) : V3.norm l.dir = 1 := by
  have := h.unit
  rw [← norm_sq] at this
  nlinarith [norm_nonneg l.dir]

/-- `l(t)` is the point at the distance `|t|` from the start, and all points of the line are of this form. -/
theorem at_spec {l : Line} (h : Made l) : (∀ t, l.On (l.at t) ∧ eucl l.point (l.at t) = |t|) ∧ ∀ q, l.On q → ∃ t, q = l.at t := by
  refine ⟨fun t => ⟨⟨t, at_eq l t⟩, ?_⟩, fun q ⟨t, e⟩ => ⟨t, by rw [at_eq, e]⟩⟩
  rw [at_eq, eucl, go, ← Real.sqrt_sq_eq_abs]
  congr 1
  have := h.unit
  dsimp only
  linear_combination t ^ 2 * this

/-! ## Distance of a point -/

/-- The parameter of the foot of the perpendicular from `p`. -/
noncomputable def foot (l : Line) (p : V3 ℝ) : ℝ := V3.dot (vec l.point p) l.dir

theorem nearest_eq {l : Line} (h : Made l) (p : V3 ℝ) : l.nearest p = .ret (go l.point l.dir (foot l p)) := by
  rw [Line.nearest, h.norm, CompGeo.Poly.fdiv_of_ne (by norm_num), Outcome.bind_ret, add_scale, foot]
  norm_num

/-- Pythagoras: the squared distance of `p` from a point of the line. -/
theorem pyth {l : Line} (h : Made l) (p : V3 ℝ) (t : ℝ) :
    eucl p (go l.point l.dir t) ^ 2 = l.numer p + (t - foot l p) ^ 2 := by
  have h1 := h.unit
  rw [eucl_sq]
  simp only [go, Line.numer, foot, V3.dot, vec, V3.sub]
  linear_combination (t ^ 2 - (p.x - l.point.x) ^ 2 - (p.y - l.point.y) ^ 2 - (p.z - l.point.z) ^ 2) * h1

theorem numer_nonneg (l : Line) (p : V3 ℝ) : 0 ≤ l.numer p := by
  rw [Line.numer]; positivity

theorem dist_eq {l : Line} (h : Made l) (p : V3 ℝ) : l.dist p = .ret (eucl p (go l.point l.dir (foot l p))) := by
  have h1 := h.unit
  have h2 : l.dir.x * l.dir.x + l.dir.y * l.dir.y + l.dir.z * l.dir.z = 1 := by linarith
  rw [Line.dist, h2, CompGeo.Poly.fdiv_of_ne one_ne_zero, Outcome.bind_ret, div_one]
  have := pyth h p (foot l p)
  rw [sub_self] at this
  rw [show l.numer p = eucl p (go l.point l.dir (foot l p)) ^ 2 by rw [this]; ring, Real.sqrt_sq (eucl_nonneg _ _)]

/-- `NearestPointOnLine` is the one point of the line nearest to `p`, and `Dist(pnt)` is its distance. -/
theorem dist_spec {l : Line} (h : Made l) (p : V3 ℝ) :
    ∃ d q, l.dist p = .ret d ∧ l.nearest p = .ret q ∧ l.On q ∧ eucl p q = d ∧ ∀ r, l.On r → d ≤ eucl p r ∧ (eucl p r = d → r = q) := by
  refine ⟨_, _, dist_eq h p, nearest_eq h p, ⟨_, rfl⟩, rfl, ?_⟩
  rintro r ⟨t, rfl⟩
  have h1 := pyth h p t
  have h2 := pyth h p (foot l p)
  rw [sub_self] at h2
  constructor
  · refine (sq_le_sq₀ (eucl_nonneg _ _) (eucl_nonneg _ _)).mp ?_
    rw [h1, h2]; nlinarith [sq_nonneg (t - foot l p)]
  · intro e
    rw [e, h2] at h1
    have : t - foot l p = 0 := by
      apply pow_eq_zero_iff (two_ne_zero) |>.mp; linarith
    rw [sub_eq_zero.mp this]

/-- `IsPointOnLine`: the point is nearer than the tolerance to some point of the line. -/
theorem onLine_spec {l : Line} (h : Made l) (p : V3 ℝ) {eps : ℝ} (he : 0 < eps) :
    l.onLine p eps = true ↔ ∃ q, l.On q ∧ eucl p q < eps := by
  have hc : V3.norm (V3.cross (vec l.point p) l.dir) = eucl p (go l.point l.dir (foot l p)) := by
    have := pyth h p (foot l p)
    have h2 := norm_sq (V3.cross (vec l.point p) l.dir)
    have h3 : V3.norm (V3.cross (vec l.point p) l.dir) ^ 2 = eucl p (go l.point l.dir (foot l p)) ^ 2 := by
      rw [this, h2]; simp only [V3.cross, vec, V3.sub, Line.numer]; ring
    exact (sq_eq_sq₀ (norm_nonneg _) (eucl_nonneg _ _)).mp h3
  rw [Line.onLine]
  by_cases hs : p.x = l.point.x ∧ p.y = l.point.y ∧ p.z = l.point.z
  · rw [if_pos hs]
    have hp : p = l.point := V3.ext_iff.mpr hs
    refine ⟨fun _ => ⟨p, ⟨0, by rw [hp, go]; simp⟩, by rw [eucl_eq_zero.mpr rfl]; exact he⟩, fun _ => rfl⟩
  · rw [if_neg hs, hc, decide_eq_true_iff]
    constructor
    · intro h1; exact ⟨_, ⟨_, rfl⟩, h1⟩
    · rintro ⟨q, hq, h1⟩
      obtain ⟨d, q', e1, _, _, e3, e4⟩ := dist_spec h p
      rw [dist_eq h p] at e1
      cases e1
      exact lt_of_le_of_lt (e4 q hq).1 h1

/-! ## Distance of two lines -/

theorem sin2_eq (l m : Line) : V3.norm (l.normal m) ^ 2 = sin2 l m := by
  rw [norm_sq]; rfl

theorem par_of_zero {l m : Line} (hl : Made l) (hm : Made m) (h : sin2 l m = 0) : Par l m := by
  have u := hl.unit
  have v := hm.unit
  rw [sin2] at h
  have a1 := sq_nonneg (l.dir.y * m.dir.z - l.dir.z * m.dir.y)
  have a2 := sq_nonneg (l.dir.z * m.dir.x - l.dir.x * m.dir.z)
  have a3 := sq_nonneg (l.dir.x * m.dir.y - l.dir.y * m.dir.x)
  have b1 : l.dir.y * m.dir.z - l.dir.z * m.dir.y = 0 := pow_eq_zero_iff (two_ne_zero) |>.mp (by linarith)
  have b2 : l.dir.z * m.dir.x - l.dir.x * m.dir.z = 0 := pow_eq_zero_iff (two_ne_zero) |>.mp (by linarith)
  have b3 : l.dir.x * m.dir.y - l.dir.y * m.dir.x = 0 := pow_eq_zero_iff (two_ne_zero) |>.mp (by linarith)
  set c := l.dir.x * m.dir.x + l.dir.y * m.dir.y + l.dir.z * m.dir.z with hc
  have e1 : l.dir.x = c * m.dir.x := by rw [hc]; linear_combination (-l.dir.x) * v + m.dir.y * b3 - m.dir.z * b2
  have e2 : l.dir.y = c * m.dir.y := by rw [hc]; linear_combination (-l.dir.y) * v - m.dir.x * b3 + m.dir.z * b1
  have e3 : l.dir.z = c * m.dir.z := by rw [hc]; linear_combination (-l.dir.z) * v + m.dir.x * b2 - m.dir.y * b1
  have hc1 : c ^ 2 = 1 := by
    rw [e1, e2, e3] at u
    linear_combination u - c ^ 2 * v
  rcases mul_self_eq_one_iff.mp (show c * c = 1 by rw [← sq]; exact hc1) with h1 | h1
  · left; rw [V3.ext_iff]; rw [h1] at e1 e2 e3; exact ⟨by linarith, by linarith, by linarith⟩
  · right; rw [V3.ext_iff]; rw [h1] at e1 e2 e3; exact ⟨by rw [e1]; simp [V3.neg], by rw [e2]; simp [V3.neg], by rw [e3]; simp [V3.neg]⟩

theorem sin2_of_par {l m : Line} (h : Par l m) : sin2 l m = 0 := by
  rcases h with h | h
  · rw [sin2, h]; ring
  · rw [sin2, h]; simp only [V3.neg]; ring

theorem sin2_nonneg (l m : Line) : 0 ≤ sin2 l m := by rw [sin2]; positivity

theorem isZero_iff (l m : Line) : isZero (l.normal m) ↔ sin2 l m = 0 := by
  rw [isZero, ← norm_eq_zero, ← sin2_eq]; simp

/-- The parameter on the first line of the common perpendicular. -/
noncomputable def par1 (l m : Line) : ℝ := V3.dot (V3.cross m.dir (l.normal m)) (vec l.point m.point) / sin2 l m
/-- The parameter on the second line of the common perpendicular. -/
noncomputable def par2 (l m : Line) : ℝ := V3.dot (V3.cross l.dir (l.normal m)) (vec l.point m.point) / sin2 l m

/-- The component along the common perpendicular of the vector between the lines. -/
noncomputable def gap (l m : Line) : ℝ := V3.dot (l.normal m) (vec l.point m.point)

theorem cauchy (a b c x y z : ℝ) : (-(a * x + b * y + c * z)) ^ 2 ≤ (a ^ 2 + b ^ 2 + c ^ 2) * (x ^ 2 + y ^ 2 + z ^ 2) := by
  nlinarith [sq_nonneg (a * y - b * x), sq_nonneg (b * z - c * y), sq_nonneg (c * x - a * z)]

theorem sep_lower (l m : Line) (t1 t2 : ℝ) : gap l m ^ 2 ≤ sin2 l m * eucl (go l.point l.dir t1) (go m.point m.dir t2) ^ 2 := by
  rw [eucl_sq]
  simp only [go, gap, sin2, V3.dot, vec, V3.sub, Line.normal, V3.cross]
  have hg : (l.dir.y * m.dir.z - l.dir.z * m.dir.y) * (m.point.x - l.point.x) + (l.dir.z * m.dir.x - l.dir.x * m.dir.z) * (m.point.y - l.point.y) +
      (l.dir.x * m.dir.y - l.dir.y * m.dir.x) * (m.point.z - l.point.z) =
      -((l.dir.y * m.dir.z - l.dir.z * m.dir.y) * (l.point.x + t1 * l.dir.x - (m.point.x + t2 * m.dir.x)) +
        (l.dir.z * m.dir.x - l.dir.x * m.dir.z) * (l.point.y + t1 * l.dir.y - (m.point.y + t2 * m.dir.y)) +
        (l.dir.x * m.dir.y - l.dir.y * m.dir.x) * (l.point.z + t1 * l.dir.z - (m.point.z + t2 * m.dir.z))) := by ring
  rw [hg]
  exact cauchy _ _ _ _ _ _

theorem sep_attained {l m : Line} (h : sin2 l m ≠ 0) :
    sin2 l m * eucl (go l.point l.dir (par1 l m)) (go m.point m.dir (par2 l m)) ^ 2 = gap l m ^ 2 := by
  have k1 : sin2 l m * par1 l m = V3.dot (V3.cross m.dir (l.normal m)) (vec l.point m.point) := by rw [par1]; field_simp
  have k2 : sin2 l m * par2 l m = V3.dot (V3.cross l.dir (l.normal m)) (vec l.point m.point) := by rw [par2]; field_simp
  have key : ∀ (px dx qx ex nx : ℝ),
      sin2 l m * (qx - px) = gap l m * nx + V3.dot (V3.cross m.dir (l.normal m)) (vec l.point m.point) * dx -
        V3.dot (V3.cross l.dir (l.normal m)) (vec l.point m.point) * ex →
      sin2 l m * (px + par1 l m * dx - (qx + par2 l m * ex)) = - (gap l m * nx) := by
    intro px dx qx ex nx e
    rw [← k1, ← k2] at e
    linarith
  have e1 := key l.point.x l.dir.x m.point.x m.dir.x (l.normal m).x (by
    simp only [gap, sin2, V3.dot, vec, V3.sub, Line.normal, V3.cross]; ring)
  have e2 := key l.point.y l.dir.y m.point.y m.dir.y (l.normal m).y (by
    simp only [gap, sin2, V3.dot, vec, V3.sub, Line.normal, V3.cross]; ring)
  have e3 := key l.point.z l.dir.z m.point.z m.dir.z (l.normal m).z (by
    simp only [gap, sin2, V3.dot, vec, V3.sub, Line.normal, V3.cross]; ring)
  have hn : (l.normal m).x ^ 2 + (l.normal m).y ^ 2 + (l.normal m).z ^ 2 = sin2 l m := rfl
  rw [eucl_sq]
  simp only [go]
  apply mul_left_cancel₀ h
  rw [show sin2 l m * (sin2 l m * ((l.point.x + par1 l m * l.dir.x - (m.point.x + par2 l m * m.dir.x)) ^ 2 +
        (l.point.y + par1 l m * l.dir.y - (m.point.y + par2 l m * m.dir.y)) ^ 2 +
        (l.point.z + par1 l m * l.dir.z - (m.point.z + par2 l m * m.dir.z)) ^ 2)) =
      (sin2 l m * (l.point.x + par1 l m * l.dir.x - (m.point.x + par2 l m * m.dir.x))) ^ 2 +
      (sin2 l m * (l.point.y + par1 l m * l.dir.y - (m.point.y + par2 l m * m.dir.y))) ^ 2 +
      (sin2 l m * (l.point.z + par1 l m * l.dir.z - (m.point.z + par2 l m * m.dir.z))) ^ 2 by ring, e1, e2, e3]
  linear_combination gap l m ^ 2 * hn

theorem sep_min {l m : Line} (h : sin2 l m ≠ 0) (t1 t2 : ℝ) :
    eucl (go l.point l.dir (par1 l m)) (go m.point m.dir (par2 l m)) ≤ eucl (go l.point l.dir t1) (go m.point m.dir t2) := by
  refine (sq_le_sq₀ (eucl_nonneg _ _) (eucl_nonneg _ _)).mp ?_
  have h1 := sep_lower l m t1 t2
  rw [← sep_attained h] at h1
  exact le_of_mul_le_mul_left h1 (lt_of_le_of_ne (sin2_nonneg l m) (Ne.symm h))

theorem norm_normal_ne {l m : Line} (h : sin2 l m ≠ 0) : V3.norm (l.normal m) ≠ 0 := by
  rw [← sin2_eq] at h; exact fun e => h (by rw [e]; norm_num)

theorem distSkew_eq {l m : Line} (h : sin2 l m ≠ 0) :
    l.distSkew m = .ret (eucl (go l.point l.dir (par1 l m)) (go m.point m.dir (par2 l m))) := by
  have hn := norm_normal_ne h
  rw [Line.distSkew, CompGeo.Poly.fdiv_of_ne hn]
  congr 1
  rw [div_eq_iff hn]
  refine (sq_eq_sq₀ (abs_nonneg _) (mul_nonneg (eucl_nonneg _ _) (norm_nonneg _))).mp ?_
  rw [sq_abs, mul_pow, sin2_eq, mul_comm, sep_attained h, gap]

/-- Lines that are not parallel: both functions give the least distance of points of the two lines, and the points given are points of the lines with this
distance. -/
theorem distLine_spec {l m : Line} (hl : Made l) (hm : Made m) (hp : ¬Par l m) :
    ∃ d q1 q2, l.distLine m = .ret d ∧ l.distPoints m = .ret (d, some (q1, q2)) ∧ l.On q1 ∧ m.On q2 ∧ eucl q1 q2 = d ∧
      ∀ r1 r2, l.On r1 → m.On r2 → d ≤ eucl r1 r2 := by
  have h : sin2 l m ≠ 0 := fun e => hp (par_of_zero hl hm e)
  have hz : ¬isZero (l.normal m) := fun e => h ((isZero_iff l m).mp e)
  have hn : V3.norm (l.normal m) ^ 2 ≠ 0 := pow_ne_zero _ (norm_normal_ne h)
  refine ⟨_, _, _, by rw [Line.distLine, if_neg hz, distSkew_eq h], ?_, ⟨par1 l m, rfl⟩, ⟨par2 l m, rfl⟩, rfl, ?_⟩
  · rw [Line.distPoints, if_neg hz, Line.nearestSkew, distSkew_eq h, Outcome.bind_ret, CompGeo.Poly.fdiv_of_ne hn, Outcome.bind_ret,
      CompGeo.Poly.fdiv_of_ne hn, Outcome.bind_ret, Outcome.bind_ret, add_scale, add_scale, sin2_eq, ← par1, ← par2]
  · rintro r1 r2 ⟨t1, rfl⟩ ⟨t2, rfl⟩
    exact sep_min h t1 t2

/-- Parallel lines: what is given is how far the second starting point is along the first line, seen from the first starting point.  That is not a distance
of the lines (`distLine_wrong`). -/
theorem distLine_parallel {l m : Line} (hm : Made m) (hp : Par l m) :
    l.distLine m = .ret (V3.dot (V3.sub m.point l.point) l.dir) ∧ l.distPoints m = .ret (V3.dot (V3.sub m.point l.point) l.dir, none) := by
  have hz : isZero (l.normal m) := (isZero_iff l m).mpr (sin2_of_par hp)
  have e : l.distPar m = .ret (V3.dot (V3.sub m.point l.point) l.dir) := by
    rw [Line.distPar, hm.norm, CompGeo.Poly.fdiv_of_ne one_ne_zero, div_one, vec]
  rw [Line.distLine, if_pos hz, Line.distPoints, if_pos hz, e, Outcome.bind_ret]
  exact ⟨rfl, rfl⟩

/-! ## Intersection -/

theorem params_eq {l m : Line} (h : sin2 l m ≠ 0) : l.params m = .ret (par1 l m, par2 l m) := by
  have e : V3.dot l.dir l.dir * V3.dot m.dir m.dir - V3.dot l.dir m.dir * V3.dot l.dir m.dir = sin2 l m := by
    simp only [V3.dot, sin2]; ring
  rw [Line.params, e, CompGeo.Poly.fdiv_of_ne h, Outcome.bind_ret, CompGeo.Poly.fdiv_of_ne h, Outcome.bind_ret, par1, par2]
  congr 2
  · congr 1; simp only [V3.dot, V3.cross, vec, V3.sub, Line.normal]; ring
  · congr 1; simp only [V3.dot, V3.cross, vec, V3.sub, Line.normal]; ring

theorem sep_unique {l m : Line} (h : sin2 l m ≠ 0) {t1 t2 s1 s2 : ℝ} (e : go l.point l.dir t1 = go m.point m.dir t2)
    (e' : go l.point l.dir s1 = go m.point m.dir s2) : t1 = s1 ∧ t2 = s2 := by
  simp only [go, V3.mk.injEq] at e e'
  obtain ⟨a1, a2, a3⟩ := e
  obtain ⟨b1, b2, b3⟩ := e'
  have c1 : (t1 - s1) * l.dir.x = (t2 - s2) * m.dir.x := by linarith
  have c2 : (t1 - s1) * l.dir.y = (t2 - s2) * m.dir.y := by linarith
  have c3 : (t1 - s1) * l.dir.z = (t2 - s2) * m.dir.z := by linarith
  have d1 : (t1 - s1) * sin2 l m = 0 := by
    rw [sin2]
    linear_combination (l.dir.y * m.dir.z - l.dir.z * m.dir.y) * (m.dir.z * c2 - m.dir.y * c3) +
      (l.dir.z * m.dir.x - l.dir.x * m.dir.z) * (m.dir.x * c3 - m.dir.z * c1) + (l.dir.x * m.dir.y - l.dir.y * m.dir.x) * (m.dir.y * c1 - m.dir.x * c2)
  have d2 : (t2 - s2) * sin2 l m = 0 := by
    rw [sin2]
    linear_combination (l.dir.y * m.dir.z - l.dir.z * m.dir.y) * (l.dir.z * c2 - l.dir.y * c3) +
      (l.dir.z * m.dir.x - l.dir.x * m.dir.z) * (l.dir.x * c3 - l.dir.z * c1) + (l.dir.x * m.dir.y - l.dir.y * m.dir.x) * (l.dir.y * c1 - l.dir.x * c2)
  exact ⟨sub_eq_zero.mp ((mul_eq_zero.mp d1).resolve_right h), sub_eq_zero.mp ((mul_eq_zero.mp d2).resolve_right h)⟩

/-- `Intersection` of lines whose directions make an angle with sine at least `1e-10`: the points are points of the lines with the given parameters, their
distance is given and is the least of all, and the type is `Point` if it is below `1e-10` and `Skew` otherwise. -/
theorem intersection_spec {l m : Line} (h : geomEps ^ 2 ≤ sin2 l m) :
    ∃ r, l.intersection m = .ret r ∧ r.point1 = go l.point l.dir r.t1 ∧ r.point2 = go m.point m.dir r.t2 ∧ r.distance = eucl r.point1 r.point2 ∧
      (∀ q1 q2, l.On q1 → m.On q2 → r.distance ≤ eucl q1 q2) ∧ (r.distance < geomEps → r.type = .point) ∧ (geomEps ≤ r.distance → r.type = .skew) := by
  have h0 : sin2 l m ≠ 0 := by
    have : (0 : ℝ) < geomEps ^ 2 := by norm_num [geomEps]
    linarith
  have hn : ¬ V3.norm (l.normal m) * V3.norm (l.normal m) < geomEps * geomEps := by
    rw [← sq, ← sq, sin2_eq]; linarith
  refine ⟨meetAt l m (par1 l m) (par2 l m), ?_, at_eq _ _, at_eq _ _, pdist_eq _ _, ?_, ?_, ?_⟩
  · rw [Line.intersection, if_neg hn, params_eq h0, Outcome.bind_ret]
  · rintro q1 q2 ⟨t1, rfl⟩ ⟨t2, rfl⟩
    simp only [meetAt, pdist_eq, at_eq]
    exact sep_min h0 t1 t2
  · intro hd; simp only [meetAt] at hd ⊢; rw [if_pos hd]
  · intro hd; simp only [meetAt] at hd ⊢; rw [if_neg (not_lt.mpr hd)]

/-- Lines that really meet (with a sine of at least `1e-10`): the type is `Point`, and the point given, by both functions, is the only common point. -/
theorem intersection_meet {l m : Line} (h : geomEps ^ 2 ≤ sin2 l m) {q : V3 ℝ} (h1 : l.On q) (h2 : m.On q) :
    (∃ r, l.intersection m = .ret r ∧ r.type = .point ∧ r.point1 = q ∧ r.point2 = q ∧ r.distance = 0) ∧ l.intersects m = .ret (some q) ∧
      ∀ q', l.On q' → m.On q' → q' = q := by
  have h0 : sin2 l m ≠ 0 := by
    have : (0 : ℝ) < geomEps ^ 2 := by norm_num [geomEps]
    linarith
  obtain ⟨r, e, a1, a2, a3, a4, a5, a6⟩ := intersection_spec h
  have hd : r.distance = 0 := le_antisymm ((a4 q q h1 h2).trans (eucl_eq_zero.mpr rfl).le) (by rw [a3]; exact eucl_nonneg _ _)
  have ht : r.type = .point := a5 (by rw [hd]; norm_num [geomEps])
  have hu : ∀ q', l.On q' → m.On q' → q' = q := by
    rintro q' ⟨s1, k1⟩ ⟨s2, k2⟩
    obtain ⟨t1, k3⟩ := h1
    obtain ⟨t2, k4⟩ := h2
    have := (sep_unique h0 (k3.symm.trans k4) (k1.symm.trans k2)).1
    rw [k1, k3, this]
  have hpq : r.point1 = r.point2 := eucl_eq_zero.mp (by rw [← a3, hd])
  have hq : r.point1 = q := hu _ ⟨_, a1⟩ (by rw [hpq]; exact ⟨_, a2⟩)
  refine ⟨⟨r, e, ht, hq, by rw [← hpq, hq], hd⟩, ?_, hu⟩
  rw [Line.intersects, e, Outcome.bind_ret, ht]
  simp only [hq]

/-- Lines that pass each other at a distance of at least `1e-10` are not said to meet. -/
theorem intersects_skew {l m : Line} (h : geomEps ^ 2 ≤ sin2 l m) (hd : ∀ q1 q2, l.On q1 → m.On q2 → geomEps ≤ eucl q1 q2) :
    l.intersects m = .ret none := by
  obtain ⟨r, e, a1, a2, a3, a4, a5, a6⟩ := intersection_spec h
  rw [Line.intersects, e, Outcome.bind_ret, a6 (by rw [a3]; exact hd _ _ ⟨_, a1⟩ ⟨_, a2⟩)]

/-- Parallel lines: `Coincident` if they are nearer than `1e-10`, and `Intersects` gives the starting point; `Parallel` otherwise, with no point. -/
theorem intersection_parallel {l m : Line} (hl : Made l) (hp : Par l m) :
    ((∃ q1 q2, l.On q1 ∧ m.On q2 ∧ eucl q1 q2 < geomEps) →
      (∃ r, l.intersection m = .ret r ∧ r.type = .coincident) ∧ l.intersects m = .ret (some l.point)) ∧
    ((∀ q1 q2, l.On q1 → m.On q2 → geomEps ≤ eucl q1 q2) → (∃ r, l.intersection m = .ret r ∧ r.type = .parallel) ∧ l.intersects m = .ret none) := by
  have hz := sin2_of_par hp
  have hn : V3.norm (l.normal m) * V3.norm (l.normal m) < geomEps * geomEps := by
    rw [← sq, sin2_eq, hz]; norm_num [geomEps]
  have hi : l.intersection m = .ret (parallelMeet l.dir (vec m.point l.point)) := by rw [Line.intersection, if_pos hn]
  have hc : V3.norm (V3.cross l.dir (vec m.point l.point)) = eucl m.point (go l.point l.dir (foot l m.point)) := by
    have := pyth hl m.point (foot l m.point)
    refine (sq_eq_sq₀ (norm_nonneg _) (eucl_nonneg _ _)).mp ?_
    rw [this, norm_sq]; simp only [V3.cross, vec, V3.sub, Line.numer]; ring
  constructor
  · rintro ⟨q1, q2, ⟨t1, rfl⟩, ⟨t2, rfl⟩, hlt⟩
    obtain ⟨s, hs⟩ : ∃ s, eucl (go l.point l.dir t1) (go m.point m.dir t2) = eucl m.point (go l.point l.dir s) := by
      rcases hp with h | h
      · refine ⟨t1 - t2, ?_⟩
        rw [eucl_comm, eucl, eucl, h]; congr 1; simp only [go]; ring
      · refine ⟨t1 + t2, ?_⟩
        rw [eucl_comm, eucl, eucl, h]; congr 1; simp only [go, V3.neg]; ring
    have hlt2 : V3.norm (V3.cross l.dir (vec m.point l.point)) < geomEps := by
      rw [hc]
      obtain ⟨d, q', e1, _, _, e3, e4⟩ := dist_spec hl m.point
      rw [dist_eq hl] at e1
      cases e1
      refine lt_of_le_of_lt (e4 _ ⟨s, rfl⟩).1 ?_
      rw [← hs]; exact hlt
    have ht : (parallelMeet l.dir (vec m.point l.point)).type = .coincident := by rw [parallelMeet, if_pos hlt2]
    refine ⟨⟨_, hi, ht⟩, ?_⟩
    rw [Line.intersects, hi, Outcome.bind_ret, ht]
  · intro h
    have hge : ¬ V3.norm (V3.cross l.dir (vec m.point l.point)) < geomEps := by
      rw [hc, eucl_comm, not_lt]
      exact h _ _ ⟨_, rfl⟩ ⟨0, by simp [go]⟩
    have ht : (parallelMeet l.dir (vec m.point l.point)).type = .parallel := by rw [parallelMeet, if_neg hge]
    refine ⟨⟨_, hi, ht⟩, ?_⟩
    rw [Line.intersects, hi, Outcome.bind_ret, ht]

/-- `Intersection` always returns, and says `Point` or `Coincident` only for lines that come within `1e-10` of each other. -/
theorem intersection_sound {l m : Line} (hl : Made l) : ∃ r, l.intersection m = .ret r ∧
    (r.type = .point ∨ r.type = .coincident → ∃ q1 q2, l.On q1 ∧ m.On q2 ∧ eucl q1 q2 < geomEps) := by
  by_cases h : geomEps ^ 2 ≤ sin2 l m
  · obtain ⟨r, e, a1, a2, a3, a4, a5, a6⟩ := intersection_spec h
    refine ⟨r, e, fun ht => ⟨_, _, ⟨_, a1⟩, ⟨_, a2⟩, ?_⟩⟩
    by_contra hc
    rw [← a3] at hc
    rw [a6 (not_lt.mp hc)] at ht
    simp at ht
  · have hn : V3.norm (l.normal m) * V3.norm (l.normal m) < geomEps * geomEps := by
      rw [← sq, ← sq, sin2_eq]; linarith
    refine ⟨parallelMeet l.dir (vec m.point l.point), by rw [Line.intersection, if_pos hn], fun ht => ?_⟩
    have hc : V3.norm (V3.cross l.dir (vec m.point l.point)) = eucl m.point (go l.point l.dir (foot l m.point)) := by
      have := pyth hl m.point (foot l m.point)
      refine (sq_eq_sq₀ (norm_nonneg _) (eucl_nonneg _ _)).mp ?_
      rw [this, norm_sq]; simp only [V3.cross, vec, V3.sub, Line.numer]; ring
    refine ⟨_, _, ⟨foot l m.point, rfl⟩, ⟨0, (by simp [go] : m.point = go m.point m.dir 0)⟩, ?_⟩
    rw [eucl_comm, ← hc]
    by_contra hge
    rw [parallelMeet, if_neg hge] at ht
    simp at ht

/-! ## The perpendicular -/

/-- `PerpendicularLineThroughPoint`: points within `1e-10` of the line are refused; for all others the result goes through the point, is perpendicular to the
line and meets it. -/
theorem perpThrough_spec {l : Line} (h : Made l) (p : V3 ℝ) :
    ((∃ q, l.On q ∧ eucl p q < geomEps) → l.perpThrough p = .exn (.mml "GeometryError")) ∧
    ((∀ q, l.On q → geomEps ≤ eucl p q) → ∃ m, l.perpThrough p = .ret m ∧ Made m ∧ m.On p ∧ V3.dot m.dir l.dir = 0 ∧ ∃ q, l.On q ∧ m.On q) := by
  have he : (0 : ℝ) < geomEps := by norm_num [geomEps]
  constructor
  · intro hq
    rw [Line.perpThrough, if_pos ((onLine_spec h p he).mpr hq)]
  · intro hq
    have h1 : ¬ l.onLine p geomEps = true := by
      rw [onLine_spec h p he]; push Not; exact hq
    set q := go l.point l.dir (foot l p) with hqd
    have hpq : geomEps ≤ eucl p q := hq q ⟨_, rfl⟩
    have hv : ¬((vec p q).x = 0 ∧ (vec p q).y = 0 ∧ (vec p q).z = 0) := by
      intro e
      have : eucl p q = 0 := by
        rw [eucl_comm, eucl_eq_norm]
        exact norm_eq_zero.mpr e
      linarith
    have hu := unitVec_unit hv
    have hu0 : unitVec (vec p q) ≠ ⟨0, 0, 0⟩ := by
      intro e; rw [e] at hu; norm_num at hu
    obtain ⟨m, m1, m2, m3, m4, m5⟩ := (new_spec p (unitVec (vec p q))).2 hu0
    refine ⟨m, ?_, .inl ⟨_, _, m1⟩, (m5 p).mpr ⟨0, by simp [go]⟩, ?_, q, ⟨_, rfl⟩, (m5 q).mpr ⟨V3.norm (vec p q), ?_⟩⟩
    · rw [Line.perpThrough, if_neg h1, nearest_eq h, Outcome.bind_ret, ← hqd, m1]
    · obtain ⟨c, hc, m4⟩ := m4
      have hd : V3.dot (vec p q) l.dir = 0 := by
        have u := h.unit
        rw [hqd]
        simp only [V3.dot, vec, V3.sub, go, foot]
        linear_combination ((p.x - l.point.x) * l.dir.x + (p.y - l.point.y) * l.dir.y + (p.z - l.point.z) * l.dir.z) * u
      rw [unitVec_of hv] at m4
      have hn := norm_pos hv
      simp only [V3.scale, V3.mk.injEq] at m4
      obtain ⟨x1, x2, x3⟩ := m4
      rw [div_eq_iff hn.ne'] at x1 x2 x3
      have : V3.dot m.dir l.dir * (c * V3.norm (vec p q)) = 0 := by
        rw [← hd]
        simp only [V3.dot]
        rw [x1, x2, x3]; ring
      exact (mul_eq_zero.mp this).resolve_right (mul_pos hc hn).ne'
    · have hn := norm_pos hv
      rw [unitVec_of hv, V3.ext_iff]
      simp only [go]
      refine ⟨?_, ?_, ?_⟩ <;> field_simp <;> simp only [vec, V3.sub] <;> ring

/-! ## Parallel, perpendicular and equal lines -/

theorem eqTo_self (d : V3 ℝ) {eps : ℝ} (he : 0 < eps) : eqTo d d eps = true := by
  rw [eqTo, decide_eq_true_iff]; simp [he]

/-- `IsParallel`: the coordinates of the directions, or of one direction and the opposite of the other, differ by less than the tolerance.  Parallel lines are
always recognised. -/
theorem parallel_spec (l m : Line) {eps : ℝ} (he : 0 < eps) :
    (l.parallel m eps = true ↔ (|l.dir.x - m.dir.x| < eps ∧ |l.dir.y - m.dir.y| < eps ∧ |l.dir.z - m.dir.z| < eps) ∨
      (|l.dir.x + m.dir.x| < eps ∧ |l.dir.y + m.dir.y| < eps ∧ |l.dir.z + m.dir.z| < eps)) ∧ (Par l m → l.parallel m eps = true) := by
  constructor
  · simp only [Line.parallel, eqTo, V3.neg, Bool.or_eq_true, decide_eq_true_iff, sub_neg_eq_add]
  · rw [Line.parallel, Bool.or_eq_true]
    rintro (h | h)
    · left; rw [h]; exact eqTo_self _ he
    · right; rw [h]; exact eqTo_self _ he

/-- `IsPerpendicular` says yes to all pairs of perpendicular lines, and no to pairs whose directions make an acute angle with cosine at least the tolerance.
Obtuse angles are all called perpendicular (`perpendicular_wrong`). -/
theorem perpendicular_partial (l m : Line) {eps : ℝ} (he : 0 < eps) :
    (V3.dot l.dir m.dir = 0 → l.perpendicular m eps = true) ∧ (eps ≤ V3.dot l.dir m.dir → l.perpendicular m eps = false) ∧
    (V3.dot l.dir m.dir < 0 → l.perpendicular m eps = true) := by
  refine ⟨fun h => ?_, fun h => ?_, fun h => ?_⟩
  · rw [Line.perpendicular, decide_eq_true_iff, h]; exact he
  · rw [Line.perpendicular, decide_eq_false_iff_not]; exact not_lt.mpr h
  · rw [Line.perpendicular, decide_eq_true_iff]; linarith

/-- `AreEqual` says yes to lines with the same points, and when it says yes each starting point is within `1e-10` of the other line and the directions are
parallel up to the tolerance. -/
theorem areEqual_spec {l m : Line} (hl : Made l) (hm : Made m) {eps : ℝ} (he : 0 < eps) :
    ((∀ q, l.On q ↔ m.On q) → l.areEqual m eps = true) ∧
    (l.areEqual m eps = true → (∃ q, l.On q ∧ eucl m.point q < geomEps) ∧ (∃ q, m.On q ∧ eucl l.point q < geomEps) ∧ l.parallel m eps = true) := by
  have hg : (0 : ℝ) < geomEps := by norm_num [geomEps]
  constructor
  · intro h
    have h1 : l.onLine m.point geomEps = true :=
      (onLine_spec hl _ hg).mpr ⟨m.point, (h _).mpr ⟨0, by simp [go]⟩, by rw [eucl_eq_zero.mpr rfl]; exact hg⟩
    have h2 : m.onLine l.point geomEps = true :=
      (onLine_spec hm _ hg).mpr ⟨l.point, (h _).mp ⟨0, by simp [go]⟩, by rw [eucl_eq_zero.mpr rfl]; exact hg⟩
    have hp : Par l m := by
      apply par_of_zero hl hm
      obtain ⟨t0, a0⟩ := (h l.point).mp ⟨0, by simp [go]⟩
      obtain ⟨t1, a1⟩ := (h (go l.point l.dir 1)).mp ⟨1, rfl⟩
      rw [V3.ext_iff] at a0
      simp only [go, V3.mk.injEq] at a0 a1
      have e1 : l.dir.x = (t1 - t0) * m.dir.x := by linarith [a0.1, a1.1]
      have e2 : l.dir.y = (t1 - t0) * m.dir.y := by linarith [a0.2.1, a1.2.1]
      have e3 : l.dir.z = (t1 - t0) * m.dir.z := by linarith [a0.2.2, a1.2.2]
      rw [sin2, e1, e2, e3]; ring
    have h3 := (parallel_spec l m he).2 hp
    rw [Line.areEqual, h1, h2]
    simpa [Line.parallel] using h3
  · intro h
    rw [Line.areEqual] at h
    by_cases hc : (!l.onLine m.point geomEps || !m.onLine l.point geomEps) = true
    · rw [if_pos hc] at h; exact absurd h (by simp)
    · rw [if_neg hc] at h
      simp only [Bool.or_eq_true, Bool.not_eq_true', not_or, Bool.not_eq_false] at hc
      exact ⟨(onLine_spec hl _ hg).mp hc.1, (onLine_spec hm _ hg).mp hc.2, h⟩

/-! ## Segments -/

/-- `operator()` of a segment: for parameters of `[0, 1]` the point that divides the segment in this ratio, otherwise an exception. -/
theorem segAt_spec (s : Seg) (t : ℝ) :
    (0 ≤ t ∧ t ≤ 1 → s.at t = .ret ⟨(1 - t) * s.p1.x + t * s.p2.x, (1 - t) * s.p1.y + t * s.p2.y, (1 - t) * s.p1.z + t * s.p2.z⟩) ∧
    (¬(0 ≤ t ∧ t ≤ 1) → s.at t = .exn (.mml "GeometryError")) := by
  constructor
  · rintro ⟨h0, h1⟩
    rw [Seg.at, if_neg (by push Not; exact ⟨h0, h1⟩)]
    congr 1
    simp only [V3.add, V3.scale, Seg.dir, vec, V3.sub, V3.mk.injEq]
    refine ⟨?_, ?_, ?_⟩ <;> ring
  · intro h
    rw [Seg.at, if_pos]
    by_contra hc
    push Not at hc
    exact h hc

theorem seg_pyth (s : Seg) (p : V3 ℝ) (t : ℝ) :
    eucl p (go s.p1 s.dir t) ^ 2 = eucl p s.p1 ^ 2 - 2 * t * V3.dot (vec s.p1 p) s.dir + t ^ 2 * s.length ^ 2 := by
  rw [eucl_sq, eucl_sq, Seg.length, pdist_eq, eucl_sq]
  simp only [go, V3.dot, vec, V3.sub, Seg.dir]
  ring

/-- `Dist` of a segment is the least distance of the point from the points of the segment. -/
theorem segDist_spec (s : Seg) (p : V3 ℝ) : ∃ d, s.dist p = .ret d ∧ (∃ t, 0 ≤ t ∧ t ≤ 1 ∧ ∃ q, s.at t = .ret q ∧ eucl p q = d) ∧
    ∀ t q, s.at t = .ret q → d ≤ eucl p q := by
  have hat : ∀ t, 0 ≤ t → t ≤ 1 → s.at t = .ret (go s.p1 s.dir t) := by
    intro t h0 h1
    rw [Seg.at, if_neg (by push Not; exact ⟨h0, h1⟩), add_scale]
  have hat' : ∀ t q, s.at t = .ret q → 0 ≤ t ∧ t ≤ 1 ∧ q = go s.p1 s.dir t := by
    intro t q h
    by_cases ht : 0 ≤ t ∧ t ≤ 1
    · rw [hat t ht.1 ht.2] at h; cases h; exact ⟨ht.1, ht.2, rfl⟩
    · rw [(segAt_spec s t).2 ht] at h; cases h
  have h0 : go s.p1 s.dir 0 = s.p1 := by simp [go]
  have h1 : go s.p1 s.dir 1 = s.p2 := by simp [go, Seg.dir, vec, V3.sub]
  have hln : 0 ≤ s.length := by rw [Seg.length, pdist_eq]; exact eucl_nonneg _ _
  -- it is enough to compare squares
  have fin : ∀ t0, 0 ≤ t0 → t0 ≤ 1 → (∀ t, 0 ≤ t → t ≤ 1 → eucl p (go s.p1 s.dir t0) ^ 2 ≤ eucl p (go s.p1 s.dir t) ^ 2) →
      s.dist p = .ret (eucl p (go s.p1 s.dir t0)) → ∃ d, s.dist p = .ret d ∧ (∃ t, 0 ≤ t ∧ t ≤ 1 ∧ ∃ q, s.at t = .ret q ∧ eucl p q = d) ∧
        ∀ t q, s.at t = .ret q → d ≤ eucl p q := by
    intro t0 ha hb hm he
    refine ⟨_, he, ⟨t0, ha, hb, _, hat t0 ha hb, rfl⟩, fun t q ht => ?_⟩
    obtain ⟨h1, h2, rfl⟩ := hat' t q ht
    exact (sq_le_sq₀ (eucl_nonneg _ _) (eucl_nonneg _ _)).mp (hm t h1 h2)
  by_cases hz : s.length = 0
  · apply fin 0 le_rfl zero_le_one
    · intro t _ _
      rw [h0, seg_pyth, hz]
      have hd : s.dir.x = 0 ∧ s.dir.y = 0 ∧ s.dir.z = 0 := by
        apply norm_eq_zero.mp
        rw [← hz, Seg.length, pdist_eq, eucl_comm, eucl_eq_norm]; rfl
      have : V3.dot (vec s.p1 p) s.dir = 0 := by simp [V3.dot, hd]
      rw [this]; simp
    · rw [Seg.dist, if_pos hz, pdist_eq, eucl_comm, h0]
  · have hl : 0 < s.length := lt_of_le_of_ne hln (Ne.symm hz)
    have hll : s.length * s.length ≠ 0 := mul_ne_zero hz hz
    set f := V3.dot (vec s.p1 p) s.dir with hf
    set t' := f / (s.length * s.length) with ht'
    have hft : f = t' * s.length ^ 2 := by rw [ht']; field_simp
    have hdist : s.dist p = .ret (s.distAt p t') := by
      rw [Seg.dist, if_neg hz, CompGeo.Poly.fdiv_of_ne hll, Outcome.bind_ret]
    have hl2 : 0 < s.length ^ 2 := by positivity
    have dif : ∀ a b, eucl p (go s.p1 s.dir b) ^ 2 - eucl p (go s.p1 s.dir a) ^ 2 = s.length ^ 2 * ((b - a) * (b + a - 2 * t')) := by
      intro a b
      rw [seg_pyth, seg_pyth, ← hf, hft]; ring
    by_cases c1 : t' < 0
    · apply fin 0 le_rfl zero_le_one
      · intro t ha hb
        have := dif 0 t
        have h2 : 0 ≤ (t - 0) * (t + 0 - 2 * t') := mul_nonneg (by linarith) (by linarith)
        nlinarith
      · rw [hdist, Seg.distAt, if_pos c1, pdist_eq, eucl_comm, h0]
    · by_cases c2 : 1 < t'
      · apply fin 1 zero_le_one le_rfl
        · intro t ha hb
          have := dif 1 t
          have h2 : 0 ≤ (t - 1) * (t + 1 - 2 * t') := mul_nonneg_of_nonpos_of_nonpos (by linarith) (by linarith)
          nlinarith
        · rw [hdist, Seg.distAt, if_neg c1, if_pos c2, pdist_eq, eucl_comm, h1]
      · push Not at c1 c2
        apply fin t' c1 c2
        · intro t ha hb
          have := dif t' t
          have h2 : (t - t') * (t + t' - 2 * t') = (t - t') ^ 2 := by ring
          rw [h2] at this
          nlinarith [mul_nonneg hl2.le (sq_nonneg (t - t'))]
        · rw [hdist, Seg.distAt, if_neg (not_lt.mpr c1), if_neg (not_lt.mpr c2), pdist_eq, eucl_comm, add_scale]

/-- A segment from a point, a direction and `t` is as long as `|t|` times the direction: `t` is its length only for directions of length one. -/
theorem segNew_length (p d : V3 ℝ) (t : ℝ) : (Seg.new p d t).length = |t| * V3.norm d := by
  refine (sq_eq_sq₀ (by rw [Seg.length, pdist_eq]; exact eucl_nonneg _ _) (mul_nonneg (abs_nonneg _) (norm_nonneg _))).mp ?_
  rw [Seg.length, pdist_eq, eucl_sq, mul_pow, sq_abs, norm_sq]
  simp only [Seg.new, V3.add, V3.scale]
  ring

/-! ## Examples and disagreements -/

/-- The line through `p` in the direction of the `x` axis. -/
noncomputable def xline (p : V3 ℝ) : Line := ⟨p, ⟨1, 0, 0⟩⟩

theorem norm_ex : V3.norm ⟨1, 0, 0⟩ = 1 := by simp [V3.norm]

theorem xline_new (p : V3 ℝ) : Line.new p ⟨1, 0, 0⟩ = .ret (xline p) := by
  rw [Line.new, if_neg (by simp), unitVec_of (by simp), norm_ex]
  simp [xline]

theorem xline_made (p : V3 ℝ) : Made (xline p) := .inl ⟨_, _, xline_new p⟩

theorem xline_par (p q : V3 ℝ) : Par (xline p) (xline q) := .inl rfl

/-- The line through `p` against the direction of the `x` axis. -/
noncomputable def xback (p : V3 ℝ) : Line := ⟨p, ⟨-1, 0, 0⟩⟩

theorem xback_new (p : V3 ℝ) : Line.new p ⟨-1, 0, 0⟩ = .ret (xback p) := by
  have : V3.norm ⟨-1, 0, 0⟩ = 1 := by simp [V3.norm]
  rw [Line.new, if_neg (by simp), unitVec_of (by simp), this]
  simp [xback]

/-- The line through `p` in the direction `(3/5, 4/5, 0)`. -/
noncomputable def slant (p : V3 ℝ) : Line := ⟨p, ⟨3 / 5, 4 / 5, 0⟩⟩

theorem slant_new (p : V3 ℝ) : Line.new p ⟨3, 4, 0⟩ = .ret (slant p) := by
  have : V3.norm ⟨3, 4, 0⟩ = 5 := by
    rw [V3.norm, show (0 + 3 * 3 + 4 * 4 + 0 * 0 : ℝ) = 5 ^ 2 by norm_num, Real.sqrt_sq (by norm_num)]
  rw [Line.new, if_neg (by norm_num), unitVec_of (by norm_num), this]
  simp [slant]

theorem slant_made (p : V3 ℝ) : Made (slant p) := .inl ⟨_, _, slant_new p⟩

/-- The distance of parallel lines is wrong: the `x` axis and the line three above it, both starting at `x = 0`, get the distance 0, and if the second starts
at `x = -5` they get the distance `-5`; yet no points of the two are nearer than 3. -/
theorem distLine_wrong :
    (xline ⟨0, 0, 0⟩).distLine (xline ⟨0, 3, 0⟩) = .ret 0 ∧ (xline ⟨0, 0, 0⟩).distLine (xline ⟨-5, 3, 0⟩) = .ret (-5) ∧
    ∀ q1 q2, (xline ⟨0, 0, 0⟩).On q1 → (xline ⟨0, 3, 0⟩).On q2 → 3 ≤ eucl q1 q2 := by
  refine ⟨?_, ?_, ?_⟩
  · rw [(distLine_parallel (xline_made _) (xline_par _ _)).1]; simp [xline, V3.dot, V3.sub]
  · rw [(distLine_parallel (xline_made _) (xline_par _ _)).1]; simp [xline, V3.dot, V3.sub]
  · rintro q1 q2 ⟨t1, rfl⟩ ⟨t2, rfl⟩
    refine (sq_le_sq₀ (by norm_num) (eucl_nonneg _ _)).mp ?_
    rw [eucl_sq]
    simp only [go, xline]
    nlinarith [sq_nonneg (0 + t1 * 1 - (0 + t2 * 1))]

/-- `Intersection` gives the distance 0 for parallel lines three apart. -/
theorem intersection_distance_wrong :
    ∃ r, (xline ⟨0, 0, 0⟩).intersection (xline ⟨0, 3, 0⟩) = .ret r ∧ r.type = .parallel ∧ r.distance = 0 := by
  obtain ⟨⟨r, h1, h2⟩, _⟩ := (intersection_parallel (l := xline ⟨0, 0, 0⟩) (m := xline ⟨0, 3, 0⟩) (xline_made _) (.inl rfl)).2 (by
    intro q1 q2 a b
    refine le_trans ?_ (distLine_wrong.2.2 q1 q2 a b)
    norm_num [geomEps])
  refine ⟨r, h1, h2, ?_⟩
  rw [Line.intersection, if_pos] at h1
  · cases h1; rfl
  · rw [← sq, sin2_eq, sin2_of_par (xline_par _ _)]; norm_num [geomEps]

/-- A line and the same line in the opposite sense are called perpendicular. -/
theorem perpendicular_wrong : (xline ⟨0, 0, 0⟩).perpendicular (xback ⟨0, 0, 0⟩) geomEps = true ∧
    (xline ⟨0, 0, 0⟩).parallel (xback ⟨0, 0, 0⟩) geomEps = true ∧ ∀ q, (xline ⟨0, 0, 0⟩).On q ↔ (xback ⟨0, 0, 0⟩).On q := by
  have he : (0 : ℝ) < geomEps := by norm_num [geomEps]
  refine ⟨(perpendicular_partial _ _ he).2.2 (by simp [xline, xback, V3.dot]), (parallel_spec _ _ he).2 (.inr (by simp [xline, xback, V3.neg])), fun q => ?_⟩
  simp only [Line.On, xline, xback, go]
  constructor <;> · rintro ⟨t, rfl⟩; exact ⟨-t, by simp⟩

-- The hypotheses of the theorems are met: two lines that meet at (1, 0, 0), two that pass at distance 2, a line and a point at distance 3.
example : geomEps ^ 2 ≤ sin2 (xline ⟨0, 0, 0⟩) (slant ⟨1, 0, 0⟩) ∧ (xline ⟨0, 0, 0⟩).On ⟨1, 0, 0⟩ ∧ (slant ⟨1, 0, 0⟩).On ⟨1, 0, 0⟩ := by
  refine ⟨by norm_num [geomEps, sin2, xline, slant], ⟨1, by simp [go, xline]⟩, ⟨0, by simp [go, slant]⟩⟩
example : ¬Par (xline ⟨0, 0, 0⟩) (slant ⟨0, 0, 2⟩) := by
  rintro (h | h) <;> norm_num [xline, slant, V3.neg] at h
example : ∀ q1 q2, (xline ⟨0, 0, 0⟩).On q1 → (slant ⟨0, 0, 2⟩).On q2 → geomEps ≤ eucl q1 q2 := by
  rintro q1 q2 ⟨t1, rfl⟩ ⟨t2, rfl⟩
  refine le_trans (b := 2) (by norm_num [geomEps]) ((sq_le_sq₀ (by norm_num) (eucl_nonneg _ _)).mp ?_)
  rw [eucl_sq]
  simp only [go, xline, slant]
  nlinarith [sq_nonneg (0 + t1 * 1 - (0 + t2 * (3 / 5))), sq_nonneg (0 + t1 * 0 - (0 + t2 * (4 / 5)))]
example : ∀ q, (xline ⟨0, 0, 0⟩).On q → geomEps ≤ eucl ⟨1, 3, 0⟩ q := by
  rintro q ⟨t, rfl⟩
  refine le_trans (b := 3) (by norm_num [geomEps]) ((sq_le_sq₀ (by norm_num) (eucl_nonneg _ _)).mp ?_)
  rw [eucl_sq]
  simp only [go, xline]
  nlinarith [sq_nonneg (1 - (0 + t * 1))]
example : ∀ q, (xline ⟨0, 0, 0⟩).On q ↔ (xline ⟨7, 0, 0⟩).On q := by
  intro q
  simp only [Line.On, xline, go]
  constructor
  · rintro ⟨t, rfl⟩; exact ⟨t - 7, by norm_num⟩
  · rintro ⟨t, rfl⟩; exact ⟨7 + t, by norm_num⟩

end Verif.Geom.L3
