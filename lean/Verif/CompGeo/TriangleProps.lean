import Verif.CompGeo.Triangle
import Verif.CompGeo.LinesProps
import Mathlib.Geometry.Euclidean.Triangle
import Mathlib.Analysis.Convex.Combination
import Mathlib.Analysis.Convex.Join

/-!
# C114: triangles in the plane
-/

set_option autoImplicit false

namespace Verif.CompGeo.Tri

/-! ## The stored lengths -/

/-- The lengths of the sides reported are those of the present vertices. -/
def Fresh (t : Tri) : Prop := A t = euclid t.p1 t.p2 ∧ B t = euclid t.p2 t.p3 ∧ C t = euclid t.p3 t.p1

/-- A program that stores a vertex only through a reference obtained after the last use of the lengths (`r` says whether there is one). -/
def Disciplined : Bool → List Op → Prop
  | _, [] => True
  | _, .ref :: l => Disciplined true l
  | r, .write1 _ :: l => r = true ∧ Disciplined true l
  | r, .write2 _ :: l => r = true ∧ Disciplined true l
  | r, .write3 _ :: l => r = true ∧ Disciplined true l
  | _, .read :: l => Disciplined false l

/-- The vertices stored last. -/
def lastPts : Pt × Pt × Pt → List Op → Pt × Pt × Pt
  | v, [] => v
  | v, .write1 x :: l => lastPts (x, v.2.1, v.2.2) l
  | v, .write2 x :: l => lastPts (v.1, x, v.2.2) l
  | v, .write3 x :: l => lastPts (v.1, v.2.1, x) l
  | v, .ref :: l => lastPts v l
  | v, .read :: l => lastPts v l

theorem sides_fresh (t : Tri) (h : t.computed = true → t.a = euclid t.p1 t.p2 ∧ t.b = euclid t.p2 t.p3 ∧ t.c = euclid t.p3 t.p1) :
    (sides t).a = euclid t.p1 t.p2 ∧ (sides t).b = euclid t.p2 t.p3 ∧ (sides t).c = euclid t.p3 t.p1 ∧
    (sides t).p1 = t.p1 ∧ (sides t).p2 = t.p2 ∧ (sides t).p3 = t.p3 ∧ (sides t).computed = true := by
  rw [sides]
  cases hc : t.computed with
  | false => simp [dist2_eq]
  | true =>
    obtain ⟨h1, h2, h3⟩ := h hc
    simp [h1, h2, h3, hc]

theorem run_fresh (ops : List Op) : ∀ (r : Bool) (t : Tri), Disciplined r ops →
    (t.computed = true → t.a = euclid t.p1 t.p2 ∧ t.b = euclid t.p2 t.p3 ∧ t.c = euclid t.p3 t.p1) → (r = true → t.computed = false) →
    Fresh (run t ops) ∧ ((run t ops).p1, (run t ops).p2, (run t ops).p3) = lastPts (t.p1, t.p2, t.p3) ops := by
  induction ops with
  | nil =>
    intro r t _ h _
    obtain ⟨h1, h2, h3, -⟩ := sides_fresh t h
    exact ⟨⟨h1, h2, h3⟩, rfl⟩
  | cons op l ih =>
    intro r t hd h hr
    cases op with
    | ref => exact ih true _ hd (by simp [step]) (by simp [step])
    | write1 x => exact ih true { t with p1 := x } hd.2 (by simp [hr hd.1]) (by simp [hr hd.1])
    | write2 x => exact ih true { t with p2 := x } hd.2 (by simp [hr hd.1]) (by simp [hr hd.1])
    | write3 x => exact ih true { t with p3 := x } hd.2 (by simp [hr hd.1]) (by simp [hr hd.1])
    | read =>
      obtain ⟨h1, h2, h3, h4, h5, h6, h7⟩ := sides_fresh t h
      have := ih false (sides t) hd (fun _ => by rw [h4, h5, h6]; exact ⟨h1, h2, h3⟩) (by simp)
      rw [h4, h5, h6] at this
      exact this

/-- **C114.**  After any history in which vertices are stored only through references obtained after the last use of the lengths, the lengths reported
are the distances of the vertices stored last. -/
theorem history_fresh (p1 p2 p3 : Pt) (ops : List Op) (h : Disciplined false ops) : Fresh (run (new p1 p2 p3) ops) ∧
    ((run (new p1 p2 p3) ops).p1, (run (new p1 p2 p3) ops).p2, (run (new p1 p2 p3) ops).p3) = lastPts (p1, p2, p3) ops :=
  run_fresh ops false _ h (by simp [new]) (by simp)

theorem new_fresh (p1 p2 p3 : Pt) : Fresh (new p1 p2 p3) := (history_fresh p1 p2 p3 [] trivial).1

/-- A history that moves a vertex between two uses of the lengths meets the condition. -/
example : Disciplined false [.read, .ref, .write1 (5, 5), .read, .ref, .write2 (1, 1), .write3 (2, 2)] := by simp [Disciplined]

/-- **C114**, disagreement.  If a reference is kept while the lengths are used and a vertex is stored through it afterwards, the old lengths are
reported: the side from `(5, 0)` to `(1, 0)` is said to have length 1. -/
theorem history_stale_wrong : (run (new (0, 0) (1, 0) (0, 1)) [.ref, .read, .write1 (5, 0)]).p1 = (5, 0) ∧
    A (run (new (0, 0) (1, 0) (0, 1)) [.ref, .read, .write1 (5, 0)]) = 1 ∧ euclid (5, 0) (1, 0) = 4 := by
  refine ⟨by simp [run, step, sides, new], by simp [run, step, A, sides, new, dist2], ?_⟩
  rw [euclid]
  rw [show ((5 : ℝ) - 1) ^ 2 + (0 - 0) ^ 2 = 4 ^ 2 by norm_num, Real.sqrt_sq (by norm_num)]

/-! ## Area -/

theorem euclid_nonneg (p q : Pt) : 0 ≤ euclid p q := Real.sqrt_nonneg _

theorem euclid_sq (p q : Pt) : euclid p q ^ 2 = (p.1 - q.1) ^ 2 + (p.2 - q.2) ^ 2 := Real.sq_sqrt (by positivity)

theorem euclid_pos {p q : Pt} (h : p ≠ q) : 0 < euclid p q := by
  refine lt_of_le_of_ne (euclid_nonneg p q) fun h0 => h ?_
  have := euclid_sq p q
  rw [← h0] at this
  exact Prod.ext (by nlinarith [sq_nonneg (p.1 - q.1), sq_nonneg (p.2 - q.2)]) (by nlinarith [sq_nonneg (p.1 - q.1), sq_nonneg (p.2 - q.2)])

/-- **C114.**  `SignedArea` is half the determinant of two sides, and `Area`, by Heron's formula, is its absolute value; the square root is never
that of a negative number.  `Perimeter` is the sum of the distances. -/
theorem area_spec (t : Tri) (h : Fresh t) : signedArea t = area2 t.p1 t.p2 t.p3 / 2 ∧ area t = .ret |signedArea t| ∧
    perimeter t = euclid t.p1 t.p2 + euclid t.p2 t.p3 + euclid t.p3 t.p1 ∧
    (isCounterClockwise t = true ↔ 0 < area2 t.p1 t.p2 t.p3) ∧ (isClockwise t = true ↔ area2 t.p1 t.p2 t.p3 < 0) := by
  obtain ⟨h1, h2, h3⟩ := h
  have hs : signedArea t = area2 t.p1 t.p2 t.p3 / 2 := by rw [signedArea, area2]; ring
  refine ⟨hs, ?_, by rw [perimeter, h1, h2, h3], ?_, ?_⟩
  · have key : (A t + B t + C t) / 2 * ((A t + B t + C t) / 2 - A t) * ((A t + B t + C t) / 2 - B t) * ((A t + B t + C t) / 2 - C t) = signedArea t ^ 2 := by
      have e1 := euclid_sq t.p1 t.p2
      have e2 := euclid_sq t.p2 t.p3
      have e3 := euclid_sq t.p3 t.p1
      rw [← h1] at e1
      rw [← h2] at e2
      rw [← h3] at e3
      have : (A t + B t + C t) / 2 * ((A t + B t + C t) / 2 - A t) * ((A t + B t + C t) / 2 - B t) * ((A t + B t + C t) / 2 - C t) =
          (2 * (A t ^ 2 * B t ^ 2 + B t ^ 2 * C t ^ 2 + C t ^ 2 * A t ^ 2) - ((A t ^ 2) ^ 2 + (B t ^ 2) ^ 2 + (C t ^ 2) ^ 2)) / 16 := by ring
      rw [this, e1, e2, e3, signedArea]
      ring
    rw [area, heron, key, if_neg (not_lt.2 (sq_nonneg _)), Real.sqrt_sq_eq_abs]
  · rw [isCounterClockwise, hs]; simp
  · rw [isClockwise, hs, decide_eq_true_eq]
    constructor <;> intro h <;> linarith

/-- **C114.**  `Centroid` is the mean of the vertices. -/
theorem centroid_spec (t : Tri) : centroid t = (1 / 3 : ℝ) • (t.p1 + t.p2 + t.p3) := by
  ext
  · simp [centroid]; ring
  · simp [centroid]; ring

/-! ## The circumscribed circle -/

/-- **C114.**  `Circumcenter` throws exactly if the area is below a quarter of the tolerance; otherwise it returns the only point at equal distances
from the vertices. -/
theorem circumcenter_spec (t : Tri) : (|signedArea t| < 1 / 10 ^ 10 / 4 → circumcenter t = .exn (.mml "GeometryError")) ∧
    (1 / 10 ^ 10 / 4 ≤ |signedArea t| → ∃ m, circumcenter t = .ret m ∧ euclid m t.p1 = euclid m t.p2 ∧ euclid m t.p2 = euclid m t.p3 ∧
      ∀ m', euclid m' t.p1 = euclid m' t.p2 → euclid m' t.p2 = euclid m' t.p3 → m' = m) := by
  have hD : bigD t = 4 * signedArea t := by rw [bigD, signedArea]; ring
  have habs : |bigD t| = 4 * |signedArea t| := by rw [hD, abs_mul]; norm_num
  constructor
  · intro h
    rw [circumcenter, if_pos (by rw [habs, geomEps]; linarith)]
  · intro h
    have hne : bigD t ≠ 0 := by
      intro h0
      rw [h0, abs_zero] at habs
      rw [show |signedArea t| = 0 by linarith] at h
      norm_num at h
    rw [circumcenter, if_neg (by rw [habs, geomEps]; push Not; linarith), Interp.fdiv, if_neg hne, Interp.fdiv, if_neg hne]
    refine ⟨_, rfl, ?_, ?_, ?_⟩
    · rw [euclid, euclid]
      congr 1
      simp only
      rw [← sub_eq_zero]
      field_simp
      simp only [bigD, sq]
      ring
    · rw [euclid, euclid]
      congr 1
      simp only
      rw [← sub_eq_zero]
      field_simp
      simp only [bigD, sq]
      ring
    · intro m' g1 g2
      have e1 := congrArg (· ^ 2) g1
      have e2 := congrArg (· ^ 2) g2
      simp only [euclid_sq] at e1 e2
      ext
      · simp only
        rw [eq_div_iff hne, bigD, sq, sq, sq]
        linear_combination (t.p3.2 - t.p2.2) * e1 + (t.p1.2 - t.p2.2) * e2
      · simp only
        rw [eq_div_iff hne, bigD, sq, sq, sq]
        linear_combination (t.p2.1 - t.p3.1) * e1 + (t.p2.1 - t.p1.1) * e2

/-- **C114.**  `CircumRadius` throws exactly if the area is below the tolerance; otherwise it is the distance of `Circumcenter` from the vertices. -/
theorem circumRadius_spec (t : Tri) (h : Fresh t) : (|signedArea t| < 1 / 10 ^ 10 → circumRadius t = .exn (.mml "GeometryError")) ∧
    (1 / 10 ^ 10 ≤ |signedArea t| → ∃ m r, circumcenter t = .ret m ∧ circumRadius t = .ret r ∧ r = euclid m t.p1 ∧ r = euclid m t.p2 ∧
      r = euclid m t.p3) := by
  obtain ⟨-, harea, -⟩ := area_spec t h
  constructor
  · intro hs
    rw [circumRadius, harea, Outcome.bind_ret, if_pos (by rw [geomEps]; exact hs)]
  · intro hs
    obtain ⟨m, hm, h1, h2, -⟩ := (circumcenter_spec t).2 (by linarith)
    have hpos : 0 < |signedArea t| := lt_of_lt_of_le (by norm_num) hs
    have hD : bigD t = 4 * signedArea t := by rw [bigD, signedArea]; ring
    have hne : bigD t ≠ 0 := by rw [hD]; exact mul_ne_zero (by norm_num) (abs_pos.1 hpos)
    have hm' := hm
    rw [circumcenter, if_neg (by rw [hD, abs_mul, geomEps]; push Not; norm_num at hs ⊢; linarith), Interp.fdiv, if_neg hne, Interp.fdiv, if_neg hne] at hm'
    have hm' := Outcome.ret.inj hm'
    have key : A t * B t * C t / (4 * |signedArea t|) = euclid m t.p1 := by
      refine (pow_left_inj₀ (div_nonneg ?_ (by positivity)) (euclid_nonneg _ _) (by norm_num : (2 : ℕ) ≠ 0)).1 ?_
      · obtain ⟨g1, g2, g3⟩ := h
        rw [g1, g2, g3]
        exact mul_nonneg (mul_nonneg (euclid_nonneg _ _) (euclid_nonneg _ _)) (euclid_nonneg _ _)
      · obtain ⟨g1, g2, g3⟩ := h
        rw [g1, g2, g3, div_pow, mul_pow, mul_pow, mul_pow, euclid_sq, euclid_sq, euclid_sq, euclid_sq, sq_abs, ← hm']
        rw [show (4 : ℝ) ^ 2 * signedArea t ^ 2 = bigD t ^ 2 by rw [hD]; ring]
        simp only
        field_simp
        simp only [bigD, sq]
        ring
    refine ⟨m, _, hm, ?_, rfl, ?_, ?_⟩
    · rw [circumRadius, harea, Outcome.bind_ret, if_neg (by rw [geomEps]; exact not_lt.2 hs), Interp.fdiv, if_neg (by positivity), key]
    · exact h1
    · exact h1.trans h2

/-! ## The inscribed circle -/

/-- The distance of a point from a line through two points, from the area. -/
theorem dist_line (p q x : Pt) (r : ℝ) (hpq : p ≠ q) (hr : |area2 p q x| = r * euclid p q) :
    (∀ s : ℝ, r ≤ euclid x (p.1 + s * (q.1 - p.1), p.2 + s * (q.2 - p.2))) ∧ ∃ s : ℝ, euclid x (p.1 + s * (q.1 - p.1), p.2 + s * (q.2 - p.2)) = r := by
  have hpos := euclid_pos hpq
  have hr0 : 0 ≤ r := by
    have := abs_nonneg (area2 p q x)
    rw [hr] at this
    exact nonneg_of_mul_nonneg_left this hpos
  have hL := euclid_sq p q
  have hr2 : area2 p q x ^ 2 = r ^ 2 * euclid p q ^ 2 := by rw [← sq_abs, hr]; ring
  set N := (x.1 - p.1) * (q.1 - p.1) + (x.2 - p.2) * (q.2 - p.2) with hN
  have key : ∀ s : ℝ, euclid x (p.1 + s * (q.1 - p.1), p.2 + s * (q.2 - p.2)) ^ 2 * euclid p q ^ 2 = r ^ 2 * euclid p q ^ 2 + (s * euclid p q ^ 2 - N) ^ 2 := by
    intro s
    rw [← hr2, euclid_sq, hL, hN, area2]
    ring
  have hL0 : 0 < euclid p q ^ 2 := by positivity
  constructor
  · intro s
    refine (pow_le_pow_iff_left₀ hr0 (euclid_nonneg _ _) (by norm_num : (2 : ℕ) ≠ 0)).1 ?_
    refine le_of_mul_le_mul_right ?_ hL0
    rw [key s]
    nlinarith [sq_nonneg (s * euclid p q ^ 2 - N)]
  · refine ⟨N / euclid p q ^ 2, ?_⟩
    have h := key (N / euclid p q ^ 2)
    rw [div_mul_cancel₀ _ hL0.ne', sub_self] at h
    refine (pow_left_inj₀ (euclid_nonneg _ _) hr0 (by norm_num : (2 : ℕ) ≠ 0)).1 ?_
    refine mul_right_cancel₀ hL0.ne' ?_
    rw [h]; ring

/-- The line through two points is at distance `r` from a point: no point of the line is closer and one is that close. -/
def AtDistance (x p q : Pt) (r : ℝ) : Prop :=
  (∀ s : ℝ, r ≤ euclid x (p.1 + s * (q.1 - p.1), p.2 + s * (q.2 - p.2))) ∧ ∃ s : ℝ, euclid x (p.1 + s * (q.1 - p.1), p.2 + s * (q.2 - p.2)) = r

/-- **C114.**  For three different vertices with a perimeter not below twice the tolerance, `Incenter` is a point of the triangle at distance `InRadius`
from the lines through the sides.  Below the tolerance both throw. -/
theorem incenter_spec (t : Tri) (h : Fresh t) :
    (euclid t.p1 t.p2 + euclid t.p2 t.p3 + euclid t.p3 t.p1 < 1 / 10 ^ 10 → incenter t = .exn (.mml "GeometryError") ∧ inRadius t = .exn (.mml "GeometryError")) ∧
    (2 / 10 ^ 10 ≤ euclid t.p1 t.p2 + euclid t.p2 t.p3 + euclid t.p3 t.p1 → t.p1 ≠ t.p2 → t.p2 ≠ t.p3 → t.p3 ≠ t.p1 →
      ∃ m r, incenter t = .ret m ∧ inRadius t = .ret r ∧ m ∈ convexHull ℝ {t.p1, t.p2, t.p3} ∧
        AtDistance m t.p1 t.p2 r ∧ AtDistance m t.p2 t.p3 r ∧ AtDistance m t.p3 t.p1 r) := by
  obtain ⟨hs, harea, hper, -⟩ := area_spec t h
  obtain ⟨g1, g2, g3⟩ := h
  have e0 := euclid_nonneg t.p1 t.p2
  have e1 := euclid_nonneg t.p2 t.p3
  have e2 := euclid_nonneg t.p3 t.p1
  constructor
  · intro hp
    refine ⟨by rw [incenter, if_pos (by rw [g1, g2, g3, geomEps]; exact hp)], ?_⟩
    rw [inRadius, harea, Outcome.bind_ret, if_pos (by rw [hper, geomEps]; linarith)]
  · intro hp n1 n2 n3
    set a := euclid t.p1 t.p2 with ha
    set b := euclid t.p2 t.p3 with hb
    set c := euclid t.p3 t.p1 with hc
    have hP : 0 < a + b + c := lt_of_lt_of_le (by norm_num) hp
    have hPne := hP.ne'
    refine ⟨((a * t.p3.1 + b * t.p1.1 + c * t.p2.1) / (a + b + c), (a * t.p3.2 + b * t.p1.2 + c * t.p2.2) / (a + b + c)),
      |signedArea t| / ((a + b + c) / 2), ?_, ?_, ?_, ?_, ?_, ?_⟩
    · rw [incenter, if_neg (by rw [g1, g2, g3, geomEps]; push Not; linarith), g1, g2, g3, Interp.fdiv, if_neg hPne, Interp.fdiv, if_neg hPne]
      rfl
    · rw [inRadius, harea, Outcome.bind_ret, hper, if_neg (by rw [geomEps]; push Not; linarith), Interp.fdiv, if_neg (by positivity)]
    · have : ((a * t.p3.1 + b * t.p1.1 + c * t.p2.1) / (a + b + c), (a * t.p3.2 + b * t.p1.2 + c * t.p2.2) / (a + b + c)) =
          (b / (a + b + c)) • t.p1 + (c / (a + b + c)) • t.p2 + (a / (a + b + c)) • t.p3 := by
        ext
        · simp; field_simp; ring
        · simp; field_simp; ring
      rw [this]
      have hconv := convex_convexHull ℝ ({t.p1, t.p2, t.p3} : Set Pt)
      have m1 : t.p1 ∈ convexHull ℝ ({t.p1, t.p2, t.p3} : Set Pt) := subset_convexHull ℝ _ (by simp)
      have m2 : t.p2 ∈ convexHull ℝ ({t.p1, t.p2, t.p3} : Set Pt) := subset_convexHull ℝ _ (by simp)
      have m3 : t.p3 ∈ convexHull ℝ ({t.p1, t.p2, t.p3} : Set Pt) := subset_convexHull ℝ _ (by simp)
      have := hconv.sum_mem (t := Finset.univ) (w := ![b / (a + b + c), c / (a + b + c), a / (a + b + c)]) (z := ![t.p1, t.p2, t.p3])
        (by intro i _; fin_cases i <;> simp <;> positivity) (by simp [Fin.sum_univ_three]; field_simp; ring) (by intro i _; fin_cases i <;> simp [m1, m2, m3])
      simpa [Fin.sum_univ_three] using this
    · refine dist_line _ _ _ _ n1 ?_
      have : area2 t.p1 t.p2 ((a * t.p3.1 + b * t.p1.1 + c * t.p2.1) / (a + b + c), (a * t.p3.2 + b * t.p1.2 + c * t.p2.2) / (a + b + c)) =
          signedArea t / ((a + b + c) / 2) * a := by
        rw [hs]; simp only [area2]; field_simp; ring
      rw [this, abs_mul, abs_div, abs_of_nonneg e0, abs_of_nonneg (by positivity : 0 ≤ (a + b + c) / 2)]
    · refine dist_line _ _ _ _ n2 ?_
      have : area2 t.p2 t.p3 ((a * t.p3.1 + b * t.p1.1 + c * t.p2.1) / (a + b + c), (a * t.p3.2 + b * t.p1.2 + c * t.p2.2) / (a + b + c)) =
          signedArea t / ((a + b + c) / 2) * b := by
        rw [hs]; simp only [area2]; field_simp; ring
      rw [this, abs_mul, abs_div, abs_of_nonneg e1, abs_of_nonneg (by positivity : 0 ≤ (a + b + c) / 2)]
    · refine dist_line _ _ _ _ n3 ?_
      have : area2 t.p3 t.p1 ((a * t.p3.1 + b * t.p1.1 + c * t.p2.1) / (a + b + c), (a * t.p3.2 + b * t.p1.2 + c * t.p2.2) / (a + b + c)) =
          signedArea t / ((a + b + c) / 2) * c := by
        rw [hs]; simp only [area2]; field_simp; ring
      rw [this, abs_mul, abs_div, abs_of_nonneg e2, abs_of_nonneg (by positivity : 0 ≤ (a + b + c) / 2)]

/-! ## Angles -/

/-- The point of the Euclidean plane with the same coordinates. -/
noncomputable def toE (p : Pt) : EuclideanSpace ℝ (Fin 2) := !₂[p.1, p.2]

theorem toE_norm (p q : Pt) : ‖toE p - toE q‖ = euclid p q := by
  rw [EuclideanSpace.norm_eq, euclid]
  congr 1
  simp [toE, Fin.sum_univ_two]

theorem lawOfCosines_spec (p q r : Pt) (hq : p ≠ q) (hr : p ≠ r) :
    lawOfCosines (euclid q r) (euclid p q) (euclid p r) = .ret (EuclideanGeometry.angle (toE q) (toE p) (toE r)) := by
  have h1 := euclid_pos hq
  have h2 := euclid_pos hr
  have hne : 2 * euclid p q * euclid p r ≠ 0 := by positivity
  have hinner : inner ℝ (toE q - toE p) (toE r - toE p) = (q.1 - p.1) * (r.1 - p.1) + (q.2 - p.2) * (r.2 - p.2) := by
    simp [toE, PiLp.inner_apply, Fin.sum_univ_two]; ring
  have hx : (euclid p q * euclid p q + euclid p r * euclid p r - euclid q r * euclid q r) / (2 * euclid p q * euclid p r) =
      inner ℝ (toE q - toE p) (toE r - toE p) / (‖toE q - toE p‖ * ‖toE r - toE p‖) := by
    rw [toE_norm, toE_norm, Lines.euclid_comm q p, Lines.euclid_comm r p, hinner, ← pow_two, ← pow_two, ← pow_two, euclid_sq, euclid_sq, euclid_sq]
    field_simp
    ring
  rw [lawOfCosines, Interp.fdiv, if_neg hne, Outcome.bind_ret, hx, EuclideanGeometry.angle, InnerProductGeometry.angle]
  congr 1
  have := abs_le.1 (abs_real_inner_div_norm_mul_norm_le_one (toE q - toE p) (toE r - toE p))
  rw [min_eq_left this.2, max_eq_right this.1]
  rfl

/-- **C114.**  For three different vertices `AngleA`, `AngleB` and `AngleC` are the angles at the third, first and second vertex, and their sum is `π`. -/
theorem angle_spec (t : Tri) (h : Fresh t) (n1 : t.p1 ≠ t.p2) (n2 : t.p2 ≠ t.p3) (n3 : t.p3 ≠ t.p1) :
    ∃ x y z, angleA t = .ret x ∧ angleB t = .ret y ∧ angleC t = .ret z ∧
      x = EuclideanGeometry.angle (toE t.p1) (toE t.p3) (toE t.p2) ∧ y = EuclideanGeometry.angle (toE t.p2) (toE t.p1) (toE t.p3) ∧
      z = EuclideanGeometry.angle (toE t.p1) (toE t.p2) (toE t.p3) ∧ x + y + z = Real.pi := by
  obtain ⟨g1, g2, g3⟩ := h
  refine ⟨_, _, _, ?_, ?_, ?_, rfl, rfl, rfl, ?_⟩
  · rw [angleA, g1, g2, g3, EuclideanGeometry.angle_comm, Lines.euclid_comm t.p1, Lines.euclid_comm t.p2 t.p3]
    exact lawOfCosines_spec t.p3 t.p2 t.p1 n2.symm n3
  · rw [angleB, g1, g2, g3, Lines.euclid_comm t.p3]
    exact lawOfCosines_spec t.p1 t.p2 t.p3 n1 n3.symm
  · rw [angleC, g1, g2, g3, Lines.euclid_comm t.p3, Lines.euclid_comm t.p1 t.p2]
    exact lawOfCosines_spec t.p2 t.p1 t.p3 n1.symm n2
  · have inj : ∀ p q : Pt, p ≠ q → toE p ≠ toE q := by
      intro p q hpq he
      apply hpq
      have h0 := congrFun (congrArg (fun v : EuclideanSpace ℝ (Fin 2) => (v : Fin 2 → ℝ)) he) 0
      have h1 := congrFun (congrArg (fun v : EuclideanSpace ℝ (Fin 2) => (v : Fin 2 → ℝ)) he) 1
      simp [toE] at h0 h1
      exact Prod.ext h0 h1
    have := EuclideanGeometry.angle_add_angle_add_angle_eq_pi (p₁ := toE t.p1) (p₂ := toE t.p2) (toE t.p3) (inj _ _ n1.symm)
    rw [EuclideanGeometry.angle_comm (toE t.p1) (toE t.p3), EuclideanGeometry.angle_comm (toE t.p2) (toE t.p1)]
    linarith

/-! ## Containment -/

/-- **C114.**  `Contains` answers no if twice the area is below the tolerance, and otherwise says whether the point has barycentric coordinates not
below minus the tolerance. -/
theorem contains_spec (t : Tri) (p : Pt) (eps : ℝ) (he : 0 < eps) :
    (2 * |signedArea t| < eps → contains t p eps = .ret false) ∧
    (eps ≤ 2 * |signedArea t| → ∃ r, contains t p eps = .ret r ∧
      (r = true ↔ ∃ u v w : ℝ, -eps ≤ u ∧ -eps ≤ v ∧ -eps ≤ w ∧ u + v + w = 1 ∧ p = u • t.p1 + v • t.p2 + w • t.p3)) := by
  have hD : denom t = 2 * signedArea t := by rw [denom, signedArea]; ring
  have habs : |denom t| = 2 * |signedArea t| := by rw [hD, abs_mul]; norm_num
  constructor
  · intro h
    rw [contains, if_pos (by rw [habs]; exact h)]
  · intro h
    have hne : denom t ≠ 0 := by
      intro h0
      rw [h0, abs_zero] at habs
      linarith
    rw [contains, if_neg (by rw [habs]; exact not_lt.2 h), Interp.fdiv, if_neg hne, Interp.fdiv, if_neg hne]
    refine ⟨_, rfl, ?_⟩
    simp only [Bool.and_eq_true, decide_eq_true_eq]
    constructor
    · rintro ⟨⟨h1, h2⟩, h3⟩
      refine ⟨_, _, _, h1, h2, h3, by ring, ?_⟩
      ext
      · simp only [Prod.fst_add, Prod.smul_fst, smul_eq_mul]
        field_simp
        simp only [denom]; ring
      · simp only [Prod.snd_add, Prod.smul_snd, smul_eq_mul]
        field_simp
        simp only [denom]; ring
    · rintro ⟨u, v, w, hu, hv, hw, hsum, rfl⟩
      have hw' : w = 1 - u - v := by linarith
      subst hw'
      have eu : ((t.p2.2 - t.p3.2) * ((u • t.p1 + v • t.p2 + (1 - u - v) • t.p3).1 - t.p3.1) +
          (t.p3.1 - t.p2.1) * ((u • t.p1 + v • t.p2 + (1 - u - v) • t.p3).2 - t.p3.2)) / denom t = u := by
        rw [div_eq_iff hne, denom]; simp; ring
      have ev : ((t.p3.2 - t.p1.2) * ((u • t.p1 + v • t.p2 + (1 - u - v) • t.p3).1 - t.p3.1) +
          (t.p1.1 - t.p3.1) * ((u • t.p1 + v • t.p2 + (1 - u - v) • t.p3).2 - t.p3.2)) / denom t = v := by
        rw [div_eq_iff hne, denom]; simp; ring
      rw [eu, ev]
      exact ⟨⟨hu, hv⟩, hw⟩

/-- **C114.**  In particular every point of a triangle whose area is not below half the tolerance is found inside. -/
theorem contains_hull (t : Tri) (p : Pt) (eps : ℝ) (he : 0 < eps) (h : eps ≤ 2 * |signedArea t|) (hp : p ∈ convexHull ℝ {t.p1, t.p2, t.p3}) :
    contains t p eps = .ret true := by
  obtain ⟨r, hr, hiff⟩ := (contains_spec t p eps he).2 h
  rw [hr]
  congr 1
  rw [hiff]
  rw [convexHull_insert (by simp), convexHull_pair] at hp
  simp only [mem_convexJoin, Set.mem_singleton_iff] at hp
  obtain ⟨x, rfl, y, hy, hp⟩ := hp
  obtain ⟨a, b, ha, hb, hab, rfl⟩ := hy
  obtain ⟨c, d, hc, hd, hcd, rfl⟩ := hp
  refine ⟨c, d * a, d * b, by linarith, by nlinarith [mul_nonneg hd ha], by nlinarith [mul_nonneg hd hb], ?_, ?_⟩
  · rw [add_assoc, ← mul_add, hab, mul_one, hcd]
  · rw [smul_add, smul_smul, smul_smul, add_assoc]

/-- **C114**, disagreement.  A triangle with legs of length `10⁻⁶` does not contain its own vertex. -/
theorem contains_small_wrong : contains (new (0, 0) (1 / 10 ^ 6, 0) (0, 1 / 10 ^ 6)) (0, 0) (1 / 10 ^ 10) = .ret false := by
  rw [contains, if_pos]
  norm_num [denom, new]

/-! ## Kinds of triangles -/

/-- **C114.**  `IsRight` says whether two sides are orthogonal, up to the tolerance for twice their scalar product. -/
theorem isRight_spec (t : Tri) (h : Fresh t) (eps : ℝ) : isRight t eps = true ↔
    |2 * ((t.p1.1 - t.p2.1) * (t.p3.1 - t.p2.1) + (t.p1.2 - t.p2.2) * (t.p3.2 - t.p2.2))| < eps ∨
    |2 * ((t.p2.1 - t.p1.1) * (t.p3.1 - t.p1.1) + (t.p2.2 - t.p1.2) * (t.p3.2 - t.p1.2))| < eps ∨
    |2 * ((t.p1.1 - t.p3.1) * (t.p2.1 - t.p3.1) + (t.p1.2 - t.p3.2) * (t.p2.2 - t.p3.2))| < eps := by
  obtain ⟨g1, g2, g3⟩ := h
  simp only [isRight, areEqual, Bool.or_eq_true, decide_eq_true_eq, g1, g2, g3, ← pow_two, euclid_sq, or_assoc]
  refine or_congr ?_ (or_congr ?_ ?_)
  · rw [iff_iff_eq]; congr 2; ring
  · rw [iff_iff_eq]; congr 2; ring
  · rw [iff_iff_eq]; congr 2; ring

/-- **C114.**  `IsIsosceles` and `IsEquilateral` compare the lengths of the sides up to the tolerance. -/
theorem isIsosceles_spec (t : Tri) (h : Fresh t) (eps : ℝ) :
    (isIsosceles t eps = true ↔ |euclid t.p1 t.p2 - euclid t.p2 t.p3| < eps ∨ |euclid t.p1 t.p2 - euclid t.p3 t.p1| < eps ∨
      |euclid t.p2 t.p3 - euclid t.p3 t.p1| < eps) ∧
    (isEquilateral t eps = true ↔ |euclid t.p1 t.p2 - euclid t.p2 t.p3| < eps ∧ |euclid t.p1 t.p2 - euclid t.p3 t.p1| < eps) := by
  obtain ⟨g1, g2, g3⟩ := h
  simp [isIsosceles, isEquilateral, areEqual, g1, g2, g3, or_assoc]

/-- The hypotheses hold for the right triangle with legs 3 and 4. -/
example : Fresh (new (0, 0) (3, 0) (0, 4)) ∧ (1 : ℝ) / 10 ^ 10 ≤ |signedArea (new (0, 0) (3, 0) (0, 4))| ∧
    (2 : ℝ) / 10 ^ 10 ≤ euclid (0, 0) (3, 0) + euclid (3, 0) (0, 4) + euclid (0, 4) (0, 0) := by
  refine ⟨new_fresh _ _ _, by norm_num [signedArea, new], ?_⟩
  have : euclid (0, 0) (3, 0) = 3 := by
    rw [euclid, show ((0 : ℝ) - 3) ^ 2 + (0 - 0) ^ 2 = 3 ^ 2 by norm_num, Real.sqrt_sq (by norm_num)]
  rw [this]
  have := euclid_nonneg (3, 0) (0, 4)
  have := euclid_nonneg (0, 4) (0, 0)
  norm_num at *
  linarith

end Verif.CompGeo.Tri
