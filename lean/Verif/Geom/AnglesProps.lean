import Mathlib.Tactic
import Mathlib.Geometry.Euclidean.Angle.Unoriented.Basic
import Mathlib.Geometry.Euclidean.Angle.Unoriented.TriangleInequality
import Verif.Geom.Angles
import Verif.Geom.Lines3DProps
import Verif.Coord.Props
import Verif.CompGeo.PolygonProps

/-!
# Properties of the other coordinates of a point, of angles and of distances on the globe (C123)

The specification is `L3.eucl`, the Euclidean distance of two points of space written out in coordinates, the corresponding distance in the plane, and
the angle of two vectors of Mathlib.
-/

set_option autoImplicit false

namespace Verif.Geom.Ang
open L3

/-! ## Angles -/

theorem whileLoop_raise (lo r : ℝ) : ∃ t, whileLoop (raise lo) r = .ret t ∧ lo ≤ t ∧ (r < lo → t < lo + 2 * Real.pi) ∧ (lo ≤ r → t = r) ∧
    ∃ k : ℤ, t = r + k * (2 * Real.pi) := by
  have hpi := Real.two_pi_pos
  have key : ∀ n : ℕ, ∀ r : ℝ, lo - r ≤ n * (2 * Real.pi) → ∃ t, whileFuel (raise lo) (n + 1) r = some t ∧ lo ≤ t ∧ (r < lo → t < lo + 2 * Real.pi) ∧
      (lo ≤ r → t = r) ∧ ∃ k : ℤ, t = r + k * (2 * Real.pi) := by
    intro n
    induction n with
    | zero =>
      intro r h
      have h' : ¬ r < lo := by push_cast at h; linarith
      exact ⟨r, by rw [whileFuel, raise, if_neg h'], not_lt.1 h', fun h2 => absurd h2 h', fun _ => rfl, 0, by push_cast; ring⟩
    | succ n ih =>
      intro r h
      by_cases h' : r < lo
      · obtain ⟨t, h1, h2, h3, h4, k, h5⟩ := ih (r + 2 * Real.pi) (by push_cast at h; linarith)
        refine ⟨t, by rw [whileFuel, raise, if_pos h']; exact h1, h2, fun _ => ?_, fun h6 => by linarith, k + 1, by rw [h5]; push_cast; ring⟩
        by_cases h6 : r + 2 * Real.pi < lo
        · exact h3 h6
        · rw [h4 (not_lt.1 h6)]; linarith
      · exact ⟨r, by rw [whileFuel, raise, if_neg h'], not_lt.1 h', fun h2 => absurd h2 h', fun _ => rfl, 0, by push_cast; ring⟩
  obtain ⟨n, hn⟩ := exists_nat_ge ((lo - r) / (2 * Real.pi))
  obtain ⟨t, h1, h2⟩ := key n r (by rwa [div_le_iff₀ hpi] at hn)
  exact ⟨t, whileLoop_eq h1, h2⟩

theorem whileLoop_lower (hi r : ℝ) : ∃ t, whileLoop (lower hi) r = .ret t ∧ t < hi ∧ (hi ≤ r → hi - 2 * Real.pi ≤ t) ∧ (r < hi → t = r) ∧
    ∃ k : ℤ, t = r + k * (2 * Real.pi) := by
  have hpi := Real.two_pi_pos
  have key : ∀ n : ℕ, ∀ r : ℝ, r - hi < n * (2 * Real.pi) → ∃ t, whileFuel (lower hi) (n + 1) r = some t ∧ t < hi ∧ (hi ≤ r → hi - 2 * Real.pi ≤ t) ∧
      (r < hi → t = r) ∧ ∃ k : ℤ, t = r + k * (2 * Real.pi) := by
    intro n
    induction n with
    | zero =>
      intro r h
      have h' : ¬ hi ≤ r := by push_cast at h; linarith
      exact ⟨r, by rw [whileFuel, lower, if_neg h'], not_le.1 h', fun h2 => absurd h2 h', fun _ => rfl, 0, by push_cast; ring⟩
    | succ n ih =>
      intro r h
      by_cases h' : hi ≤ r
      · obtain ⟨t, h1, h2, h3, h4, k, h5⟩ := ih (r - 2 * Real.pi) (by push_cast at h; linarith)
        refine ⟨t, by rw [whileFuel, lower, if_pos h']; exact h1, h2, fun _ => ?_, fun h6 => by linarith, k - 1, by rw [h5]; push_cast; ring⟩
        by_cases h6 : hi ≤ r - 2 * Real.pi
        · exact h3 h6
        · rw [h4 (not_le.1 h6)]; linarith
      · exact ⟨r, by rw [whileFuel, lower, if_neg h'], not_le.1 h', fun h2 => absurd h2 h', fun _ => rfl, 0, by push_cast; ring⟩
  obtain ⟨n, hn⟩ := exists_nat_gt ((r - hi) / (2 * Real.pi))
  obtain ⟨t, h1, h2⟩ := key n r (by rwa [div_lt_iff₀ hpi] at hn)
  exact ⟨t, whileLoop_eq h1, h2⟩

theorem range_loops (lo hi r : ℝ) (h : hi = lo + 2 * Real.pi) :
    ∃ t, (whileLoop (raise lo) r >>= fun r => whileLoop (lower hi) r) = .ret t ∧ lo ≤ t ∧ t < hi ∧ ∃ k : ℤ, t = r + k * (2 * Real.pi) := by
  obtain ⟨t, h1, h2, -, -, k, h5⟩ := whileLoop_raise lo r
  obtain ⟨u, g1, g2, g3, g4, m, g5⟩ := whileLoop_lower hi t
  refine ⟨u, by rw [h1, Outcome.bind_ret, g1], ?_, g2, k + m, by rw [g5, h5]; push_cast; ring⟩
  by_cases h6 : hi ≤ t
  · have := g3 h6; linarith
  · rw [g4 (not_le.1 h6)]; exact h2

/-- **C123.**  `AngleTo2PiRange` and `AngleToPiPiRange` end for every angle, with the one angle of `[0, 2π)`, respectively `[-π, π)`, that differs from
the argument by whole turns; `normalizeAngle` of the base header, which uses the remainder instead of loops, returns the same as the second. -/
theorem range_spec (r : ℝ) :
    (∃ t, to2Pi r = .ret t ∧ t ∈ Set.Ico 0 (2 * Real.pi) ∧ ∃ k : ℤ, t = r + k * (2 * Real.pi)) ∧
    (∃ t, toPiPi r = .ret t ∧ t ∈ Set.Ico (-Real.pi) Real.pi ∧ ∃ k : ℤ, t = r + k * (2 * Real.pi)) := by
  obtain ⟨t, h1, h2, h3, h4⟩ := range_loops 0 (2 * Real.pi) r (by ring)
  obtain ⟨u, g1, g2, g3, g4⟩ := range_loops (-Real.pi) Real.pi r (by ring)
  exact ⟨⟨t, h1, ⟨h2, h3⟩, h4⟩, u, g1, ⟨g2, g3⟩, g4⟩

theorem fmod_spec {x y : ℝ} (hy : 0 < y) : (∃ k : ℤ, fmod x y = x + k * y) ∧ (0 ≤ x → 0 ≤ fmod x y ∧ fmod x y < y) ∧
    (x < 0 → -y < fmod x y ∧ fmod x y ≤ 0) := by
  have e : x / y * y = x := div_mul_cancel₀ _ hy.ne'
  by_cases h : 0 ≤ x / y
  · have hf : fmod x y = x - ⌊x / y⌋ * y := by rw [fmod, if_pos h]
    have a := Int.floor_le (x / y)
    have b := Int.lt_floor_add_one (x / y)
    refine ⟨⟨-⌊x / y⌋, by rw [hf]; push_cast; ring⟩, fun _ => ?_, fun h2 => ?_⟩
    · rw [hf]; constructor <;> nlinarith
    · exact absurd h (not_le.2 (div_neg_of_neg_of_pos h2 hy))
  · have hf : fmod x y = x - ⌈x / y⌉ * y := by rw [fmod, if_neg h]
    have a := Int.le_ceil (x / y)
    have b := Int.ceil_lt_add_one (x / y)
    refine ⟨⟨-⌈x / y⌉, by rw [hf]; push_cast; ring⟩, fun h2 => absurd (div_nonneg h2 hy.le) h, fun _ => ?_⟩
    rw [hf]; constructor <;> nlinarith

theorem normalize_mem (r : ℝ) : normalizeAngle r ∈ Set.Ico (-Real.pi) Real.pi ∧ ∃ k : ℤ, normalizeAngle r = r + k * (2 * Real.pi) := by
  have hpi := Real.pi_pos
  obtain ⟨⟨k, hk⟩, h1, h2⟩ := fmod_spec (x := r + Real.pi) Real.two_pi_pos
  rw [normalizeAngle, fromMod]
  by_cases h : fmod (r + Real.pi) (2 * Real.pi) < 0
  · rw [if_pos h]
    have h3 : r + Real.pi < 0 := by
      by_contra hc
      linarith [(h1 (not_lt.1 hc)).1]
    exact ⟨⟨by linarith [(h2 h3).1], by linarith⟩, k + 1, by rw [hk]; push_cast; ring⟩
  · rw [if_neg h]
    have h3 : fmod (r + Real.pi) (2 * Real.pi) < 2 * Real.pi := by
      by_cases hc : 0 ≤ r + Real.pi
      · exact (h1 hc).2
      · linarith [(h2 (not_le.1 hc)).2]
    exact ⟨⟨by linarith [not_lt.1 h], by linarith⟩, k, by rw [hk]; ring⟩

theorem turns_unique {s t : ℝ} {k : ℤ} {lo : ℝ} (hs : s ∈ Set.Ico lo (lo + 2 * Real.pi)) (ht : t ∈ Set.Ico lo (lo + 2 * Real.pi))
    (h : s = t + k * (2 * Real.pi)) : s = t := by
  have hpi := Real.two_pi_pos
  have h1 : k < 1 := by
    by_contra hc
    have : (1 : ℝ) ≤ k := by exact_mod_cast not_lt.1 hc
    nlinarith [hs.2, ht.1]
  have h2 : -1 < k := by
    by_contra hc
    have : (k : ℝ) ≤ -1 := by exact_mod_cast not_lt.1 hc
    nlinarith [hs.1, ht.2]
  have h3 : k = 0 := by omega
  rw [h, h3]; simp

/-- **C123.**  `normalizeAngle` is `AngleToPiPiRange`; and two angles are equal for `AnglesAreEqual` exactly if they differ by less than the tolerance
after some number of whole turns. -/
theorem normalize_spec (r a b eps : ℝ) :
    toPiPi r = .ret (normalizeAngle r) ∧ normalizeAngle r ∈ Set.Ico (-Real.pi) Real.pi ∧ (∃ k : ℤ, normalizeAngle r = r + k * (2 * Real.pi)) ∧
    (anglesAreEqual a b eps = true ↔ ∃ k : ℤ, |a - b - k * (2 * Real.pi)| < eps) := by
  obtain ⟨hm, k, hk⟩ := normalize_mem r
  obtain ⟨-, u, g1, g2, m, g4⟩ := range_spec r
  refine ⟨?_, hm, ⟨k, hk⟩, ?_⟩
  · rw [g1]
    congr 1
    have e : -Real.pi + 2 * Real.pi = Real.pi := by ring
    exact turns_unique (lo := -Real.pi) (k := m - k) (by rwa [e]) (by rwa [e]) (by rw [g4, hk]; push_cast; ring)
  · rw [anglesAreEqual, decide_eq_true_eq]
    obtain ⟨hn, k, hk⟩ := normalize_mem (a - b)
    have hpi := Real.pi_pos
    constructor
    · intro h
      exact ⟨-k, by rw [hk] at h; push_cast; simpa using h⟩
    · rintro ⟨j, hj⟩
      refine lt_of_le_of_lt ?_ hj
      have e : a - b - j * (2 * Real.pi) = normalizeAngle (a - b) - ((k + j : ℤ) : ℝ) * (2 * Real.pi) := by rw [hk]; push_cast; ring
      rw [e]
      generalize normalizeAngle (a - b) = n at hn ⊢
      generalize k + j = i
      obtain hi | hi | hi : i = 0 ∨ 1 ≤ i ∨ i ≤ -1 := by omega
      · rw [hi]; simp
      · have : (1 : ℝ) ≤ i := by exact_mod_cast hi
        have h1 : |n| ≤ Real.pi := abs_le.2 ⟨hn.1, hn.2.le⟩
        refine h1.trans (le_trans ?_ (neg_le_abs _))
        nlinarith [hn.2]
      · have : (i : ℝ) ≤ -1 := by exact_mod_cast hi
        have h1 : |n| ≤ Real.pi := abs_le.2 ⟨hn.1, hn.2.le⟩
        refine h1.trans (le_trans ?_ (le_abs_self _))
        nlinarith [hn.1]

/-- A case of `range_spec` and `normalize_spec`: five half turns are equal to minus one half turn, and `AngleTo2PiRange` maps them to a half turn. -/
example : anglesAreEqual (5 * Real.pi) (-Real.pi) (1 / 100) = true ∧ to2Pi (5 * Real.pi) = .ret Real.pi := by
  have hpi := Real.pi_pos
  refine ⟨(normalize_spec 0 _ _ _).2.2.2.2 ⟨3, by rw [show 5 * Real.pi - -Real.pi - ((3 : ℤ) : ℝ) * (2 * Real.pi) = 0 by push_cast; ring]; norm_num⟩, ?_⟩
  obtain ⟨t, h1, h2, k, h3⟩ := (range_spec (5 * Real.pi)).1
  rw [h1]
  congr 1
  exact turns_unique (lo := 0) (k := k + 2) (by rwa [zero_add]) ⟨by linarith, by linarith⟩ (by rw [h3]; push_cast; ring)

/-- **C123.**  Degrees and radians are converted both ways; degrees, minutes and seconds recombine to the angle they came from, degrees and minutes are
whole, minutes and seconds are at least 0 and less than 60, and no other such triple gives the same angle. -/
theorem explicit_spec (a : ℝ) :
    degToRad (radToDeg a) = a ∧ radToDeg (degToRad a) = a ∧ degToRad 180 = Real.pi ∧
    explicitToDeg (degToExplicit a) = a ∧ explicitToRad (radToExplicit a) = a ∧
    (∃ d m : ℤ, (degToExplicit a).deg = d ∧ (degToExplicit a).min = m ∧ 0 ≤ m ∧ m < 60) ∧
    0 ≤ (degToExplicit a).sec ∧ (degToExplicit a).sec < 60 ∧
    (∀ d m : ℤ, ∀ s : ℝ, 0 ≤ m → m < 60 → 0 ≤ s → s < 60 → explicitToDeg ⟨d, m, s⟩ = a → degToExplicit a = ⟨d, m, s⟩) := by
  have hpi := Real.pi_pos.ne'
  have hdeg : ∀ a, explicitToDeg (degToExplicit a) = a := fun a => by rw [explicitToDeg, degToExplicit]; ring
  have a1 := Int.floor_le a
  have a2 := Int.lt_floor_add_one a
  have b1 := Int.floor_le ((a - ⌊a⌋) * 60)
  have b2 := Int.lt_floor_add_one ((a - ⌊a⌋) * 60)
  refine ⟨by rw [degToRad, radToDeg]; field_simp, by rw [degToRad, radToDeg]; field_simp, by rw [degToRad]; ring, hdeg a, ?_,
    ⟨⌊a⌋, ⌊(a - ⌊a⌋) * 60⌋, rfl, rfl, Int.floor_nonneg.2 (by linarith), Int.floor_lt.2 (by push_cast; linarith)⟩,
    by simp only [degToExplicit]; linarith, by simp only [degToExplicit]; linarith, ?_⟩
  · rw [explicitToRad, radToExplicit, hdeg]; field_simp
  · intro d m s h1 h2 h3 h4 h5
    have h1' : (0 : ℝ) ≤ m := by exact_mod_cast h1
    have h2' : (m : ℝ) ≤ 59 := by exact_mod_cast Int.le_of_lt_add_one h2
    simp only [explicitToDeg] at h5
    have e1 : ⌊a⌋ = d := Int.floor_eq_iff.2 ⟨by linarith, by linarith⟩
    have e2 : ⌊(a - d) * 60⌋ = m := Int.floor_eq_iff.2 ⟨by linarith, by linarith⟩
    rw [degToExplicit, e1, e2]
    congr 1
    linarith

/-- A case of `explicit_spec`: minus half a degree is minus one degree and thirty minutes. -/
example : degToExplicit (-1 / 2) = ⟨((-1 : ℤ) : ℝ), ((30 : ℤ) : ℝ), 0⟩ :=
  (explicit_spec (-1 / 2)).2.2.2.2.2.2.2.2 (-1) 30 0 (by norm_num) (by norm_num) le_rfl (by norm_num) (by norm_num [explicitToDeg])

/-! ## Points -/

/-- The distance of two points of the plane. -/
noncomputable def eucl2 (a b : ℝ × ℝ) : ℝ := Real.sqrt ((a.1 - b.1) ^ 2 + (a.2 - b.2) ^ 2)

theorem sqrtU_eq {a b : ℝ} (h : a = b) (hb : 0 ≤ b) : Quat.sqrtU a = .ret (Real.sqrt b) := by
  rw [Quat.sqrtU, h, if_neg (not_lt.2 hb)]

/-- **C123.**  Polar coordinates: the point made from a Cartesian point turns back into it, has radius at least 0 and angle in `(-π, π]`; every polar
point with positive radius and angle in that range is what its Cartesian point is turned into; `Dist` is the distance of the Cartesian points, also for
negative radii, and `IsEqualTo` compares it with the tolerance. -/
theorem polar_spec (c : ℝ × ℝ) (p b : Pol) (eps : ℝ) :
    (Pol.ofCart c).toCart = c ∧ 0 ≤ (Pol.ofCart c).r ∧ (Pol.ofCart c).phi ∈ Set.Ioc (-Real.pi) Real.pi ∧
    (0 < p.r → p.phi ∈ Set.Ioc (-Real.pi) Real.pi → Pol.ofCart p.toCart = p) ∧
    p.dist b = .ret (eucl2 p.toCart b.toCart) ∧ p.isEqualTo b eps = .ret (decide (eucl2 p.toCart b.toCart < eps)) := by
  have hd : p.dist b = .ret (eucl2 p.toCart b.toCart) := by
    refine sqrtU_eq ?_ (by positivity)
    simp only [Pol.toCart, Real.cos_sub]
    nlinarith [Real.sin_sq_add_cos_sq p.phi, Real.sin_sq_add_cos_sq b.phi]
  refine ⟨Prod.ext (Coord.polar_cos _ _) (Coord.polar_sin _ _), Real.sqrt_nonneg _, Complex.arg_mem_Ioc _, fun h1 h2 => ?_, hd, ?_⟩
  · ext
    · exact Coord.sqrt_polar h1.le
    · exact Coord.atan2_polar h1 h2
  · rw [Pol.isEqualTo, hd, Outcome.bind_ret]

/-- **C123.**  Cylindrical coordinates, likewise. -/
theorem cyl_spec (c : V3 ℝ) (p b : Cylr) (eps : ℝ) :
    (Cylr.ofCart c).toCart = c ∧ 0 ≤ (Cylr.ofCart c).r ∧ (Cylr.ofCart c).phi ∈ Set.Ioc (-Real.pi) Real.pi ∧
    (0 < p.r → p.phi ∈ Set.Ioc (-Real.pi) Real.pi → Cylr.ofCart p.toCart = p) ∧
    p.dist b = .ret (eucl p.toCart b.toCart) ∧ p.isEqualTo b eps = .ret (decide (eucl p.toCart b.toCart < eps)) := by
  have hd : p.dist b = .ret (eucl p.toCart b.toCart) := by
    refine sqrtU_eq ?_ (by positivity)
    simp only [Cylr.toCart, Real.cos_sub]
    nlinarith [Real.sin_sq_add_cos_sq p.phi, Real.sin_sq_add_cos_sq b.phi]
  refine ⟨V3.ext (Coord.polar_cos _ _) (Coord.polar_sin _ _) rfl, Real.sqrt_nonneg _, Complex.arg_mem_Ioc _, fun h1 h2 => ?_, hd, ?_⟩
  · ext
    · exact Coord.sqrt_polar h1.le
    · exact Coord.atan2_polar h1 h2
    · rfl
  · rw [Cylr.isEqualTo, hd, Outcome.bind_ret]

theorem cosGamma_bounds (p b : Sphr) : -1 ≤ p.cosGamma b ∧ p.cosGamma b ≤ 1 := by
  rw [Sphr.cosGamma]
  have h1 := Real.sin_sq_add_cos_sq p.theta
  have h2 := Real.sin_sq_add_cos_sq b.theta
  have h3 := Real.cos_le_one (b.phi - p.phi)
  have h4 := Real.neg_one_le_cos (b.phi - p.phi)
  generalize Real.cos (b.phi - p.phi) = k at *
  generalize Real.cos p.theta = c at *
  generalize Real.cos b.theta = d at *
  generalize Real.sin p.theta = s at *
  generalize Real.sin b.theta = t at *
  have hst : |s * t * k| ≤ |s * t| := by
    rw [abs_mul]
    exact mul_le_of_le_one_right (abs_nonneg _) (abs_le.2 ⟨h4, h3⟩)
  have h5 : |c * d| + |s * t| ≤ 1 := by
    rw [abs_mul, abs_mul]
    nlinarith [sq_abs c, sq_abs d, sq_abs s, sq_abs t, sq_nonneg (|c| - |d|), sq_nonneg (|s| - |t|)]
  have h6 := abs_le.1 (hst.trans (by linarith [h5] : |s * t| ≤ 1 - |c * d|))
  have h7 := abs_le.1 (le_refl |c * d|)
  constructor <;> linarith [h6.1, h6.2, h7.1, h7.2]

theorem atan2_nonneg {y : ℝ} (h : 0 ≤ y) (x : ℝ) : Quat.atan2 y x ∈ Set.Icc 0 Real.pi := ⟨Complex.arg_nonneg_iff.2 h, Complex.arg_le_pi _⟩

/-- **C123.**  Spherical coordinates: the point made from a Cartesian point turns back into it, has radius at least 0, polar angle in `[0, π]` and
azimuth in `(-π, π]`; every spherical point with positive radius, polar angle strictly between 0 and π and azimuth in that range is what its Cartesian
point is turned into; `Dist` is the distance of the Cartesian points, so the clamp never changes anything. -/
theorem sph_spec (c : V3 ℝ) (p b : Sphr) (eps : ℝ) :
    (Sphr.ofCart c).toCart = c ∧ 0 ≤ (Sphr.ofCart c).r ∧ (Sphr.ofCart c).theta ∈ Set.Icc 0 Real.pi ∧ (Sphr.ofCart c).phi ∈ Set.Ioc (-Real.pi) Real.pi ∧
    (0 < p.r → p.theta ∈ Set.Ioo 0 Real.pi → p.phi ∈ Set.Ioc (-Real.pi) Real.pi → Sphr.ofCart p.toCart = p) ∧
    p.dist b = .ret (eucl p.toCart b.toCart) ∧ p.isEqualTo b eps = .ret (decide (eucl p.toCart b.toCart < eps)) := by
  have hd : p.dist b = .ret (eucl p.toCart b.toCart) := by
    refine sqrtU_eq ?_ (by positivity)
    obtain ⟨h1, h2⟩ := cosGamma_bounds p b
    rw [min_eq_left h2, max_eq_right h1]
    simp only [Sphr.toCart, Sphr.cosGamma, Real.cos_sub]
    have e1 := Real.sin_sq p.phi
    have e2 := Real.sin_sq b.phi
    have e3 := Real.sin_sq p.theta
    have e4 := Real.sin_sq b.theta
    generalize Real.cos p.theta = c1 at *
    generalize Real.cos b.theta = d1 at *
    generalize Real.sin p.theta = s1 at *
    generalize Real.sin b.theta = t1 at *
    generalize Real.cos p.phi = c2 at *
    generalize Real.cos b.phi = d2 at *
    generalize Real.sin p.phi = s2 at *
    generalize Real.sin b.phi = t2 at *
    linear_combination (-(p.r ^ 2 * s1 ^ 2)) * e1 - (b.r ^ 2 * t1 ^ 2) * e2 - p.r ^ 2 * e3 - b.r ^ 2 * e4
  have hs : ∀ c : V3 ℝ, c.x * c.x + c.y * c.y + c.z * c.z = c.z * c.z + Real.sqrt (c.x * c.x + c.y * c.y) * Real.sqrt (c.x * c.x + c.y * c.y) := fun c => by
    rw [Real.mul_self_sqrt (by nlinarith [mul_self_nonneg c.x, mul_self_nonneg c.y])]; ring
  refine ⟨?_, Real.sqrt_nonneg _, atan2_nonneg (Real.sqrt_nonneg _) _, Complex.arg_mem_Ioc _, fun h1 h2 h3 => ?_, hd, ?_⟩
  · have e1 := Coord.polar_sin c.z (Real.sqrt (c.x * c.x + c.y * c.y))
    have e2 := Coord.polar_cos c.z (Real.sqrt (c.x * c.x + c.y * c.y))
    rw [← hs] at e1 e2
    simp only [Sphr.toCart, Sphr.ofCart, e1, e2]
    ext
    · exact Coord.polar_cos _ _
    · exact Coord.polar_sin _ _
    · rfl
  · have hsin := Real.sin_pos_of_mem_Ioo h2
    have e1 : Real.sqrt (p.toCart.x * p.toCart.x + p.toCart.y * p.toCart.y) = p.r * Real.sin p.theta := by
      simp only [Sphr.toCart]
      exact Coord.sqrt_polar (by positivity)
    ext
    · show Real.sqrt _ = _
      rw [hs, e1]
      exact Coord.sqrt_polar h1.le
    · show Quat.atan2 _ _ = _
      rw [e1]
      exact Coord.atan2_polar h1 ⟨by linarith [h2.1, Real.pi_pos], h2.2.le⟩
    · exact Coord.atan2_polar (by positivity) h3
  · rw [Sphr.isEqualTo, hd, Outcome.bind_ret]

/-- A case of `sph_spec`: the direction of the negative `x` axis. -/
example : Sphr.ofCart (Sphr.toCart ⟨2, Real.pi / 2, Real.pi⟩) = ⟨2, Real.pi / 2, Real.pi⟩ :=
  (sph_spec ⟨0, 0, 0⟩ ⟨2, Real.pi / 2, Real.pi⟩ ⟨0, 0, 0⟩ 0).2.2.2.2.1 (by norm_num) ⟨by simp; exact Real.pi_pos, by simp; exact Real.pi_pos⟩
    ⟨by simp; linarith [Real.pi_pos], le_rfl⟩

/-- **C123, a disagreement.**  The azimuth is documented as an angle of `[0, 2π)`; the point at `(0, -1, 0)` has azimuth `-π/2`. -/
theorem azimuth_negative : (Sphr.ofCart ⟨0, -1, 0⟩).phi = -(Real.pi / 2) := by
  simp only [Sphr.ofCart, Quat.atan2]
  rw [show (⟨0, -1⟩ : ℂ) = -Complex.I by apply Complex.ext <;> simp]
  exact Complex.arg_neg_I

theorem atan2_arccos (c : V3 ℝ) (h : 0 < radius c) : Quat.atan2 (Real.sqrt (c.x * c.x + c.y * c.y)) c.z = Real.arccos (c.z / radius c) := by
  have h2 := atan2_nonneg (Real.sqrt_nonneg (c.x * c.x + c.y * c.y)) c.z
  have e := Coord.polar_cos c.z (Real.sqrt (c.x * c.x + c.y * c.y))
  rw [Real.mul_self_sqrt (by nlinarith [mul_self_nonneg c.x, mul_self_nonneg c.y]), show c.z * c.z + (c.x * c.x + c.y * c.y) = c.x * c.x + c.y * c.y + c.z * c.z by ring] at e
  change radius c * _ = _ at e
  have e3 : c.z / radius c = Real.cos (Quat.atan2 (Real.sqrt (c.x * c.x + c.y * c.y)) c.z) := by rw [div_eq_iff h.ne', mul_comm, e]
  rw [e3, Real.arccos_cos h2.1 h2.2]

/-- **C123.**  `CartesianToSpherical` of the utilities, which uses the arc cosine, gives for every point the same as the constructor of the spherical
point, which uses `atan2`. -/
theorem cartToSph_spec (c : V3 ℝ) : cartToSph c = .ret (Sphr.ofCart c) ∧ radius c = eucl c ⟨0, 0, 0⟩ := by
  refine ⟨?_, ?_⟩
  · rw [cartToSph]
    by_cases h : radius c = 0
    · rw [if_pos h]
      have h0 : c.x * c.x + c.y * c.y + c.z * c.z = 0 := (Real.sqrt_eq_zero (by nlinarith [mul_self_nonneg c.x, mul_self_nonneg c.y, mul_self_nonneg c.z])).1 h
      have hx : c.x = 0 := by nlinarith [mul_self_nonneg c.x, mul_self_nonneg c.y, mul_self_nonneg c.z]
      have hy : c.y = 0 := by nlinarith [mul_self_nonneg c.x, mul_self_nonneg c.y, mul_self_nonneg c.z]
      have hz : c.z = 0 := by nlinarith [mul_self_nonneg c.x, mul_self_nonneg c.y, mul_self_nonneg c.z]
      rw [h]
      have e0 : (⟨0, 0⟩ : ℂ) = 0 := rfl
      simp [Sphr.ofCart, hx, hy, hz, Quat.atan2, e0]
    · rw [if_neg h, CompGeo.Poly.fdiv_of_ne h, Outcome.bind_ret, ← atan2_arccos c (lt_of_le_of_ne (Real.sqrt_nonneg _) (Ne.symm h))]
      rfl
  · rw [radius, eucl]; congr 1; dsimp only; ring

/-! ## The globe -/

/-- The vector with the coordinates of `p`. -/
noncomputable def toE (p : V3 ℝ) : EuclideanSpace ℝ (Fin 3) := !₂[p.x, p.y, p.z]

/-- The point of the unit sphere with the latitude and longitude given in degrees: the first axis points to latitude 0 and longitude 0, the third to the
north pole. -/
noncomputable def globe (lat long : ℝ) : V3 ℝ :=
  ⟨Real.cos (lat * Real.pi / 180) * Real.cos (long * Real.pi / 180), Real.cos (lat * Real.pi / 180) * Real.sin (long * Real.pi / 180),
    Real.sin (lat * Real.pi / 180)⟩

theorem globe_eq (lat long : ℝ) : (ofLatLong lat long).toCart = globe lat long := by
  simp only [Sphr.toCart, ofLatLong, globe, degToRad, Real.sin_pi_div_two_sub, Real.cos_pi_div_two_sub, one_mul]

theorem globe_norm (lat long : ℝ) : ‖toE (globe lat long)‖ = 1 := by
  rw [EuclideanSpace.norm_eq, Fin.sum_univ_three]
  simp only [toE, globe, Real.norm_eq_abs, sq_abs]
  rw [Real.sqrt_eq_one]
  simp
  have h1 := Real.sin_sq_add_cos_sq (lat * Real.pi / 180)
  have h2 := Real.sin_sq_add_cos_sq (long * Real.pi / 180)
  linear_combination h1 + Real.cos (lat * Real.pi / 180) ^ 2 * h2

theorem globe_inner (lat long lat' long' : ℝ) :
    inner ℝ (toE (globe lat long)) (toE (globe lat' long')) = cosAngle (ofLatLong lat long) (ofLatLong lat' long') := by
  simp only [toE, globe, cosAngle, ofLatLong, degToRad, Real.sin_pi_div_two_sub, Real.cos_pi_div_two_sub, Real.cos_sub, PiLp.inner_apply, Fin.sum_univ_three]
  simp
  ring

theorem angularDist_eq (lat1 long1 lat2 long2 : ℝ) :
    angularDist lat1 long1 lat2 long2 = InnerProductGeometry.angle (toE (globe lat1 long1)) (toE (globe lat2 long2)) := by
  rw [InnerProductGeometry.angle, globe_norm, globe_norm, mul_one, div_one, globe_inner, angularDist]
  have h : cosAngle (ofLatLong lat1 long1) (ofLatLong lat2 long2) = (ofLatLong lat1 long1).cosGamma (ofLatLong lat2 long2) := by
    rw [cosAngle, Sphr.cosGamma, ← Real.cos_neg ((ofLatLong lat1 long1).phi - _), neg_sub]
  obtain ⟨h1, h2⟩ := cosGamma_bounds (ofLatLong lat1 long1) (ofLatLong lat2 long2)
  rw [h, min_eq_right h2, max_eq_right h1]

/-- **C123.**  `DistanceBetweenLatLong` is the angle between the two points of the unit sphere seen from the centre: it lies in `[0, π]`, is symmetric,
zero exactly for the same point, meets the triangle inequality, and the chord between the points is twice the sine of half of it; with a radius it is
multiplied by the radius. -/
theorem globe_spec (a b c d e f R : ℝ) :
    (ofLatLong a b).toCart = globe a b ∧
    angularDist a b c d = InnerProductGeometry.angle (toE (globe a b)) (toE (globe c d)) ∧ angularDist a b c d ∈ Set.Icc 0 Real.pi ∧
    angularDist a b c d = angularDist c d a b ∧ (angularDist a b c d = 0 ↔ globe a b = globe c d) ∧
    angularDist a b e f ≤ angularDist a b c d + angularDist c d e f ∧
    eucl (globe a b) (globe c d) = 2 * Real.sin (angularDist a b c d / 2) ∧ arcDist R a b c d = R * angularDist a b c d := by
  have hchord : eucl (globe a b) (globe c d) = 2 * Real.sin (angularDist a b c d / 2) := by
    have h0 : 0 ≤ angularDist a b c d := Real.arccos_nonneg _
    have hpi : angularDist a b c d ≤ Real.pi := Real.arccos_le_pi _
    have hs : 0 ≤ Real.sin (angularDist a b c d / 2) := Real.sin_nonneg_of_nonneg_of_le_pi (by linarith) (by linarith)
    have hcos : Real.cos (angularDist a b c d) = inner ℝ (toE (globe a b)) (toE (globe c d)) := by
      rw [angularDist_eq, InnerProductGeometry.cos_angle, globe_norm, globe_norm, mul_one, div_one]
    have e1 := globe_norm a b
    have e2 := globe_norm c d
    rw [EuclideanSpace.norm_eq, Real.sqrt_eq_one, Fin.sum_univ_three] at e1 e2
    simp [toE] at e1 e2
    rw [PiLp.inner_apply, Fin.sum_univ_three] at hcos
    simp [toE] at hcos
    rw [eucl, Real.sqrt_eq_iff_mul_self_eq (by positivity) (by positivity)]
    have h4 := Real.cos_sq (angularDist a b c d / 2)
    rw [show 2 * (angularDist a b c d / 2) = angularDist a b c d by ring] at h4
    have h5 := Real.sin_sq_add_cos_sq (angularDist a b c d / 2)
    linear_combination -4 * h5 + 4 * h4 + 2 * hcos + e1 + e2
  refine ⟨globe_eq a b, angularDist_eq _ _ _ _, ⟨Real.arccos_nonneg _, Real.arccos_le_pi _⟩,
    by rw [angularDist_eq, angularDist_eq, InnerProductGeometry.angle_comm], ?_, ?_, hchord, rfl⟩
  · rw [← eucl_eq_zero, hchord]
    have h0 : 0 ≤ angularDist a b c d := Real.arccos_nonneg _
    have hpi : angularDist a b c d ≤ Real.pi := Real.arccos_le_pi _
    constructor
    · intro h; rw [h]; simp
    · intro h
      have h1 : Real.sin (angularDist a b c d / 2) = 0 := by linarith
      rw [Real.sin_eq_zero_iff_of_lt_of_lt (by linarith [Real.pi_pos]) (by linarith [Real.pi_pos])] at h1
      linarith
  · simp only [angularDist_eq]
    exact InnerProductGeometry.angle_le_angle_add_angle _ _ _

/-- A case of `globe_spec`: the poles are half a turn apart, whatever longitude is given for them. -/
example (l m : ℝ) : angularDist 90 l (-90) m = Real.pi := by
  simp only [angularDist, cosAngle, ofLatLong, degToRad]
  rw [show Real.pi / 2 - 90 * Real.pi / 180 = 0 by ring, show Real.pi / 2 - -90 * Real.pi / 180 = Real.pi by ring]
  simp

end Verif.Geom.Ang
