import Verif.Fun.Fields
import Mathlib.Analysis.SpecialFunctions.Sqrt
import Mathlib.Analysis.Calculus.Deriv.Add
import Mathlib.Analysis.Calculus.Deriv.Inv
import Mathlib.Tactic

/-!
# Property C156: the predefined fields

Specification: gradient, divergence and rotation through Mathlib's derivative in each coordinate.
-/

set_option autoImplicit false

namespace Verif.Fields

/-- `g` is the gradient of `f` at the point. -/
def IsGrad (f : ℝ → ℝ → ℝ → ℝ) (g : ℝ × ℝ × ℝ) (x y z : ℝ) : Prop :=
  HasDerivAt (fun s => f s y z) g.1 x ∧ HasDerivAt (fun s => f x s z) g.2.1 y ∧ HasDerivAt (fun s => f x y s) g.2.2 z

/-- The field has the divergence `d` and the rotation `r` at the point. -/
def HasDivCurl (V : ℝ → ℝ → ℝ → ℝ × ℝ × ℝ) (d : ℝ) (r : ℝ × ℝ × ℝ) (x y z : ℝ) : Prop :=
  ∃ a b c : ℝ × ℝ × ℝ, IsGrad (fun x y z => (V x y z).1) a x y z ∧ IsGrad (fun x y z => (V x y z).2.1) b x y z ∧
    IsGrad (fun x y z => (V x y z).2.2) c x y z ∧ d = a.1 + b.2.1 + c.2.2 ∧
    r = (c.2.1 - b.2.2, a.2.2 - c.1, b.1 - a.2.1)

theorem IsGrad.unique {f : ℝ → ℝ → ℝ → ℝ} {g h : ℝ × ℝ × ℝ} {x y z : ℝ} (hg : IsGrad f g x y z) (hh : IsGrad f h x y z) :
    g = h :=
  Prod.ext (hg.1.unique hh.1) (Prod.ext (hg.2.1.unique hh.2.1) (hg.2.2.unique hh.2.2))

/-! ## Derivatives of powers of the distance -/

theorem hda_congr {f g : ℝ → ℝ} {a b x : ℝ} (h : HasDerivAt f a x) (hf : ∀ s, g s = f s) (hab : a = b) :
    HasDerivAt g b x := by
  have : g = f := funext hf
  rw [this, ← hab]
  exact h

theorem hda_shift {f : ℝ → ℝ} {a x c : ℝ} (h : HasDerivAt f a (x - c)) : HasDerivAt (fun s => f (s - c)) a x := by
  have h1 : HasDerivAt (fun s : ℝ => s - c) 1 x :=
    hda_congr (HasDerivAt.sub (hasDerivAt_id x) (hasDerivAt_const x c)) (fun _ => rfl) (by norm_num)
  exact hda_congr (HasDerivAt.comp x h h1) (fun _ => rfl) (by ring)

theorem hda_sq (x B : ℝ) : HasDerivAt (fun s : ℝ => s * s + B) (2 * x) x :=
  hda_congr (HasDerivAt.add (HasDerivAt.mul (hasDerivAt_id x) (hasDerivAt_id x)) (hasDerivAt_const x B)) (fun _ => rfl)
    (by simp only [id]; ring)

theorem deriv_inv_norm {x B : ℝ} (h : 0 < x * x + B) :
    HasDerivAt (fun s => 1 / Real.sqrt (s * s + B)) (-x / Real.sqrt (x * x + B) ^ 3) x := by
  have hs : 0 < Real.sqrt (x * x + B) := Real.sqrt_pos.2 h
  refine hda_congr (((hda_sq x B).sqrt h.ne').inv hs.ne') (fun s => by simp) ?_
  field_simp

theorem deriv_inv_cube {x B : ℝ} (h : 0 < x * x + B) :
    HasDerivAt (fun s => 1 / Real.sqrt (s * s + B) ^ 3) (-3 * x / Real.sqrt (x * x + B) ^ 5) x := by
  have hs : 0 < Real.sqrt (x * x + B) := Real.sqrt_pos.2 h
  refine hda_congr ((deriv_inv_norm h).pow 3) (fun s => by simp [div_pow]) ?_
  generalize Real.sqrt (x * x + B) = r at hs ⊢
  norm_num
  field_simp

theorem norm3_x (s y z : ℝ) : norm3 s y z = Real.sqrt (s * s + (y * y + z * z)) := by rw [norm3]; congr 1; ring
theorem norm3_y (x s z : ℝ) : norm3 x s z = Real.sqrt (s * s + (x * x + z * z)) := by rw [norm3]; congr 1; ring
theorem norm3_z (x y s : ℝ) : norm3 x y s = Real.sqrt (s * s + (x * x + y * y)) := by rw [norm3]; congr 1; ring

/-! ## The inverse radial potential and its force -/

/-- **C156.** Away from the origin the functions called force fields are the gradient of the potential with the same constant,
for the free functions and for the classes. -/
theorem force_gradient_partial (C x y z : ℝ) (h : 0 < x * x + y * y + z * z) :
    IsGrad (potential C) (force C x y z) x y z ∧ IsGrad (radialField C) (radialForce C x y z) x y z := by
  have hx := deriv_inv_norm (x := x) (B := y * y + z * z) (by linarith)
  have hy := deriv_inv_norm (x := y) (B := x * x + z * z) (by linarith)
  have hz := deriv_inv_norm (x := z) (B := x * x + y * y) (by linarith)
  simp only [← norm3_x] at hx
  simp only [← norm3_y] at hy
  simp only [← norm3_z] at hz
  constructor
  · refine ⟨hda_congr (HasDerivAt.const_mul C hx) (fun s => ?_) ?_,
      hda_congr (HasDerivAt.const_mul C hy) (fun s => ?_) ?_,
      hda_congr (HasDerivAt.const_mul C hz) (fun s => ?_) ?_⟩ <;>
      simp only [potential, force] <;> ring
  · refine ⟨hda_congr (HasDerivAt.const_mul C hx) (fun s => ?_) ?_,
      hda_congr (HasDerivAt.const_mul C hy) (fun s => ?_) ?_,
      hda_congr (HasDerivAt.const_mul C hz) (fun s => ?_) ?_⟩ <;>
      simp only [radialField, potential, radialForce, force] <;> ring

/-- **C156 (disagreement).** The documentation says `F = -∇Φ`.  This holds nowhere: for every constant other than 0 and every
point other than the origin the force has the opposite sign. -/
theorem force_not_negative_gradient (C x y z : ℝ) (hC : C ≠ 0) (h : 0 < x * x + y * y + z * z) (g : ℝ × ℝ × ℝ) :
    (IsGrad (potential C) g x y z → force C x y z ≠ -g) ∧ (IsGrad (radialField C) g x y z → radialForce C x y z ≠ -g) := by
  have hn : norm3 x y z ^ 3 ≠ 0 := (pow_pos (Real.sqrt_pos.2 h) 3).ne'
  have key : ∀ u : ℝ × ℝ × ℝ, u = -u → u = 0 := fun u hu => by
    have h1 := congrArg Prod.fst hu
    have h2 := congrArg (fun p => p.2.1) hu
    have h3 := congrArg (fun p => p.2.2) hu
    simp only [Prod.fst_neg, Prod.snd_neg] at h1 h2 h3
    refine Prod.ext ?_ (Prod.ext ?_ ?_) <;> simp <;> linarith
  have zero : ∀ u v w : ℝ, u / norm3 x y z ^ 3 = 0 → v / norm3 x y z ^ 3 = 0 → w / norm3 x y z ^ 3 = 0 →
      u = 0 ∧ v = 0 ∧ w = 0 := fun u v w a b c =>
    ⟨(div_eq_zero_iff.1 a).resolve_right hn, (div_eq_zero_iff.1 b).resolve_right hn, (div_eq_zero_iff.1 c).resolve_right hn⟩
  have fin : ¬ (x = 0 ∧ y = 0 ∧ z = 0) := by
    rintro ⟨rfl, rfl, rfl⟩
    norm_num at h
  constructor
  · intro hg he
    rw [← (force_gradient_partial C x y z h).1.unique hg] at he
    have h0 := key _ he
    simp only [force, Prod.mk_eq_zero] at h0
    obtain ⟨a, b, c⟩ := zero _ _ _ h0.1 h0.2.1 h0.2.2
    exact fin ⟨by simpa [hC] using a, by simpa [hC] using b, by simpa [hC] using c⟩
  · intro hg he
    rw [← (force_gradient_partial C x y z h).2.unique hg] at he
    have h0 := key _ he
    simp only [radialForce, force, Prod.mk_eq_zero, mul_eq_zero, hC, false_or] at h0
    obtain ⟨a, b, c⟩ := zero _ _ _ h0.1 h0.2.1 h0.2.2
    exact fin ⟨by simpa using a, by simpa using b, by simpa using c⟩

/-! ## Vortex and saddle -/

theorem lin (a b x : ℝ) : HasDerivAt (fun s => a * s + b) a x := by
  exact hda_congr (HasDerivAt.add (HasDerivAt.const_mul a (hasDerivAt_id x)) (hasDerivAt_const x b)) (fun _ => rfl) (by ring)

theorem affine_grad (a b c d x y z : ℝ) : IsGrad (fun x y z => a * x + b * y + c * z + d) (a, b, c) x y z := by
  refine ⟨?_, ?_, ?_⟩
  · exact (lin a (b * y + c * z + d) x).congr_of_eventuallyEq (Filter.Eventually.of_forall fun s => by simp only; ring)
  · exact (lin b (a * x + c * z + d) y).congr_of_eventuallyEq (Filter.Eventually.of_forall fun s => by simp only; ring)
  · exact (lin c (a * x + b * y + d) z).congr_of_eventuallyEq (Filter.Eventually.of_forall fun s => by simp only; ring)

/-- **C156.** Rigid rotation has everywhere divergence 0 and rotation twice the angular velocity. -/
theorem vortex_spec (w0 w1 w2 x y z : ℝ) : HasDivCurl (vortex w0 w1 w2) 0 (2 * w0, 2 * w1, 2 * w2) x y z := by
  refine ⟨(0, -w2, w1), (w2, 0, -w0), (-w1, w0, 0), ?_, ?_, ?_, by simp, by ext <;> simp <;> ring⟩
  · convert affine_grad 0 (-w2) w1 0 x y z using 4; simp only [vortex]; ring
  · convert affine_grad w2 0 (-w0) 0 x y z using 4; simp only [vortex]; ring
  · convert affine_grad (-w1) w0 0 0 x y z using 4; simp only [vortex]; ring

/-- **C156.** The saddle field has everywhere divergence 0 and rotation 0. -/
theorem saddle_spec (k x y z : ℝ) : HasDivCurl (saddle k) 0 (0, 0, 0) x y z := by
  refine ⟨(k, 0, 0), (0, -k, 0), (0, 0, 0), ?_, ?_, ?_, by simp, by simp⟩
  · convert affine_grad k 0 0 0 x y z using 4; simp only [saddle]; ring
  · convert affine_grad 0 (-k) 0 0 x y z using 4; simp only [saddle]; ring
  · convert affine_grad 0 0 0 0 x y z using 4; simp only [saddle]; ring

/-! ## Source and current -/

open Classical in
theorem guarded {φ g : ℝ → ℝ} {tol d x : ℝ} (hφ : ContinuousAt φ x) (ht : tol < φ x) (hd : HasDerivAt g d x) :
    HasDerivAt (fun s => if φ s < tol then 0 else g s) d x := by
  refine hd.congr_of_eventuallyEq ?_
  filter_upwards [hφ.eventually (lt_mem_nhds ht)] with s hs
  rw [if_neg (not_lt.2 hs.le)]

theorem sourceSink_components (tol Q c0 c1 c2 x y z : ℝ) :
    (sourceSink tol Q c0 c1 c2 x y z).1 = (if norm3 (x - c0) (y - c1) (z - c2) < tol then 0
      else Q * ((x - c0) * (1 / norm3 (x - c0) (y - c1) (z - c2) ^ 3))) ∧
    (sourceSink tol Q c0 c1 c2 x y z).2.1 = (if norm3 (x - c0) (y - c1) (z - c2) < tol then 0
      else Q * ((y - c1) * (1 / norm3 (x - c0) (y - c1) (z - c2) ^ 3))) ∧
    (sourceSink tol Q c0 c1 c2 x y z).2.2 = (if norm3 (x - c0) (y - c1) (z - c2) < tol then 0
      else Q * ((z - c2) * (1 / norm3 (x - c0) (y - c1) (z - c2) ^ 3))) := by
  unfold sourceSink
  by_cases h : norm3 (x - c0) (y - c1) (z - c2) < tol
  · simp only [if_pos h, and_self]
  · simp only [if_neg h]
    refine ⟨?_, ?_, ?_⟩ <;> ring

theorem norm3_cont {f g h : ℝ → ℝ} (hf : Continuous f) (hg : Continuous g) (hh : Continuous h) :
    Continuous fun s => norm3 (f s) (g s) (h s) := by
  unfold norm3
  fun_prop

/-- The derivatives of `x / r³` in its own coordinate and in another. -/
theorem own_deriv {x B : ℝ} (h : 0 < x * x + B) : HasDerivAt (fun s => s * (1 / Real.sqrt (s * s + B) ^ 3))
    (1 / Real.sqrt (x * x + B) ^ 3 - 3 * (x * x) / Real.sqrt (x * x + B) ^ 5) x := by
  exact hda_congr (HasDerivAt.mul (hasDerivAt_id x) (deriv_inv_cube h)) (fun _ => rfl) (by simp only [id]; ring)

theorem other_deriv {x B u : ℝ} (h : 0 < x * x + B) : HasDerivAt (fun s => u * (1 / Real.sqrt (s * s + B) ^ 3))
    (-(3 * (u * x)) / Real.sqrt (x * x + B) ^ 5) x := by
  exact hda_congr (HasDerivAt.const_mul u (deriv_inv_cube h)) (fun _ => rfl) (by ring)

/-- **C156.** Outside the ball of radius `tol` around its centre the source field has divergence 0 and rotation 0. -/
theorem sourceSink_spec (tol Q c0 c1 c2 x y z : ℝ) (ht : 0 ≤ tol) (h : tol < norm3 (x - c0) (y - c1) (z - c2)) :
    HasDivCurl (sourceSink tol Q c0 c1 c2) 0 (0, 0, 0) x y z := by
  set X := x - c0 with hX
  set Y := y - c1 with hY
  set Z := z - c2 with hZ
  have hn : 0 < norm3 X Y Z := lt_of_le_of_lt ht h
  have hq : 0 < X * X + Y * Y + Z * Z := Real.sqrt_pos.1 hn
  have hsq : norm3 X Y Z ^ 2 = X * X + Y * Y + Z * Z := Real.sq_sqrt hq.le
  have qx : 0 < X * X + (Y * Y + Z * Z) := by linarith
  have qy : 0 < Y * Y + (X * X + Z * Z) := by linarith
  have qz : 0 < Z * Z + (X * X + Y * Y) := by linarith
  have cx : ContinuousAt (fun s => norm3 (s - c0) Y Z) x :=
    (norm3_cont (by fun_prop) continuous_const continuous_const).continuousAt
  have cy : ContinuousAt (fun s => norm3 X (s - c1) Z) y :=
    (norm3_cont continuous_const (by fun_prop) continuous_const).continuousAt
  have cz : ContinuousAt (fun s => norm3 X Y (s - c2)) z :=
    (norm3_cont continuous_const continuous_const (by fun_prop)).continuousAt
  have ownx := own_deriv qx
  have owny := own_deriv qy
  have ownz := own_deriv qz
  have othx := fun u => other_deriv (u := u) qx
  have othy := fun u => other_deriv (u := u) qy
  have othz := fun u => other_deriv (u := u) qz
  simp only [← norm3_x] at ownx othx
  simp only [← norm3_y] at owny othy
  simp only [← norm3_z] at ownz othz
  refine ⟨(Q * (1 / norm3 X Y Z ^ 3 - 3 * (X * X) / norm3 X Y Z ^ 5), Q * (-(3 * (X * Y)) / norm3 X Y Z ^ 5),
      Q * (-(3 * (X * Z)) / norm3 X Y Z ^ 5)),
    (Q * (-(3 * (Y * X)) / norm3 X Y Z ^ 5), Q * (1 / norm3 X Y Z ^ 3 - 3 * (Y * Y) / norm3 X Y Z ^ 5),
      Q * (-(3 * (Y * Z)) / norm3 X Y Z ^ 5)),
    (Q * (-(3 * (Z * X)) / norm3 X Y Z ^ 5), Q * (-(3 * (Z * Y)) / norm3 X Y Z ^ 5),
      Q * (1 / norm3 X Y Z ^ 3 - 3 * (Z * Z) / norm3 X Y Z ^ 5)), ?_, ?_, ?_, ?_, ?_⟩
  · simp only [IsGrad, (sourceSink_components _ _ _ _ _ _ _ _).1]
    exact ⟨guarded cx h ((hda_shift ownx).const_mul Q),
      guarded cy h ((hda_shift (othy X)).const_mul Q),
      guarded cz h ((hda_shift (othz X)).const_mul Q)⟩
  · simp only [IsGrad, (sourceSink_components _ _ _ _ _ _ _ _).2.1]
    exact ⟨guarded cx h ((hda_shift (othx Y)).const_mul Q),
      guarded cy h ((hda_shift owny).const_mul Q),
      guarded cz h ((hda_shift (othz Y)).const_mul Q)⟩
  · simp only [IsGrad, (sourceSink_components _ _ _ _ _ _ _ _).2.2]
    exact ⟨guarded cx h ((hda_shift (othx Z)).const_mul Q),
      guarded cy h ((hda_shift (othy Z)).const_mul Q),
      guarded cz h ((hda_shift ownz).const_mul Q)⟩
  · have e : 1 / norm3 X Y Z ^ 3 = (X * X + Y * Y + Z * Z) / norm3 X Y Z ^ 5 := by
      rw [← hsq]; field_simp
    simp only [e]
    ring
  · refine Prod.ext ?_ (Prod.ext ?_ ?_) <;> simp only <;> ring

theorem planar_deriv {x B : ℝ} (h : 0 < x * x + B) :
    HasDerivAt (fun s => 1 / (s * s + B)) (-(2 * x) / (x * x + B) ^ 2) x := by
  exact hda_congr ((hda_sq x B).inv h.ne') (fun s => by simp) rfl

theorem lineCurrent_components (tol C x y z : ℝ) :
    (lineCurrent tol C x y z).1 = (if x * x + y * y < tol * tol then 0 else -C * (y * (1 / (x * x + y * y)))) ∧
    (lineCurrent tol C x y z).2.1 = (if x * x + y * y < tol * tol then 0 else C * (x * (1 / (x * x + y * y)))) ∧
    (lineCurrent tol C x y z).2.2 = 0 := by
  unfold lineCurrent
  by_cases h : x * x + y * y < tol * tol
  · simp only [if_pos h, and_self]
  · simp only [if_neg h]
    refine ⟨?_, ?_, trivial⟩ <;> ring

/-- **C156.** Outside the cylinder of radius `tol` around the wire the field of a line current has divergence 0 and rotation 0,
and its size is the constant divided by the distance. -/
theorem lineCurrent_spec (tol C x y z : ℝ) (h : tol * tol < x * x + y * y) :
    HasDivCurl (lineCurrent tol C) 0 (0, 0, 0) x y z ∧
      norm3 (lineCurrent tol C x y z).1 (lineCurrent tol C x y z).2.1 (lineCurrent tol C x y z).2.2 =
        |C| / Real.sqrt (x * x + y * y) := by
  have hq : 0 < x * x + y * y := lt_of_le_of_lt (mul_self_nonneg tol) h
  have dx := planar_deriv (x := x) (B := y * y) hq
  have dy : HasDerivAt (fun s => 1 / (x * x + s * s)) (-(2 * y) / (x * x + y * y) ^ 2) y := by
    have := planar_deriv (x := y) (B := x * x) (by linarith)
    simpa only [add_comm] using this
  have cx : ContinuousAt (fun s => s * s + y * y) x := by fun_prop
  have cy : ContinuousAt (fun s => x * x + s * s) y := by fun_prop
  constructor
  · refine ⟨(-C * (y * (-(2 * x) / (x * x + y * y) ^ 2)),
        -C * (1 * (1 / (x * x + y * y)) + y * (-(2 * y) / (x * x + y * y) ^ 2)), 0),
      (C * (1 * (1 / (x * x + y * y)) + x * (-(2 * x) / (x * x + y * y) ^ 2)),
        C * (x * (-(2 * y) / (x * x + y * y) ^ 2)), 0), (0, 0, 0), ?_, ?_, ?_, ?_, ?_⟩
    · simp only [IsGrad, (lineCurrent_components _ _ _ _ _).1]
      exact ⟨guarded cx h ((dx.const_mul y).const_mul (-C)), guarded cy h (((hasDerivAt_id y).mul dy).const_mul (-C)),
        hasDerivAt_const _ _⟩
    · simp only [IsGrad, (lineCurrent_components _ _ _ _ _).2.1]
      exact ⟨guarded cx h (((hasDerivAt_id x).mul dx).const_mul C), guarded cy h ((dy.const_mul x).const_mul C),
        hasDerivAt_const _ _⟩
    · simp only [IsGrad, (lineCurrent_components _ _ _ _ _).2.2]
      exact ⟨hasDerivAt_const _ _, hasDerivAt_const _ _, hasDerivAt_const _ _⟩
    · simp only; ring
    · refine Prod.ext ?_ (Prod.ext ?_ ?_)
      · simp
      · simp
      · simp only
        field_simp
        ring
  · obtain ⟨e1, e2, e3⟩ := lineCurrent_components tol C x y z
    rw [e1, e2, e3, if_neg (not_lt.2 h.le), if_neg (not_lt.2 h.le), norm3, ← Real.sqrt_sq_eq_abs, ← Real.sqrt_div' _ hq.le]
    congr 1
    have hq' : x * x + y * y ≠ 0 := hq.ne'
    have e : -C * (y * (1 / (x * x + y * y))) * (-C * (y * (1 / (x * x + y * y)))) +
        C * (x * (1 / (x * x + y * y))) * (C * (x * (1 / (x * x + y * y)))) + 0 * 0 =
        C ^ 2 * ((x * x + y * y) * (1 / (x * x + y * y))) * (1 / (x * x + y * y)) := by ring
    rw [e, mul_one_div_cancel hq', mul_one, mul_one_div]

/-- The potential of a dipole with moment `p` at `c`. -/
noncomputable def dipolePotential (p0 p1 p2 c0 c1 c2 x y z : ℝ) : ℝ :=
  (p0 * (x - c0) + p1 * (y - c1) + p2 * (z - c2)) / Real.sqrt ((x - c0) ^ 2 + (y - c1) ^ 2 + (z - c2) ^ 2) ^ 3

/-- **C156.** Outside the ball of radius `tol` the dipole field is minus the gradient of the potential `p·r / r³`. -/
theorem dipole_spec (tol p0 p1 p2 c0 c1 c2 x y z : ℝ)
    (h0 : 0 < (x - c0) * (x - c0) + (y - c1) * (y - c1) + (z - c2) * (z - c2))
    (h : tol * tol ≤ (x - c0) * (x - c0) + (y - c1) * (y - c1) + (z - c2) * (z - c2)) :
    IsGrad (dipolePotential p0 p1 p2 c0 c1 c2) (-dipole tol p0 p1 p2 c0 c1 c2 x y z) x y z := by
  unfold dipole
  simp only [if_neg (not_lt.2 h)]
  have hpot : ∀ x y z, dipolePotential p0 p1 p2 c0 c1 c2 x y z =
      (p0 * (x - c0) + p1 * (y - c1) + p2 * (z - c2)) * (1 / norm3 (x - c0) (y - c1) (z - c2) ^ 3) := fun x y z => by
    unfold dipolePotential norm3
    rw [mul_one_div]
    simp only [pow_two]
  set X := x - c0 with hX
  set Y := y - c1 with hY
  set Z := z - c2 with hZ
  have hn : 0 < norm3 X Y Z := Real.sqrt_pos.2 h0
  have hsq : X * X + Y * Y + Z * Z = norm3 X Y Z ^ 2 := (Real.sq_sqrt h0.le).symm
  have hsr : Real.sqrt (X * X + Y * Y + Z * Z) = norm3 X Y Z := rfl
  have ownx := own_deriv (x := X) (B := Y * Y + Z * Z) (by linarith)
  have owny := own_deriv (x := Y) (B := X * X + Z * Z) (by linarith)
  have ownz := own_deriv (x := Z) (B := X * X + Y * Y) (by linarith)
  have othx := fun u => other_deriv (x := X) (B := Y * Y + Z * Z) (u := u) (by linarith)
  have othy := fun u => other_deriv (x := Y) (B := X * X + Z * Z) (u := u) (by linarith)
  have othz := fun u => other_deriv (x := Z) (B := X * X + Y * Y) (u := u) (by linarith)
  simp only [← norm3_x] at ownx othx
  simp only [← norm3_y] at owny othy
  simp only [← norm3_z] at ownz othz
  rw [hsr, hsq]
  generalize hnn : norm3 X Y Z = n at *
  refine ⟨hda_congr (hda_shift (HasDerivAt.add (HasDerivAt.const_mul p0 ownx) (othx (p1 * Y + p2 * Z)))) (fun s => ?_) ?_,
    hda_congr (hda_shift (HasDerivAt.add (HasDerivAt.const_mul p1 owny) (othy (p0 * X + p2 * Z)))) (fun s => ?_) ?_,
    hda_congr (hda_shift (HasDerivAt.add (HasDerivAt.const_mul p2 ownz) (othz (p0 * X + p1 * Y)))) (fun s => ?_) ?_⟩
  · rw [hpot, ← hY, ← hZ]; simp only [Pi.add_apply]; ring
  · simp only [Prod.fst_neg, Prod.snd_neg]; field_simp; ring
  · rw [hpot, ← hX, ← hZ]; simp only [Pi.add_apply]; ring
  · simp only [Prod.fst_neg, Prod.snd_neg]; field_simp; ring
  · rw [hpot, ← hX, ← hY]; simp only [Pi.add_apply]; ring
  · simp only [Prod.fst_neg, Prod.snd_neg]; field_simp; ring

/-- **C156.** For a unit axis the potential vortex is at right angles to the axis and to the position, its size is the constant
divided by the distance from the axis, and about the z-axis it is the field of the line current. -/
theorem potentialVortex_spec (tol C a0 a1 a2 x y z : ℝ) (ha : a0 * a0 + a1 * a1 + a2 * a2 = 1) :
    let v := potentialVortex tol C a0 a1 a2 x y z
    let d2 := x * x + y * y + z * z - (x * a0 + y * a1 + z * a2) ^ 2
    v.1 * a0 + v.2.1 * a1 + v.2.2 * a2 = 0 ∧ v.1 * x + v.2.1 * y + v.2.2 * z = 0 ∧
    (d2 < tol * tol → v = (0, 0, 0)) ∧
    (tol * tol ≤ d2 → 0 < d2 → (v.1 ^ 2 + v.2.1 ^ 2 + v.2.2 ^ 2) * d2 = C ^ 2) ∧
    potentialVortex tol C 0 0 1 x y z = lineCurrent tol C x y z := by
  intro v d2
  have hr : (x - (x * a0 + y * a1 + z * a2) * a0) * (x - (x * a0 + y * a1 + z * a2) * a0) +
      (y - (x * a0 + y * a1 + z * a2) * a1) * (y - (x * a0 + y * a1 + z * a2) * a1) +
      (z - (x * a0 + y * a1 + z * a2) * a2) * (z - (x * a0 + y * a1 + z * a2) * a2) = d2 := by
    simp only [d2]
    linear_combination (x * a0 + y * a1 + z * a2) ^ 2 * ha
  have hv : v = if d2 < tol * tol then (0, 0, 0) else
      (C / d2 * (a1 * z - a2 * y), C / d2 * (a2 * x - a0 * z), C / d2 * (a0 * y - a1 * x)) := by
    simp only [v, potentialVortex, hr]
    by_cases h : d2 < tol * tol
    · rw [if_pos h, if_pos h]
    · rw [if_neg h, if_neg h]
      refine Prod.ext ?_ (Prod.ext ?_ ?_) <;> simp only <;> ring
  refine ⟨?_, ?_, fun h => by rw [hv, if_pos h], fun h h0 => ?_, ?_⟩
  · rw [hv]
    by_cases h : d2 < tol * tol
    · simp only [if_pos h]; ring
    · simp only [if_neg h]; ring
  · rw [hv]
    by_cases h : d2 < tol * tol
    · simp only [if_pos h]; ring
    · simp only [if_neg h]; ring
  · rw [hv, if_neg (not_lt.2 h)]
    have e : (a1 * z - a2 * y) ^ 2 + (a2 * x - a0 * z) ^ 2 + (a0 * y - a1 * x) ^ 2 = d2 := by
      simp only [d2]
      linear_combination (x * x + y * y + z * z) * ha
    simp only
    rw [show (C / d2 * (a1 * z - a2 * y)) ^ 2 + (C / d2 * (a2 * x - a0 * z)) ^ 2 + (C / d2 * (a0 * y - a1 * x)) ^ 2 =
      (C / d2) ^ 2 * ((a1 * z - a2 * y) ^ 2 + (a2 * x - a0 * z) ^ 2 + (a0 * y - a1 * x) ^ 2) by ring, e]
    field_simp
  · unfold potentialVortex lineCurrent
    simp only [mul_zero, mul_one, zero_add, sub_zero, sub_self, add_zero, zero_mul]
    by_cases h : x * x + y * y < tol * tol
    · rw [if_pos h, if_pos h]
    · rw [if_neg h, if_neg h]
      refine Prod.ext ?_ (Prod.ext ?_ ?_) <;> simp only <;> ring

/-- The square of the distance of a point from the line through 0 with the unit direction `a`. -/
def axisDistSq (a0 a1 a2 x y z : ℝ) : ℝ := x * x + y * y + z * z - (x * a0 + y * a1 + z * a2) ^ 2

theorem potentialVortex_components (tol C a0 a1 a2 x y z : ℝ) (ha : a0 * a0 + a1 * a1 + a2 * a2 = 1) :
    (potentialVortex tol C a0 a1 a2 x y z).1 = (if axisDistSq a0 a1 a2 x y z < tol * tol then 0 else
      C / axisDistSq a0 a1 a2 x y z * (a1 * z - a2 * y)) ∧
    (potentialVortex tol C a0 a1 a2 x y z).2.1 = (if axisDistSq a0 a1 a2 x y z < tol * tol then 0 else
      C / axisDistSq a0 a1 a2 x y z * (a2 * x - a0 * z)) ∧
    (potentialVortex tol C a0 a1 a2 x y z).2.2 = (if axisDistSq a0 a1 a2 x y z < tol * tol then 0 else
      C / axisDistSq a0 a1 a2 x y z * (a0 * y - a1 * x)) := by
  have hr : (x - (x * a0 + y * a1 + z * a2) * a0) * (x - (x * a0 + y * a1 + z * a2) * a0) +
      (y - (x * a0 + y * a1 + z * a2) * a1) * (y - (x * a0 + y * a1 + z * a2) * a1) +
      (z - (x * a0 + y * a1 + z * a2) * a2) * (z - (x * a0 + y * a1 + z * a2) * a2) = axisDistSq a0 a1 a2 x y z := by
    unfold axisDistSq
    linear_combination (x * a0 + y * a1 + z * a2) ^ 2 * ha
  unfold potentialVortex
  simp only [hr]
  by_cases h : axisDistSq a0 a1 a2 x y z < tol * tol
  · simp only [if_pos h, and_self]
  · simp only [if_neg h]
    refine ⟨?_, ?_, ?_⟩ <;> ring

theorem quot_deriv {d w : ℝ → ℝ} {d' w' x : ℝ} (C : ℝ) (hd : HasDerivAt d d' x) (hw : HasDerivAt w w' x) (h0 : d x ≠ 0) :
    HasDerivAt (fun s => C / d s * w s) (C * (w' / d x - w x * d' / d x ^ 2)) x := by
  refine hda_congr (HasDerivAt.mul (HasDerivAt.const_mul C (hd.inv h0)) hw) (fun s => ?_) ?_
  · simp only [Pi.mul_apply, Pi.inv_apply, div_eq_mul_inv]
  · simp only [Pi.inv_apply]
    field_simp
    ring

theorem quad_deriv (a b c x : ℝ) : HasDerivAt (fun s => a * (s * s) + b * s + c) (2 * a * x + b) x :=
  hda_congr (HasDerivAt.add (HasDerivAt.const_mul a (hda_sq x 0)) (lin b c x)) (fun s => by simp only [Pi.add_apply]; ring) (by ring)

/-- **C156.** About every unit axis, outside the cylinder of radius `tol`, the potential vortex has divergence 0 and rotation 0,
as documented. -/
theorem potentialVortex_irrotational (tol C a0 a1 a2 x y z : ℝ) (ha : a0 * a0 + a1 * a1 + a2 * a2 = 1)
    (h : tol * tol < axisDistSq a0 a1 a2 x y z) :
    HasDivCurl (potentialVortex tol C a0 a1 a2) 0 (0, 0, 0) x y z := by
  have hpos : 0 < axisDistSq a0 a1 a2 x y z := lt_of_le_of_lt (mul_self_nonneg tol) h
  set D := axisDistSq a0 a1 a2 x y z with hD
  set P := x * a0 + y * a1 + z * a2 with hP
  have dx : HasDerivAt (fun s => axisDistSq a0 a1 a2 s y z) (2 * (x - P * a0)) x :=
    hda_congr (quad_deriv (1 - a0 ^ 2) (-(2 * a0 * (y * a1 + z * a2))) (y * y + z * z - (y * a1 + z * a2) ^ 2) x)
      (fun s => by unfold axisDistSq; ring) (by rw [hP]; ring)
  have dy : HasDerivAt (fun s => axisDistSq a0 a1 a2 x s z) (2 * (y - P * a1)) y :=
    hda_congr (quad_deriv (1 - a1 ^ 2) (-(2 * a1 * (x * a0 + z * a2))) (x * x + z * z - (x * a0 + z * a2) ^ 2) y)
      (fun s => by unfold axisDistSq; ring) (by rw [hP]; ring)
  have dz : HasDerivAt (fun s => axisDistSq a0 a1 a2 x y s) (2 * (z - P * a2)) z :=
    hda_congr (quad_deriv (1 - a2 ^ 2) (-(2 * a2 * (x * a0 + y * a1))) (x * x + y * y - (x * a0 + y * a1) ^ 2) z)
      (fun s => by unfold axisDistSq; ring) (by rw [hP]; ring)
  have hne : D ≠ 0 := hpos.ne'
  have kx : ∀ {w : ℝ → ℝ} {w' : ℝ}, HasDerivAt w w' x → HasDerivAt (fun s => if axisDistSq a0 a1 a2 s y z < tol * tol then 0 else
      C / axisDistSq a0 a1 a2 s y z * w s) (C * (w' / D - w x * (2 * (x - P * a0)) / D ^ 2)) x :=
    fun hw => guarded dx.continuousAt h (quot_deriv C dx hw hne)
  have ky : ∀ {w : ℝ → ℝ} {w' : ℝ}, HasDerivAt w w' y → HasDerivAt (fun s => if axisDistSq a0 a1 a2 x s z < tol * tol then 0 else
      C / axisDistSq a0 a1 a2 x s z * w s) (C * (w' / D - w y * (2 * (y - P * a1)) / D ^ 2)) y :=
    fun hw => guarded dy.continuousAt h (quot_deriv C dy hw hne)
  have kz : ∀ {w : ℝ → ℝ} {w' : ℝ}, HasDerivAt w w' z → HasDerivAt (fun s => if axisDistSq a0 a1 a2 x y s < tol * tol then 0 else
      C / axisDistSq a0 a1 a2 x y s * w s) (C * (w' / D - w z * (2 * (z - P * a2)) / D ^ 2)) z :=
    fun hw => guarded dz.continuousAt h (quot_deriv C dz hw hne)
  have l : ∀ (a b t : ℝ), HasDerivAt (fun s => b - a * s) (-a) t := fun a b t =>
    hda_congr (lin (-a) b t) (fun s => by ring) rfl
  have m : ∀ (a b t : ℝ), HasDerivAt (fun s => a * s - b) a t := fun a b t =>
    hda_congr (lin a (-b) t) (fun s => by ring) rfl
  have c : ∀ (b t : ℝ), HasDerivAt (fun _ : ℝ => b) 0 t := fun b t => hasDerivAt_const t b
  let e (w' w g : ℝ) : ℝ := C * (w' / D - w * (2 * g) / D ^ 2)
  have g1 : IsGrad (fun x y z => (potentialVortex tol C a0 a1 a2 x y z).1) (e 0 (a1 * z - a2 * y) (x - P * a0),
      e (-a2) (a1 * z - a2 * y) (y - P * a1), e a1 (a1 * z - a2 * y) (z - P * a2)) x y z := by
    simp only [IsGrad, (potentialVortex_components _ _ _ _ _ _ _ _ ha).1]
    exact ⟨kx (c _ x), ky (l a2 _ y), kz (m a1 _ z)⟩
  have g2 : IsGrad (fun x y z => (potentialVortex tol C a0 a1 a2 x y z).2.1) (e a2 (a2 * x - a0 * z) (x - P * a0),
      e 0 (a2 * x - a0 * z) (y - P * a1), e (-a0) (a2 * x - a0 * z) (z - P * a2)) x y z := by
    simp only [IsGrad, (potentialVortex_components _ _ _ _ _ _ _ _ ha).2.1]
    exact ⟨kx (m a2 _ x), ky (c _ y), kz (l a0 _ z)⟩
  have g3 : IsGrad (fun x y z => (potentialVortex tol C a0 a1 a2 x y z).2.2) (e (-a1) (a0 * y - a1 * x) (x - P * a0),
      e a0 (a0 * y - a1 * x) (y - P * a1), e 0 (a0 * y - a1 * x) (z - P * a2)) x y z := by
    simp only [IsGrad, (potentialVortex_components _ _ _ _ _ _ _ _ ha).2.2]
    exact ⟨kx (l a1 _ x), ky (m a0 _ y), kz (c _ z)⟩
  have hD' : D = x * x + y * y + z * z - P ^ 2 := rfl
  have e0 : (a0 * y - a1 * x) * (y - P * a1) - (a2 * x - a0 * z) * (z - P * a2) = a0 * D := by
    rw [hD', hP]; linear_combination ((x * a0 + y * a1 + z * a2) * x) * ha
  have e1 : (a1 * z - a2 * y) * (z - P * a2) - (a0 * y - a1 * x) * (x - P * a0) = a1 * D := by
    rw [hD', hP]; linear_combination ((x * a0 + y * a1 + z * a2) * y) * ha
  have e2 : (a2 * x - a0 * z) * (x - P * a0) - (a1 * z - a2 * y) * (y - P * a1) = a2 * D := by
    rw [hD', hP]; linear_combination ((x * a0 + y * a1 + z * a2) * z) * ha
  have ed : (a1 * z - a2 * y) * (x - P * a0) + (a2 * x - a0 * z) * (y - P * a1) + (a0 * y - a1 * x) * (z - P * a2) = 0 := by
    ring
  have hq : ∀ t : ℝ, t / D = t * D / D ^ 2 := fun t => by field_simp
  refine ⟨_, _, _, g1, g2, g3, ?_, ?_⟩
  · simp only [e, hq]
    linear_combination (2 * C / D ^ 2) * ed
  · refine Prod.ext ?_ (Prod.ext ?_ ?_) <;> simp only [e, hq]
    · linear_combination (2 * C / D ^ 2) * e0
    · linear_combination (2 * C / D ^ 2) * e1
    · linear_combination (2 * C / D ^ 2) * e2

/-- **C156.** The axis that the constructor stores has length 1 for every axis other than 0. -/
theorem vortexAxis_unit (a0 a1 a2 : ℝ) (h : 0 < a0 * a0 + a1 * a1 + a2 * a2) :
    let a := vortexAxis a0 a1 a2
    a.1 * a.1 + a.2.1 * a.2.1 + a.2.2 * a.2.2 = 1 ∧ ∃ k > 0, a = (k * a0, k * a1, k * a2) := by
  intro a
  have hs : 0 < Real.sqrt (a0 * a0 + a1 * a1 + a2 * a2) := Real.sqrt_pos.2 h
  have hq : Real.sqrt (a0 * a0 + a1 * a1 + a2 * a2) ^ 2 = a0 * a0 + a1 * a1 + a2 * a2 := Real.sq_sqrt h.le
  simp only [a, vortexAxis]
  generalize Real.sqrt (a0 * a0 + a1 * a1 + a2 * a2) = n at hs hq
  refine ⟨?_, 1 / n, by positivity, ?_⟩
  · field_simp
    linarith
  · refine Prod.ext ?_ (Prod.ext ?_ ?_) <;> simp only <;> ring

theorem HasDivCurl.shift {V : ℝ → ℝ → ℝ → ℝ × ℝ × ℝ} {d : ℝ} {r : ℝ × ℝ × ℝ} {p0 p1 p2 x y z : ℝ}
    (h : HasDivCurl V d r (x - p0) (y - p1) (z - p2)) : HasDivCurl (fun x y z => V (x - p0) (y - p1) (z - p2)) d r x y z := by
  obtain ⟨a, b, c, ha, hb, hc, e⟩ := h
  exact ⟨a, b, c, ⟨hda_shift ha.1, hda_shift ha.2.1, hda_shift ha.2.2⟩, ⟨hda_shift hb.1, hda_shift hb.2.1, hda_shift hb.2.2⟩,
    ⟨hda_shift hc.1, hda_shift hc.2.1, hda_shift hc.2.2⟩, e⟩

/-- **C156.** The field of a current along any line is the potential vortex about that line. -/
theorem lineCurrentGeneral_eq (tol C p0 p1 p2 d0 d1 d2 x y z : ℝ) (ht : 0 < tol) (hd : d0 * d0 + d1 * d1 + d2 * d2 = 1) :
    lineCurrentGeneral tol C p0 p1 p2 d0 d1 d2 x y z = potentialVortex tol C d0 d1 d2 (x - p0) (y - p1) (z - p2) := by
  have h1 : norm3 d0 d1 d2 ^ 2 = 1 := by rw [norm3, hd, Real.sqrt_one, one_pow]
  unfold lineCurrentGeneral potentialVortex
  simp only [h1, div_one, ← sub_sub]
  set P := (x - p0) * d0 + (y - p1) * d1 + (z - p2) * d2 with hP
  set r0 := x - p0 - P * d0 with h0
  set r1 := y - p1 - P * d1 with h1
  set r2 := z - p2 - P * d2 with h2
  have hnn : norm3 r0 r1 r2 * norm3 r0 r1 r2 = r0 * r0 + r1 * r1 + r2 * r2 := Real.mul_self_sqrt (by nlinarith [mul_self_nonneg r0, mul_self_nonneg r1, mul_self_nonneg r2])
  have hsq : Real.sqrt (norm3 r0 r1 r2 * norm3 r0 r1 r2) = norm3 r0 r1 r2 := Real.sqrt_mul_self (Real.sqrt_nonneg _)
  rw [hsq, ← hnn]
  generalize norm3 r0 r1 r2 = n
  by_cases h : n * n < tol * tol
  · rw [if_pos h, if_pos h]
  · have hn : n ≠ 0 := by
      rintro rfl
      exact h (by nlinarith)
    simp only [if_neg h, if_neg hn]
    refine Prod.ext ?_ (Prod.ext ?_ ?_) <;> simp only <;> field_simp

/-- **C156.** Farther than `tol` from the line the field of a current along any line has divergence 0 and rotation 0. -/
theorem lineCurrentGeneral_spec (tol C p0 p1 p2 d0 d1 d2 x y z : ℝ) (ht : 0 < tol) (hd : d0 * d0 + d1 * d1 + d2 * d2 = 1)
    (h : tol * tol < axisDistSq d0 d1 d2 (x - p0) (y - p1) (z - p2)) :
    HasDivCurl (lineCurrentGeneral tol C p0 p1 p2 d0 d1 d2) 0 (0, 0, 0) x y z := by
  have e : lineCurrentGeneral tol C p0 p1 p2 d0 d1 d2 =
      fun x y z => potentialVortex tol C d0 d1 d2 (x - p0) (y - p1) (z - p2) := by
    funext x y z
    exact lineCurrentGeneral_eq tol C p0 p1 p2 d0 d1 d2 x y z ht hd
  rw [e]
  exact (potentialVortex_irrotational tol C d0 d1 d2 _ _ _ hd h).shift

/-- **C156.** The field of a plane current is `C d` above the plane and `-C d` below it, so for a unit direction its size is `|C|`
everywhere; off the plane it has divergence 0 and rotation 0. -/
theorem planeCurrent_spec (C d0 d1 d2 x y z : ℝ) :
    (0 ≤ z → planeCurrent C d0 d1 d2 x y z = (C * d0, C * d1, C * d2)) ∧
    (z < 0 → planeCurrent C d0 d1 d2 x y z = (-(C * d0), -(C * d1), -(C * d2))) ∧
    (d0 * d0 + d1 * d1 + d2 * d2 = 1 → norm3 (planeCurrent C d0 d1 d2 x y z).1 (planeCurrent C d0 d1 d2 x y z).2.1
      (planeCurrent C d0 d1 d2 x y z).2.2 = |C|) ∧
    (z ≠ 0 → HasDivCurl (planeCurrent C d0 d1 d2) 0 (0, 0, 0) x y z) := by
  have hp : ∀ x y z, 0 ≤ z → planeCurrent C d0 d1 d2 x y z = (C * d0, C * d1, C * d2) := fun x y z h => by
    simp only [planeCurrent, ge_iff_le, if_pos h, one_mul]
  have hm : ∀ x y z, z < 0 → planeCurrent C d0 d1 d2 x y z = (-(C * d0), -(C * d1), -(C * d2)) := fun x y z h => by
    simp only [planeCurrent, ge_iff_le, if_neg (not_le.2 h), neg_mul, one_mul]
  refine ⟨hp x y z, hm x y z, fun hd => ?_, fun hz => ?_⟩
  · have e : C ^ 2 = C * d0 * (C * d0) + C * d1 * (C * d1) + C * d2 * (C * d2) := by linear_combination (-C ^ 2) * hd
    rcases le_or_gt 0 z with h | h
    · rw [hp x y z h, norm3, ← e, Real.sqrt_sq_eq_abs]
    · rw [hm x y z h, norm3]
      simp only [neg_mul_neg]
      rw [← e, Real.sqrt_sq_eq_abs]
  · have hz0 : ∀ᶠ s in nhds z, (0 ≤ s ↔ 0 ≤ z) := by
      rcases lt_or_gt_of_ne hz with h | h
      · filter_upwards [gt_mem_nhds h] with s hs
        exact ⟨fun a => absurd hs (not_lt.2 a), fun a => absurd h (not_lt.2 a)⟩
      · filter_upwards [lt_mem_nhds h] with s hs
        exact ⟨fun _ => h.le, fun _ => hs.le⟩
    have cz : ∀ k : ℝ × ℝ × ℝ → ℝ, IsGrad (fun x y z => k (planeCurrent C d0 d1 d2 x y z)) (0, 0, 0) x y z := fun k => by
      refine ⟨hasDerivAt_const x (k (planeCurrent C d0 d1 d2 x y z)), hasDerivAt_const y (k (planeCurrent C d0 d1 d2 x y z)), ?_⟩
      refine (hasDerivAt_const z (k (planeCurrent C d0 d1 d2 x y z))).congr_of_eventuallyEq ?_
      filter_upwards [hz0] with s hs
      simp only [planeCurrent, ge_iff_le, hs]
    exact ⟨_, _, _, cz (fun v => v.1), cz (fun v => v.2.1), cz (fun v => v.2.2), by norm_num, by norm_num⟩

/-! ## Non-vacuity -/

example : (0 : ℝ) < 1 / 10 ∧ (1 / 10 : ℝ) * (1 / 10) < axisDistSq (3 / 5) 0 (4 / 5) (2 - 1) (3 - 1) (4 - 1) := by
  unfold axisDistSq; norm_num


example : (3 / 5 : ℝ) * (3 / 5) + 0 * 0 + (4 / 5) * (4 / 5) = 1 ∧ (1 / 10 : ℝ) * (1 / 10) < axisDistSq (3 / 5) 0 (4 / 5) 1 2 3 := by
  unfold axisDistSq; norm_num

example : let r : ℝ := (3 - 1) * (3 - 1) + (1 - 0) * (1 - 0) + (0 - 2) * (0 - 2)
    0 < r ∧ (1 / 10 : ℝ) * (1 / 10) ≤ r := by norm_num

example : (0 : ℝ) < 3 * 3 + 0 * 0 + 4 * 4 := by norm_num


example : IsGrad (potential 2) (-2, 0, 0) 1 0 0 ∧ force 2 1 0 0 = (-2, 0, 0) := by
  have h := (force_gradient_partial 2 1 0 0 (by norm_num)).1
  have e : force 2 1 0 0 = (-2, 0, 0) := by simp [force, norm3]
  rw [e] at h
  exact ⟨h, e⟩

example : (1 / 10 ^ 12 : ℝ) < norm3 (3 - 1) (2 - 2) (1 - 1) := by
  rw [norm3, Real.lt_sqrt (by positivity)]; norm_num

example : (1 / 10 ^ 12 : ℝ) * (1 / 10 ^ 12) < 1 * 1 + 2 * 2 := by norm_num

end Verif.Fields
