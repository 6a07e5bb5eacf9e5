import Verif.Field.Props

/-!
# Field operations: singular points and general metrics (C104)
-/

set_option autoImplicit false

namespace Verif.Field

open Deriv Coord

variable {N : ℕ}

/-! ## Singular points -/

theorem safe_cases (policy : Policy) (num den : ℝ) :
    (policy = .throw → safeDivide policy num den = .ret (some (num / den)) ∨ safeDivide policy num den = .exn (.mml "DomainError")) ∧
    (policy = .nan ∨ policy = .inf → safeDivide policy num den = .ret (some (num / den)) ∨ safeDivide policy num den = .ret none) ∧
    (policy = .clamp ∨ policy = .zero → ∃ v, safeDivide policy num den = .ret (some v)) := by
  by_cases h : |den| < tol
  · refine ⟨?_, ?_, ?_⟩
    · rintro rfl; right; rw [safeDivide, if_pos h]; rfl
    · rintro (rfl | rfl) <;> right <;> rw [safeDivide, if_pos h] <;> rfl
    · rintro (rfl | rfl)
      · exact ⟨num / (if 0 ≤ den then tol else -tol), by rw [safeDivide, if_pos h]; rfl⟩
      · exact ⟨0, by rw [safeDivide, if_pos h]; rfl⟩
  · have := safe_ret (policy := policy) (num := num) (not_lt.1 h)
    exact ⟨fun _ => .inl this, fun _ => .inl this, fun _ => ⟨_, this⟩⟩

theorem safe_throw {num den : ℝ} (h : |den| < tol) : safeDivide .throw num den = .exn (.mml "DomainError") := by
  rw [safeDivide, if_pos h]; rfl

theorem safe_inf {policy : Policy} (hp : policy = .nan ∨ policy = .inf) {num den : ℝ} (h : |den| < tol) : safeDivide policy num den = .ret none := by
  rcases hp with rfl | rfl <;> rw [safeDivide, if_pos h] <;> rfl

/-- What the policies do where an operation has to divide by a number close to zero: the operation throws, or returns a number that is not finite, or returns a number. -/
def AtSingularity (op : Policy → Outcome (Option ℝ)) : Prop :=
  op .throw = .exn (.mml "DomainError") ∧ op .nan = .ret none ∧ op .inf = .ret none ∧ (∃ v, op .clamp = .ret (some v)) ∧ ∃ v, op .zero = .ret (some v)

/-- The operations with one number as result close to the singularities of the coordinates. -/
theorem scalar_singular (eps : ℝ) (f : (Fin 3 → ℝ) → ℝ) (w : (Fin 3 → ℝ) → Fin 3 → ℝ) (p : Fin 3 → ℝ) :
    (|p 0 * p 0 * Real.sin (p 1) * Real.sin (p 1)| < tol → AtSingularity fun policy => laplacianSpher eps policy f p) ∧
    (|p 0 * p 0| < tol → AtSingularity fun policy => laplacianCyl eps policy f p) ∧
    (|p 0 * p 0| < tol ∨ |p 0 * Real.sin (p 1)| < tol → AtSingularity fun policy => divSpher eps policy w p) ∧
    (|p 0| < tol → AtSingularity fun policy => divCyl eps policy w p) := by
  refine ⟨fun h => ⟨?_, ?_, ?_, ?_, ?_⟩, fun h => ⟨?_, ?_, ?_, ?_, ?_⟩, fun h => ⟨?_, ?_, ?_, ?_, ?_⟩, fun h => ⟨?_, ?_, ?_, ?_, ?_⟩⟩
  · simp only [laplacianSpher]
    rcases (safe_cases .throw 1 (p 0)).1 rfl with h1 | h1 <;> rw [h1] <;> simp only [Outcome.bind_ret, Outcome.bind_exn]
    rcases (safe_cases .throw 1 (p 0 * p 0)).1 rfl with h1 | h1 <;> rw [h1] <;> simp only [Outcome.bind_ret, Outcome.bind_exn]
    rcases (safe_cases .throw (Real.cos (p 1)) (p 0 * p 0 * Real.sin (p 1))).1 rfl with h1 | h1 <;> rw [h1] <;> simp only [Outcome.bind_ret, Outcome.bind_exn]
    rw [safe_throw h, Outcome.bind_exn]
  · simp only [laplacianSpher]
    rcases (safe_cases .nan 1 (p 0)).2.1 (by simp) with h1 | h1 <;> rcases (safe_cases .nan 1 (p 0 * p 0)).2.1 (by simp) with h2 | h2 <;>
    rcases (safe_cases .nan (Real.cos (p 1)) (p 0 * p 0 * Real.sin (p 1))).2.1 (by simp) with h3 | h3 <;>
    rw [h1, h2, h3, safe_inf (by simp) h] <;> rfl
  · simp only [laplacianSpher]
    rcases (safe_cases .inf 1 (p 0)).2.1 (by simp) with h1 | h1 <;> rcases (safe_cases .inf 1 (p 0 * p 0)).2.1 (by simp) with h2 | h2 <;>
    rcases (safe_cases .inf (Real.cos (p 1)) (p 0 * p 0 * Real.sin (p 1))).2.1 (by simp) with h3 | h3 <;>
    rw [h1, h2, h3, safe_inf (by simp) h] <;> rfl
  · simp only [laplacianSpher]
    obtain ⟨a, ha⟩ := (safe_cases .clamp 1 (p 0)).2.2 (by simp)
    obtain ⟨b, hb⟩ := (safe_cases .clamp 1 (p 0 * p 0)).2.2 (by simp)
    obtain ⟨c, hc⟩ := (safe_cases .clamp (Real.cos (p 1)) (p 0 * p 0 * Real.sin (p 1))).2.2 (by simp)
    obtain ⟨d, hd⟩ := (safe_cases .clamp 1 (p 0 * p 0 * Real.sin (p 1) * Real.sin (p 1))).2.2 (by simp)
    exact ⟨lapSpherSum eps f p a b c d, by rw [ha, hb, hc, hd]; rfl⟩
  · simp only [laplacianSpher]
    obtain ⟨a, ha⟩ := (safe_cases .zero 1 (p 0)).2.2 (by simp)
    obtain ⟨b, hb⟩ := (safe_cases .zero 1 (p 0 * p 0)).2.2 (by simp)
    obtain ⟨c, hc⟩ := (safe_cases .zero (Real.cos (p 1)) (p 0 * p 0 * Real.sin (p 1))).2.2 (by simp)
    obtain ⟨d, hd⟩ := (safe_cases .zero 1 (p 0 * p 0 * Real.sin (p 1) * Real.sin (p 1))).2.2 (by simp)
    exact ⟨lapSpherSum eps f p a b c d, by rw [ha, hb, hc, hd]; rfl⟩
  · simp only [laplacianCyl]
    rcases (safe_cases .throw 1 (p 0)).1 rfl with h1 | h1 <;> rw [h1] <;> simp only [Outcome.bind_ret, Outcome.bind_exn]
    rw [safe_throw h, Outcome.bind_exn]
  · simp only [laplacianCyl]
    rcases (safe_cases .nan 1 (p 0)).2.1 (by simp) with h1 | h1 <;> rw [h1, safe_inf (by simp) h] <;> rfl
  · simp only [laplacianCyl]
    rcases (safe_cases .inf 1 (p 0)).2.1 (by simp) with h1 | h1 <;> rw [h1, safe_inf (by simp) h] <;> rfl
  · simp only [laplacianCyl]
    obtain ⟨a, ha⟩ := (safe_cases .clamp 1 (p 0)).2.2 (by simp)
    obtain ⟨b, hb⟩ := (safe_cases .clamp 1 (p 0 * p 0)).2.2 (by simp)
    exact ⟨lapCylSum eps f p a b, by rw [ha, hb]; rfl⟩
  · simp only [laplacianCyl]
    obtain ⟨a, ha⟩ := (safe_cases .zero 1 (p 0)).2.2 (by simp)
    obtain ⟨b, hb⟩ := (safe_cases .zero 1 (p 0 * p 0)).2.2 (by simp)
    exact ⟨lapCylSum eps f p a b, by rw [ha, hb]; rfl⟩
  · simp only [divSpher]
    rcases h with h | h
    · rw [safe_throw h, Outcome.bind_exn]
    · rcases (safe_cases .throw 1 (p 0 * p 0)).1 rfl with h1 | h1 <;> rw [h1] <;> simp only [Outcome.bind_ret, Outcome.bind_exn]
      rw [safe_throw h, Outcome.bind_exn]
  · simp only [divSpher]
    rcases h with h | h
    · rcases (safe_cases .nan 1 (p 0 * Real.sin (p 1))).2.1 (by simp) with h1 | h1 <;> rw [h1, safe_inf (by simp) h] <;> rfl
    · rcases (safe_cases .nan 1 (p 0 * p 0)).2.1 (by simp) with h1 | h1 <;> rw [h1, safe_inf (by simp) h] <;> rfl
  · simp only [divSpher]
    rcases h with h | h
    · rcases (safe_cases .inf 1 (p 0 * Real.sin (p 1))).2.1 (by simp) with h1 | h1 <;> rw [h1, safe_inf (by simp) h] <;> rfl
    · rcases (safe_cases .inf 1 (p 0 * p 0)).2.1 (by simp) with h1 | h1 <;> rw [h1, safe_inf (by simp) h] <;> rfl
  · simp only [divSpher]
    obtain ⟨a, ha⟩ := (safe_cases .clamp 1 (p 0 * p 0)).2.2 (by simp)
    obtain ⟨b, hb⟩ := (safe_cases .clamp 1 (p 0 * Real.sin (p 1))).2.2 (by simp)
    exact ⟨divSpherSum eps w p a b, by rw [ha, hb]; rfl⟩
  · simp only [divSpher]
    obtain ⟨a, ha⟩ := (safe_cases .zero 1 (p 0 * p 0)).2.2 (by simp)
    obtain ⟨b, hb⟩ := (safe_cases .zero 1 (p 0 * Real.sin (p 1))).2.2 (by simp)
    exact ⟨divSpherSum eps w p a b, by rw [ha, hb]; rfl⟩
  · simp only [divCyl]
    rw [safe_throw h, Outcome.bind_exn]
  · simp only [divCyl]
    rw [safe_inf (by simp) h]; rfl
  · simp only [divCyl]
    rw [safe_inf (by simp) h]; rfl
  · simp only [divCyl]
    obtain ⟨a, ha⟩ := (safe_cases .clamp 1 (p 0)).2.2 (by simp)
    exact ⟨divCylSum eps w p a, by rw [ha]; rfl⟩
  · simp only [divCyl]
    obtain ⟨a, ha⟩ := (safe_cases .zero 1 (p 0)).2.2 (by simp)
    exact ⟨divCylSum eps w p a, by rw [ha]; rfl⟩

/-- With the default policy the operations whose results are vectors throw as well. -/
theorem vector_singular (eps : ℝ) (k : ℤ) (hk : k = 1 ∨ k = 2 ∨ k = 4 ∨ k = 6 ∨ k = 8) (f : (Fin 3 → ℝ) → ℝ) (w : (Fin 3 → ℝ) → Fin 3 → ℝ) (p : Fin 3 → ℝ) :
    (|p 0 * Real.sin (p 1)| < tol → gradientSpher eps k .throw f p = .exn (.mml "DomainError") ∧ curlSpher eps .throw w p = .exn (.mml "DomainError")) ∧
    (|Real.sin (p 1)| < tol → curlSpher eps .throw w p = .exn (.mml "DomainError")) ∧
    (|p 0| < tol → gradientCyl eps k .throw f p = .exn (.mml "DomainError") ∧ curlCyl eps .throw w p = .exn (.mml "DomainError")) := by
  obtain ⟨d, hd⟩ : ∃ d, partials eps k f p = .ret d := by
    rcases hk with rfl | rfl | rfl | rfl | rfl <;> exact ⟨_, by rw [partials]; simp; rfl⟩
  refine ⟨fun h => ⟨?_, ?_⟩, fun h => ?_, fun h => ⟨?_, ?_⟩⟩
  · rw [gradientSpher, hd, Outcome.bind_ret]
    rcases (safe_cases .throw 1 (p 0)).1 rfl with h1 | h1 <;> rw [h1] <;> simp only [Outcome.bind_ret, Outcome.bind_exn]
    rw [safe_throw h, Outcome.bind_exn]
  · rw [curlSpher]
    rcases (safe_cases .throw 1 (p 0)).1 rfl with h1 | h1 <;> rw [h1] <;> simp only [Outcome.bind_ret, Outcome.bind_exn]
    rw [safe_throw h, Outcome.bind_exn]
  · rw [curlSpher]
    rcases (safe_cases .throw 1 (p 0)).1 rfl with h1 | h1 <;> rw [h1] <;> simp only [Outcome.bind_ret, Outcome.bind_exn]
    rcases (safe_cases .throw 1 (p 0 * Real.sin (p 1))).1 rfl with h1 | h1 <;> rw [h1] <;> simp only [Outcome.bind_ret, Outcome.bind_exn]
    rw [safe_throw h, Outcome.bind_exn]
  · rw [gradientCyl, hd, Outcome.bind_ret, safe_throw h, Outcome.bind_exn]
  · rw [curlCyl, safe_throw h, Outcome.bind_exn]

/-- Beside them: on the polar axis at distance one everything in spherical coordinates is singular, at the origin everything. -/
example : |(![1, 0, 0] : Fin 3 → ℝ) 0 * Real.sin ((![1, 0, 0] : Fin 3 → ℝ) 1)| < tol ∧ |(0 : Fin 3 → ℝ) 0 * (0 : Fin 3 → ℝ) 0| < tol ∧ |(0 : Fin 3 → ℝ) 0| < tol := by
  simp [tol_pos]

/-- **Disagreement.**  The denominator `r²` of the Laplacians and of `DivSpher` is compared with the tolerance itself, so that a point at distance `1e-7` is refused, although the
tolerance for `r` is `1e-12` and `DivCyl` and the gradients accept it. -/
theorem r2_refused (eps : ℝ) (f : (Fin 3 → ℝ) → ℝ) (w : (Fin 3 → ℝ) → Fin 3 → ℝ) :
    tol < 1 / 10 ^ 7 ∧ laplacianCyl eps .throw f ![1 / 10 ^ 7, 0, 0] = .exn (.mml "DomainError") ∧ divSpher eps .throw w ![1 / 10 ^ 7, 1, 0] = .exn (.mml "DomainError") ∧
    ∃ v, divCyl eps .throw w ![1 / 10 ^ 7, 0, 0] = .ret (some v) := by
  refine ⟨by rw [tol]; norm_num, ((scalar_singular eps f w _).2.1 ?_).1, ((scalar_singular eps f w _).2.2.1 (.inl ?_)).1,
    ⟨divCylSum eps w ![1 / 10 ^ 7, 0, 0] (1 / (1 / 10 ^ 7)), ?_⟩⟩
  · simp only [Matrix.cons_val_zero, tol]; rw [abs_of_pos (by norm_num)]; norm_num
  · simp only [Matrix.cons_val_zero, tol]; rw [abs_of_pos (by norm_num)]; norm_num
  · rw [divCyl, safe_ret (by simp only [Matrix.cons_val_zero, tol]; rw [abs_of_pos (by norm_num)]; norm_num), Outcome.bind_ret]
    rfl

/-! ## General metrics -/

/-- `Gradient`: the vector whose lowered components are the partial derivatives, up to the error of the difference quotients; a metric singular at the point is refused. -/
theorem gradient_order {eps : ℝ} (he : 0 < eps) (hN : 0 < N) (hN' : N ≤ 10000) (g : Metric N) (f : (Fin N → ℝ) → ℝ) (p : Fin N → ℝ) (hg : g.covariant p ≠ 0) :
    ((g.covariant p).det = 0 → gradient eps g f p = .exn (.mml "SingularMatrixError")) ∧
    ∀ h, g.contravariant eps p = .ret h → ∀ {s M : ℝ}, (∀ i, step eps none (p i) ≤ s) → SmoothAt f p (2 * s) 5 M →
      ∃ v, gradient eps g f p = .ret v ∧ ∀ i, |∑ j, g i j p * v j - fderiv ℝ f p (Pi.single i 1)| ≤ 1 / 18 * M * s ^ 4 := by
  obtain ⟨-, -, h3, h4⟩ := Metric.contravariant_spec he hN hN' g p hg
  refine ⟨fun h => by rw [gradient, h4 h, Outcome.bind_exn], fun h hh s M hs hf => ⟨Matrix.mulVec h fun j => der eps none f j p, by rw [gradient, hh, Outcome.bind_ret]; rfl, fun i => ?_⟩⟩
  have : ∑ j, g i j p * Matrix.mulVec h (fun j => der eps none f j p) j = der eps none f i p := by
    have := congrFun (show Matrix.mulVec (g.covariant p) (Matrix.mulVec h fun j => der eps none f j p) = _ by rw [Matrix.mulVec_mulVec, (h3 h hh).1, Matrix.one_mulVec]) i
    rw [← this]
    rfl
  rw [this]
  exact der_err he f i p (hs i) hf

/-- `Divergence` in terms of the difference quotients: the divergence of the components plus half the trace of the derivative of the metric along the field, that is the
derivative of the logarithm of the volume; where the metric cannot be inverted the exception goes on. -/
theorem divergence_spec {eps : ℝ} (he : 0 < eps) (hN : 0 < N) (hN' : N ≤ 10000) (g : Metric N) (hs : Symmetric g) (v : (Fin N → ℝ) → Fin N → ℝ) (p : Fin N → ℝ) (hg : g.covariant p ≠ 0) :
    (∀ h, g.contravariant eps p = .ret h →
      divergence eps g v p = .ret (∑ i, der eps none (fun q => v q i) i p + ∑ k, v p k * (1 / 2 * ∑ i, ∑ l, h i l * der eps none (g l i) k p))) ∧
    ((g.covariant p).det = 0 → divergence eps g v p = .exn (.mml "SingularMatrixError")) := by
  obtain ⟨-, -, h3, h4⟩ := Metric.contravariant_spec he hN hN' g p hg
  have e : ∀ a b, g a b = g b a := fun a b => funext fun q => hs a b q
  refine ⟨fun h hh => ?_, fun hd => ?_⟩
  · have hsym : ∀ i l, h i l = h l i := by
      have ht : (g.covariant p).transpose = g.covariant p := by
        ext i j
        exact hs j i p
      have h5 : g.covariant p * h.transpose = 1 := by
        rw [← ht, ← Matrix.transpose_mul, (h3 h hh).2, Matrix.transpose_one]
      have := inverse_unique (h3 h hh).1 h5
      intro i l
      exact congrFun (congrFun this i) l
    set c : Fin N → Fin N → ℝ := fun i k => ∑ l, 0.5 * h i l * (der eps none (g l k) i p + der eps none (g l i) k p - der eps none (g i k) l p) with hc
    have hterm : ∀ s i, divergenceTerm eps g v p s i = .ret (s + (derV eps v i i p + ∑ k, v p k * c i k)) := by
      intro s i
      rw [divergenceTerm, Metric.foldlM_sum _ _ (fun k => Metric.christoffel2_ret hh i i k) (fun s k x => s + v p k * x), Metric.foldl_add, add_assoc]
    have hl : ∀ (l : List (Fin N)) s, l.foldlM (divergenceTerm eps g v p) s = .ret (l.foldl (fun s i => s + (derV eps v i i p + ∑ k, v p k * c i k)) s) := by
      intro l
      induction l with
      | nil => intro s; rfl
      | cons a l ih => intro s; rw [List.foldlM_cons, hterm, Outcome.bind_ret, ih, List.foldl_cons]
    rw [divergence, hl, Metric.foldl_add, zero_add, Finset.sum_add_distrib]
    congr 2
    rw [Finset.sum_comm]
    refine Finset.sum_congr rfl fun k _ => ?_
    rw [← Finset.mul_sum]
    congr 1
    have h6 : ∑ i, ∑ l, h i l * der eps none (g l k) i p = ∑ i, ∑ l, h i l * der eps none (g i k) l p := by
      rw [Finset.sum_comm]
      exact Finset.sum_congr rfl fun i _ => Finset.sum_congr rfl fun l _ => by rw [hsym]
    have h7 : ∑ i, c i k = 1 / 2 * (∑ i, ∑ l, h i l * der eps none (g l k) i p + ∑ i, ∑ l, h i l * der eps none (g l i) k p - ∑ i, ∑ l, h i l * der eps none (g i k) l p) := by
      simp only [hc, ← Finset.sum_add_distrib, ← Finset.sum_sub_distrib, Finset.mul_sum]
      exact Finset.sum_congr rfl fun i _ => Finset.sum_congr rfl fun l _ => by norm_num; ring
    rw [h7, h6]
    ring
  · have hc : ∀ i j k, g.christoffel2 eps i j k p = .exn (.mml "SingularMatrixError") := fun i j k => by rw [Metric.christoffel2, h4 hd, Outcome.bind_exn]
    obtain ⟨n, rfl⟩ : ∃ n, N = n + 1 := ⟨N - 1, by omega⟩
    rw [divergence, List.finRange_succ, List.foldlM_cons, divergenceTerm, List.finRange_succ, List.foldlM_cons, hc, Outcome.bind_exn, Outcome.bind_exn, Outcome.bind_exn]

/-- In cylindrical coordinates, for a field `W` given by its contravariant components (the components along the unit vectors divided by the scales): the divergence of `W`. -/
theorem divergence_cylindrical {eps : ℝ} (he : 0 < eps) (W : (Fin 3 → ℝ) → Fin 3 → ℝ) (p : Fin 3 → ℝ) (hW : ∀ k, DifferentiableAt ℝ (fun y => W y k) (cyl p)) {s M : ℝ}
    (hs : ∀ i, step eps none (p i) ≤ s) (h5 : ∀ i, SmoothAt (fun q => comps cyl cylE W q i / cylH i q) p (2 * s) 5 M) (h0 : p 0 ≠ 0)
    (hc : eps * max 1 (p 0 * p 0) * 3 * max 1 (1 / (p 0 * p 0)) ≤ 1) :
    ∃ v, divergence eps metricCylindrical (fun q i => comps cyl cylE W q i / cylH i q) p = .ret v ∧ |v - div' W (cyl p)| ≤ 3 * (1 / 18 * M * s ^ 4) := by
  obtain ⟨hh, -⟩ := (metricCylindrical_spec he p).1 h0 hc
  have hne : metricCylindrical.covariant p ≠ 0 := by
    intro h
    have := congrFun (congrFun h 0) 0
    simp [Metric.covariant, metricCylindrical] at this
  have hsy : Symmetric metricCylindrical := fun i j q => by fin_cases i <;> fin_cases j <;> simp [metricCylindrical]
  refine ⟨_, (divergence_spec he (by norm_num) (by norm_num) _ hsy _ p hne).1 _ hh, ?_⟩
  have hd : ∀ a b c, der eps none (metricCylindrical a b) c p = if a = 1 ∧ b = 1 ∧ c = 0 then 2 * p 0 else 0 := by
    intro a b c
    by_cases h : a = 1 ∧ b = 1
    · obtain ⟨rfl, rfl⟩ := h
      by_cases hc : c = 0
      · subst hc
        rw [der_poly _ _ _ (step_pos he _).ne' ![0, 0, 1, 0, 0] fun u => by simp [metricCylindrical]; ring]
        simp
      · rw [der_poly _ _ _ (step_pos he _).ne' ![p 0 * p 0, 0, 0, 0, 0] fun u => by simp [metricCylindrical, Function.update_of_ne (Ne.symm hc)]]
        simp [hc]
    · rw [der_poly _ _ _ (step_pos he _).ne' ![metricCylindrical a b p, 0, 0, 0, 0] fun u => by simp [metricCylindrical, h]]
      rw [if_neg (fun h' => h ⟨h'.1, h'.2.1⟩)]
      simp
  obtain ⟨J, ⟨hJ, -⟩, hD⟩ := cyl_partials W p hW
  have hp : ∀ i, partial' (fun q => comps cyl cylE W q i / cylH i q) i p = partial' (fun q => comps cyl cylE W q i) i p / cylH i p := by
    intro i
    have dc : DifferentiableAt ℝ (fun q => comps cyl cylE W q i) p := by
      simp only [comps, dotProduct]
      exact DifferentiableAt.fun_sum fun k _ => ((hW k).comp p (cyl_sys.diffS p)).mul (differentiableAt_pi.1 (cyl_sys.diffE i p) k)
    have hne : cylH i p ≠ 0 := by fin_cases i <;> simp [cylH, h0]
    refine partial_of_curve (by simpa only [div_eq_mul_inv] using dc.fun_mul ((cyl_sys.diffH i p).fun_inv hne)) ?_
    simp only [cyl_sys.const]
    refine HasDerivAt.div_const ?_ _
    have h1 : HasFDerivAt (fun q => comps cyl cylE W q i) (fderiv ℝ (fun q => comps cyl cylE W q i) p) (Function.update p i (p i)) := by
      rw [Function.update_eq_self]
      exact dc.hasFDerivAt
    exact h1.comp_hasDerivAt (p i) (hasDerivAt_update p i (p i))
  have b := lin3 (a := 1) (b := 1) (c := 1) (der_err he _ 0 p (hs 0) (h5 0)) (der_err he _ 1 p (hs 1) (h5 1)) (der_err he _ 2 p (hs 2) (h5 2))
  rw [abs_one] at b
  refine le_trans (le_of_eq ?_) (b.trans (le_of_eq (by ring)))
  rw [hp 0, hp 1, hp 2, (hD 0).1, (hD 1).2.1, (hD 2).2.2, ← hJ]
  congr 1
  simp only [hd, Fin.sum_univ_three]
  simp [cylH, Matrix.diagonal]
  field_simp
  ring

/-- The determinant computed is the determinant. -/
theorem det3_spec (a : Matrix (Fin 3) (Fin 3) ℝ) : det3 a = a.det := by
  rw [Matrix.det_fin_three, det3]
  ring

/-- `DivergenceViaDet`: where the root of the determinant is at least `1e-6`, the divergence of the components multiplied by it, divided by it, up to the error of the difference
quotients. -/
theorem divergenceViaDet_order {eps : ℝ} (he : 0 < eps) (g : Metric 3) (v : (Fin 3 → ℝ) → Fin 3 → ℝ) (p : Fin 3 → ℝ) {s M : ℝ} (hs : ∀ i, step eps none (p i) ≤ s)
    (h5 : ∀ i, SmoothAt (fun q => Real.sqrt |(g.covariant q).det| * v q i) p (2 * s) 5 M) (hd : 1 / 10 ^ 6 ≤ Real.sqrt |(g.covariant p).det|) :
    |divergenceViaDet eps g v p - (∑ i, fderiv ℝ (fun q => Real.sqrt |(g.covariant q).det| * v q i) p (Pi.single i 1)) / (Real.sqrt |(g.covariant p).det|)| ≤
      3 * (1 / 18 * M * s ^ 4) / Real.sqrt |(g.covariant p).det| := by
  have hr : rootDet g = fun q => Real.sqrt |(g.covariant q).det| := funext fun q => by rw [rootDet, det3_spec]
  have hp : 0 < Real.sqrt |(g.covariant p).det| := lt_of_lt_of_le (by norm_num) hd
  rw [divergenceViaDet, hr]
  simp only []
  rw [if_neg (not_lt.2 hd), ← sub_div, abs_div, abs_of_pos hp]
  refine div_le_div_of_nonneg_right ?_ hp.le
  rw [Fin.sum_univ_three, Fin.sum_univ_three]
  have b := lin3 (a := 1) (b := 1) (c := 1) (der_err he _ 0 p (hs 0) (h5 0)) (der_err he _ 1 p (hs 1) (h5 1)) (der_err he _ 2 p (hs 2) (h5 2))
  rw [abs_one] at b
  refine le_trans (le_of_eq ?_) (b.trans (le_of_eq (by ring)))
  simp only [partial']
  congr 1
  ring

/-- **Disagreement.**  Where the root of the determinant is less than `1e-6`, zero is returned without a word, although the metric is regular there: for the field `(r, 0, 0)` of
spherical coordinates, whose divergence is `3` everywhere, the result at distance `1e-4` on the equator is zero.  `DivSpher` computes the three exactly. -/
theorem divergenceViaDet_zero {eps : ℝ} (he : 0 < eps) :
    (∀ x, div' (fun y : Fin 3 → ℝ => y) x = 3) ∧ (∀ q i, comps sph sphE (fun y => y) q i = (![q 0, 0, 0] : Fin 3 → ℝ) i) ∧
    (metricSpherical.covariant ![1 / 10 ^ 4, Real.pi / 2, 0]).det ≠ 0 ∧
    divergenceViaDet eps metricSpherical (fun q => ![q 0, 0, 0]) ![1 / 10 ^ 4, Real.pi / 2, 0] = 0 ∧
    divSpher eps .throw (fun q => ![q 0, 0, 0]) ![1 / 10 ^ 4, Real.pi / 2, 0] = .ret (some 3) := by
  refine ⟨fun x => ?_, fun q i => ?_, ?_, ?_, ?_⟩
  · have : ∀ i, partial' (fun y : Fin 3 → ℝ => y i) i x = 1 := by
      intro i
      rw [partial']
      have : HasFDerivAt (fun y : Fin 3 → ℝ => y i) (ContinuousLinearMap.proj i : (Fin 3 → ℝ) →L[ℝ] ℝ) x := hasFDerivAt_apply i x
      rw [this.fderiv]
      simp
    rw [div', Fin.sum_univ_three, this, this, this]
    norm_num
  · have h1 := Real.sin_sq_add_cos_sq (q 1)
    have h2 := Real.sin_sq_add_cos_sq (q 2)
    fin_cases i <;> simp [comps, sph, sphE, dotProduct, Fin.sum_univ_three] <;>
    generalize Real.sin (q 1) = a at * <;> generalize Real.cos (q 1) = b at * <;> generalize Real.sin (q 2) = c at * <;> generalize Real.cos (q 2) = d at *
    · linear_combination (q 0 * a ^ 2) * h2 + q 0 * h1
    · linear_combination (q 0 * a * b) * h2
    · ring
  · rw [metricSpherical_diag, Matrix.det_diagonal, Fin.prod_univ_three]
    simp
  · rw [divergenceViaDet, if_pos]
    rw [rootDet, det3_spec, metricSpherical_diag, Matrix.det_diagonal, Fin.prod_univ_three]
    simp
    rw [Real.sqrt_lt' (by norm_num)]
    norm_num
  · rw [divSpher, safe_ret (by simp [tol]; norm_num), Outcome.bind_ret, safe_ret (by simp [tol]; norm_num), Outcome.bind_ret]
    have d0 : derV eps (fun q : Fin 3 → ℝ => ![q 0, 0, 0]) 0 0 ![1 / 10 ^ 4, Real.pi / 2, 0] = 1 := by
      rw [derV, der_poly _ _ _ (step_pos he _).ne' ![0, 1, 0, 0, 0] fun u => by simp]
      simp
    have d1 : derV eps (fun q : Fin 3 → ℝ => ![q 0, 0, 0]) 1 1 ![1 / 10 ^ 4, Real.pi / 2, 0] = 0 := by
      rw [derV, der_poly _ _ _ (step_pos he _).ne' ![0, 0, 0, 0, 0] fun u => by simp]
      simp
    have d2 : derV eps (fun q : Fin 3 → ℝ => ![q 0, 0, 0]) 2 2 ![1 / 10 ^ 4, Real.pi / 2, 0] = 0 := by
      rw [derV, der_poly _ _ _ (step_pos he _).ne' ![0, 0, 0, 0, 0] fun u => by simp]
      simp
    simp only [Option.bind_some, Option.map_some, divSpherSum, d0, d1, d2]
    congr 2
    simp
    norm_num

/-! ## The hypotheses hold -/

/-- A scalar field. -/
def sampleF (x : Fin 3 → ℝ) : ℝ := x 0 ^ 2 + x 1 * x 2

/-- A vector field. -/
def sampleW (x : Fin 3 → ℝ) : Fin 3 → ℝ := ![x 1 * x 2, x 0 ^ 2, x 0 + x 2 ^ 3]

theorem sph_smooth (n : ℕ) (i : Fin 3) : ContDiff ℝ n fun q => sph q i := by
  fin_cases i <;> simp [sph] <;> fun_prop

theorem sphE_smooth (n : ℕ) (i k : Fin 3) : ContDiff ℝ n fun q => sphE i q k := by
  fin_cases i <;> fin_cases k <;> simp [sphE] <;> fun_prop

theorem sampleW_diff (k : Fin 3) (x : Fin 3 → ℝ) : DifferentiableAt ℝ (fun y => sampleW y k) x := by
  fin_cases k <;> simp [sampleW] <;> fun_prop

theorem smooth_three {f : Fin 3 → (Fin 3 → ℝ) → ℝ} {n : ℕ} (h : ∀ i, ContDiff ℝ n (f i)) (p : Fin 3 → ℝ) (r : ℝ) : ∃ M, ∀ i, SmoothAt (f i) p r n M := by
  choose M hM using fun i => smoothAt_of_contDiff _ n (h i) p r
  refine ⟨max (max (M 0) (M 1)) (M 2), fun i => ⟨(hM i).diff, fun q hq => ((hM i).bound q hq).trans ?_⟩⟩
  fin_cases i <;> simp

/-- Beside the theorems on scalar fields in spherical coordinates: the hypotheses hold for `sampleF` at distance two on the equator. -/
example {eps : ℝ} : ∃ s M, (∀ i, step eps none ((![2, Real.pi / 2, 1] : Fin 3 → ℝ) i) ≤ s) ∧ SmoothAt (fun q => sampleF (sph q)) ![2, Real.pi / 2, 1] (2 * s) 5 M ∧
    SmoothAt (fun q => sampleF (sph q)) ![2, Real.pi / 2, 1] (2 * s) 6 M ∧ ContDiffAt ℝ 2 sampleF (sph ![2, Real.pi / 2, 1]) ∧
    tol ≤ |(![2, Real.pi / 2, 1] : Fin 3 → ℝ) 0 * (![2, Real.pi / 2, 1] : Fin 3 → ℝ) 0 * Real.sin ((![2, Real.pi / 2, 1] : Fin 3 → ℝ) 1) * Real.sin ((![2, Real.pi / 2, 1] : Fin 3 → ℝ) 1)| := by
  set p : Fin 3 → ℝ := ![2, Real.pi / 2, 1] with hp
  set s := max (max (step eps none (p 0)) (step eps none (p 1))) (step eps none (p 2)) with hs
  have hc : ∀ n : ℕ, ContDiff ℝ n fun q => sampleF (sph q) := fun n => by
    simp only [sampleF]
    exact ((sph_smooth n 0).pow 2).add ((sph_smooth n 1).mul (sph_smooth n 2))
  obtain ⟨M, hM⟩ := smoothAt_of_contDiff _ 5 (hc 5) p (2 * s)
  obtain ⟨M', hM'⟩ := smoothAt_of_contDiff _ 6 (hc 6) p (2 * s)
  refine ⟨s, max M M', fun i => by fin_cases i <;> simp [hs], ⟨hM.diff, fun q hq => (hM.bound q hq).trans (le_max_left _ _)⟩,
    ⟨hM'.diff, fun q hq => (hM'.bound q hq).trans (le_max_right _ _)⟩, ?_, ?_⟩
  · have : ContDiff ℝ 2 sampleF := by unfold sampleF; fun_prop
    exact this.contDiffAt
  · simp [hp, tol]
    norm_num

/-- Beside the theorems on vector fields in spherical coordinates: the hypotheses hold for `sampleW` at distance two on the equator. -/
example {eps : ℝ} : ∃ s M, (∀ i, step eps none ((![2, Real.pi / 2, 1] : Fin 3 → ℝ) i) ≤ s) ∧ (∀ i, SmoothAt (fun q => comps sph sphE sampleW q i) ![2, Real.pi / 2, 1] (2 * s) 5 M) ∧
    (∀ k, DifferentiableAt ℝ (fun y => sampleW y k) (sph ![2, Real.pi / 2, 1])) ∧ tol ≤ |(![2, Real.pi / 2, 1] : Fin 3 → ℝ) 0 * Real.sin ((![2, Real.pi / 2, 1] : Fin 3 → ℝ) 1)| := by
  set p : Fin 3 → ℝ := ![2, Real.pi / 2, 1] with hp
  set s := max (max (step eps none (p 0)) (step eps none (p 1))) (step eps none (p 2)) with hs
  have hc : ∀ i, ContDiff ℝ 5 fun q => comps sph sphE sampleW q i := fun i => by
    simp only [comps, dotProduct, Fin.sum_univ_three]
    have h0 := sph_smooth 5 0
    have h1 := sph_smooth 5 1
    have h2 := sph_smooth 5 2
    exact (((h1.mul h2).mul (sphE_smooth 5 i 0)).add ((h0.pow 2).mul (sphE_smooth 5 i 1))).add ((h0.add (h2.pow 3)).mul (sphE_smooth 5 i 2))
  obtain ⟨M, hM⟩ := smooth_three hc p (2 * s)
  refine ⟨s, M, fun i => by fin_cases i <;> simp [hs], hM, fun k => sampleW_diff k _, ?_⟩
  simp [hp, tol]
  norm_num

theorem cyl_smooth (n : ℕ) (i : Fin 3) : ContDiff ℝ n fun q => cyl q i := by
  fin_cases i <;> simp [cyl] <;> fun_prop

theorem cylE_smooth (n : ℕ) (i k : Fin 3) : ContDiff ℝ n fun q => cylE i q k := by
  fin_cases i <;> fin_cases k <;> simp [cylE] <;> fun_prop

/-- Beside the theorems on scalar and vector fields in cylindrical coordinates: the hypotheses hold for `sampleF` and `sampleW` at distance two. -/
example {eps : ℝ} : ∃ s M, (∀ i, step eps none ((![2, 1, 1] : Fin 3 → ℝ) i) ≤ s) ∧ SmoothAt (fun q => sampleF (cyl q)) ![2, 1, 1] (2 * s) 5 M ∧
    SmoothAt (fun q => sampleF (cyl q)) ![2, 1, 1] (2 * s) 6 M ∧ ContDiffAt ℝ 2 sampleF (cyl ![2, 1, 1]) ∧ (∀ i, SmoothAt (fun q => comps cyl cylE sampleW q i) ![2, 1, 1] (2 * s) 5 M) ∧
    (∀ k, DifferentiableAt ℝ (fun y => sampleW y k) (cyl ![2, 1, 1])) ∧ tol ≤ |(![2, 1, 1] : Fin 3 → ℝ) 0 * (![2, 1, 1] : Fin 3 → ℝ) 0| := by
  set p : Fin 3 → ℝ := ![2, 1, 1] with hp
  set s := max (max (step eps none (p 0)) (step eps none (p 1))) (step eps none (p 2)) with hs
  have hc : ∀ n : ℕ, ContDiff ℝ n fun q => sampleF (cyl q) := fun n => by
    simp only [sampleF]
    exact ((cyl_smooth n 0).pow 2).add ((cyl_smooth n 1).mul (cyl_smooth n 2))
  have hv : ∀ i, ContDiff ℝ 5 fun q => comps cyl cylE sampleW q i := fun i => by
    simp only [comps, dotProduct, Fin.sum_univ_three]
    have h0 := cyl_smooth 5 0
    have h1 := cyl_smooth 5 1
    have h2 := cyl_smooth 5 2
    exact (((h1.mul h2).mul (cylE_smooth 5 i 0)).add ((h0.pow 2).mul (cylE_smooth 5 i 1))).add ((h0.add (h2.pow 3)).mul (cylE_smooth 5 i 2))
  obtain ⟨M, hM⟩ := smoothAt_of_contDiff _ 5 (hc 5) p (2 * s)
  obtain ⟨M', hM'⟩ := smoothAt_of_contDiff _ 6 (hc 6) p (2 * s)
  obtain ⟨M'', hM''⟩ := smooth_three hv p (2 * s)
  refine ⟨s, max (max M M') M'', fun i => by fin_cases i <;> simp [hs], ⟨hM.diff, fun q hq => (hM.bound q hq).trans (by simp)⟩,
    ⟨hM'.diff, fun q hq => (hM'.bound q hq).trans (by simp)⟩, ?_, fun i => ⟨(hM'' i).diff, fun q hq => ((hM'' i).bound q hq).trans (by simp)⟩, fun k => sampleW_diff k _, ?_⟩
  · have : ContDiff ℝ 2 sampleF := by unfold sampleF; fun_prop
    exact this.contDiffAt
  · simp [hp, tol]
    norm_num

/-- Beside `divergence_cylindrical`: the hypotheses hold for the field of the positions at distance two, with the machine epsilon of `double`. -/
example : ∃ s M, (∀ i, step (1 / 2 ^ 52) none ((![2, 1, 1] : Fin 3 → ℝ) i) ≤ s) ∧ (∀ i, SmoothAt (fun q => comps cyl cylE (fun y => y) q i / cylH i q) ![2, 1, 1] (2 * s) 5 M) ∧
    (1 / 2 ^ 52 : ℝ) * max 1 ((![2, 1, 1] : Fin 3 → ℝ) 0 * (![2, 1, 1] : Fin 3 → ℝ) 0) * 3 * max 1 (1 / ((![2, 1, 1] : Fin 3 → ℝ) 0 * (![2, 1, 1] : Fin 3 → ℝ) 0)) ≤ 1 := by
  set p : Fin 3 → ℝ := ![2, 1, 1] with hp
  set s := max (max (step (1 / 2 ^ 52) none (p 0)) (step (1 / 2 ^ 52) none (p 1))) (step (1 / 2 ^ 52) none (p 2)) with hs
  have he : ∀ i, (fun q => comps cyl cylE (fun y => y) q i / cylH i q) = fun q => (![q 0, 0, q 2] : Fin 3 → ℝ) i := by
    intro i
    funext q
    have h1 := Real.sin_sq_add_cos_sq (q 1)
    fin_cases i <;> simp [comps, cyl, cylE, cylH, dotProduct, Fin.sum_univ_three] <;>
      generalize Real.sin (q 1) = a at * <;> generalize Real.cos (q 1) = b at *
    · linear_combination (q 0) * h1
    · left; ring
  have hc : ∀ i, ContDiff ℝ 5 fun q : Fin 3 → ℝ => (![q 0, 0, q 2] : Fin 3 → ℝ) i := by
    intro i
    fin_cases i <;> simp <;> fun_prop
  obtain ⟨M, hM⟩ := smooth_three hc p (2 * s)
  refine ⟨s, M, fun i => by fin_cases i <;> simp [hs], fun i => by rw [he i]; exact hM i, ?_⟩
  simp only [hp, Matrix.cons_val_zero]
  rw [max_eq_right (by norm_num), max_eq_left (by norm_num)]
  norm_num

end Verif.Field
