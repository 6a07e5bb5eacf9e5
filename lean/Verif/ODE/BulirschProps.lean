import Verif.ODE.BulirschOne
import Verif.ODE.FixedProps

/-!
# The Bulirsch–Stoer steppers (C93)

`doStep` of `BulirschStoer_Stepper` and `BulirschStoerRational_Stepper`.  The two differ in their step
sequences only.
-/

set_option autoImplicit false

namespace Verif.ODE

open Outcome

variable {n : ℕ}

theorem bsLoop_n (sys : System) (seq : List ℕ) (s : Stepper) (t : ℝ) (x dxdt : List ℝ) (h eps : ℝ)
    (fuel : ℕ) : ∀ k e r, bsLoop sys seq s t x dxdt h eps fuel k e = .ret r → r.st.n = s.n := by
  induction fuel with
  | zero => intro k e r hr; cases hr; rfl
  | succ fuel ih =>
    intro k e r hr
    obtain ⟨a, -, h2⟩ := bind_eq_ret hr
    split at h2
    · obtain ⟨d, -, h3⟩ := bind_eq_ret h2
      cases h3; rfl
    · exact ih _ _ _ h2

theorem bs_session {sys : System} {f : ℝ → (Fin n → ℝ) → Fin n → ℝ} (hs : Computes sys f) {seq : List ℕ}
    {s : Stepper} {t : ℝ} {x : Fin n → ℝ} (h : Session (bsDoStep seq) sys f s t x) : s.n = n := by
  induction h with
  | new t x => exact hs.1
  | reset s t x _ ih => exact ih
  | step s t x _ hr _ ih => exact (bsLoop_n _ _ _ _ _ _ _ _ _ _ _ _ hr).trans ih

/-- What a caller sees of `doStep`: the step has the size asked for.  Either it is accepted, the returned
derivative is the one at the new point, the next step is between a tenth and four times as long, and
`interpolate` is the cubic with the values and derivatives of the step at both its ends; or it is rejected,
nothing has changed, and half the step is proposed. -/
def TakesStep (f : ℝ → (Fin n → ℝ) → Fin n → ℝ) (t : ℝ) (x : Fin n → ℝ) (h : ℝ) (r : Stepped) : Prop :=
  r.res.hDone = h ∧
  ((r.res.accepted = true ∧ ∃ x', r.x = List.ofFn x' ∧ r.dxdt = List.ofFn (f (t + h) x') ∧
      (∃ g, 1 / 10 ≤ g ∧ g ≤ 4 ∧ r.res.hNext = h * g) ∧
      ∃ P, Hermite P t (t + h) x (f t x) x' (f (t + h) x') ∧
        ∀ u, r.st.interpolate u = .ret (List.ofFn fun i => (P i).eval u)) ∨
    (r.res.accepted = false ∧ r.x = List.ofFn x ∧ r.dxdt = List.ofFn (f t x) ∧ r.res.hNext = h / 2))

section

variable {sys : System} {f : ℝ → (Fin n → ℝ) → Fin n → ℝ} (hs : Computes sys f)
include hs

theorem bs_step_of_good {seq : List ℕ} (hq : GoodSeq seq) {s : Stepper} {t : ℝ} {x : Fin n → ℝ}
    (hS : Session (bsDoStep seq) sys f s t x) {htry eps : ℝ} (hh : htry ≠ 0) (heps : 0 < eps) :
    ∃ r, bsDoStep seq sys s t (List.ofFn x) (List.ofFn (f t x)) htry eps = .ret r ∧
      TakesStep f t x htry r := by
  have hn := bs_session hs hS
  have h0 : Table seq n htry 0 ⟨List.replicate 9 (zeros s.n), List.replicate 9 0, zeros s.n, zeros s.n⟩ 0 0 := by
    rw [hn]; exact start_table seq n htry
  rcases loop_run hs hq t x hh heps s hn 9 0 rfl _ _ _ h0 with ⟨r, x', h1, h2, h3⟩ | h1
  · obtain ⟨P, hP⟩ := h2.dense hh
    exact ⟨r, h1, h2.done, .inl ⟨h2.acc, x', h2.rx, h2.rd, h3, P, hP⟩⟩
  · exact ⟨_, h1, rfl, .inr ⟨rfl, rfl, rfl, by ring⟩⟩

/-- The polynomial stepper, in every state a caller can bring it to: `doStep` terminates without an
exception, and does what `TakesStep` says.  The full claim, that the accepted state is the polynomial
extrapolation of the midpoint rules and within the tolerance, is false: see `bs_wrong_extrapolation`. -/
theorem bs_step_partial {s : Stepper} {t : ℝ} {x : Fin n → ℝ} (hS : Session (bsDoStep evenSeq) sys f s t x)
    {htry eps : ℝ} (hh : htry ≠ 0) (heps : 0 < eps) :
    ∃ r, bsDoStep evenSeq sys s t (List.ofFn x) (List.ofFn (f t x)) htry eps = .ret r ∧
      TakesStep f t x htry r :=
  bs_step_of_good hs evenSeq_good hS hh heps

/-- The same for the stepper with the other step sequence. -/
theorem bsRational_step_partial {s : Stepper} {t : ℝ} {x : Fin n → ℝ}
    (hS : Session (bsDoStep bulirschSeq) sys f s t x) {htry eps : ℝ} (hh : htry ≠ 0) (heps : 0 < eps) :
    ∃ r, bsDoStep bulirschSeq sys s t (List.ofFn x) (List.ofFn (f t x)) htry eps = .ret r ∧
      TakesStep f t x htry r :=
  bs_step_of_good hs bulirschSeq_good hS hh heps

/-- From a point of the exact solution of a smooth system every sufficiently short trial step is accepted,
with an error of third order in the step.  (The documentation promises order 16.) -/
theorem bs_short_steps_partial {seq : List ℕ} (hq : seq = evenSeq ∨ seq = bulirschSeq)
    (hf : ContDiff ℝ 2 (pair f)) {T1 T2 : ℝ} {y : ℝ → Fin n → ℝ} (hy : IsSolution f T1 T2 y) :
    ∃ C, ∀ eps, 0 < eps → ∃ h₀, 0 < h₀ ∧ ∀ t ∈ Set.Icc T1 T2, ∀ h, h ≠ 0 → |h| ≤ h₀ →
      t + h ∈ Set.Icc T1 T2 → ∀ s, Session (bsDoStep seq) sys f s t (y t) →
        ∃ r x', bsDoStep seq sys s t (List.ofFn (y t)) (List.ofFn (f t (y t))) h eps = .ret r ∧
          r.res.accepted = true ∧ r.x = List.ofFn x' ∧ ∀ i, |x' i - y (t + h) i| ≤ C * |h| ^ 3 := by
  have hq' : GoodSeq seq := by
    rcases hq with rfl | rfl
    · exact evenSeq_good
    · exact bulirschSeq_good
  obtain ⟨C, h₀, hC, hh₀, H⟩ := tableau_local (p := 1) mid2T_order (by exact_mod_cast hf) hy
  obtain ⟨C', h₀', hC', hh₀', H'⟩ := tableau_local (p := 1) mid4T_order (by exact_mod_cast hf) hy
  refine ⟨C + C', fun eps heps => ?_⟩
  refine ⟨min (min (min h₀ h₀') 1) (eps * tinyR / (C + C' + 1)), ?_, fun t ht h hne hh hth s hS => ?_⟩
  · have := tinyR_pos
    have : 0 < eps * tinyR / (C + C' + 1) := by positivity
    exact lt_min (lt_min (lt_min hh₀ hh₀') one_pos) this
  have hb1 : |h| ≤ h₀ := hh.trans ((min_le_left _ _).trans ((min_le_left _ _).trans (min_le_left _ _)))
  have hb1' : |h| ≤ h₀' := hh.trans ((min_le_left _ _).trans ((min_le_left _ _).trans (min_le_right _ _)))
  have hb2 : |h| ≤ 1 := hh.trans ((min_le_left _ _).trans (min_le_right _ _))
  have hb3 : |h| ≤ eps * tinyR / (C + C' + 1) := hh.trans (min_le_right _ _)
  have e2 : ∀ i, |midRule f t (y t) h 1 i - y (t + h) i| ≤ C * |h| ^ 3 := fun i => by
    have := (norm_le_pi_norm _ i).trans (H t ht h hb1 hth)
    rwa [Pi.sub_apply, Real.norm_eq_abs, ← midRule_one] at this
  have e4 : ∀ i, |midRule f t (y t) h 3 i - y (t + h) i| ≤ C' * |h| ^ 3 := fun i => by
    have := (norm_le_pi_norm _ i).trans (H' t ht h hb1' hth)
    rwa [Pi.sub_apply, Real.norm_eq_abs, ← midRule_three] at this
  have h3 : |h| ^ 3 ≤ |h| := by
    simpa using pow_le_pow_of_le_one (abs_nonneg h) hb2 (by norm_num : 1 ≤ 3)
  have hpos : 0 < |h| := abs_pos.mpr hne
  obtain ⟨r, h4, h5, h6⟩ := two_levels hs hq' t (y t) hne heps s (bs_session hs hS) (by
    intro i
    have h7 : |1 / 3 * (midRule f t (y t) h 3 i - midRule f t (y t) h 1 i)| ≤ (C + C') * |h| := by
      have h8 := abs_le.mp (e2 i)
      have h9 := abs_le.mp (e4 i)
      have hp3 : 0 ≤ |h| ^ 3 := by positivity
      have hc3 : (C + C') * |h| ^ 3 ≤ (C + C') * |h| := mul_le_mul_of_nonneg_left h3 (by positivity)
      have ha : 0 ≤ C * |h| ^ 3 := by positivity
      have hb : 0 ≤ C' * |h| ^ 3 := by positivity
      rw [abs_le]
      constructor <;> linarith
    have h10 : (C + C' + 1) * |h| ≤ eps * tinyR := by
      rw [le_div_iff₀ (by positivity)] at hb3
      linarith
    have h11 : eps * tinyR ≤ eps * (|y t i| + |midRule f t (y t) h 1 i
        + 1 / 3 * (midRule f t (y t) h 3 i - midRule f t (y t) h 1 i)| + tinyR) := by
      refine mul_le_mul_of_nonneg_left ?_ heps.le
      have := abs_nonneg (y t i)
      have := abs_nonneg (midRule f t (y t) h 1 i
        + 1 / 3 * (midRule f t (y t) h 3 i - midRule f t (y t) h 1 i))
      linarith
    linarith)
  refine ⟨r, _, h4, h5, h6, fun i => ?_⟩
  have h8 := abs_le.mp (e2 i)
  have h9 := abs_le.mp (e4 i)
  have ha : 0 ≤ C * |h| ^ 3 := by positivity
  have hb : 0 ≤ C' * |h| ^ 3 := by positivity
  rw [Pi.add_apply, Pi.smul_apply, Pi.sub_apply, smul_eq_mul, abs_le]
  constructor <;> linarith

end

/-! ### The hypotheses are met: the harmonic oscillator -/

example : ∃ h : ℝ, 0 < h ∧ ∃ (r : Stepped) (x' : Fin (1 + 1) → ℝ),
    bsDoStep evenSeq oscSys (Stepper.new oscSys) 0 (List.ofFn (osc 0))
      (List.ofFn (newton (m := 1) (fun _ q => -q) 0 (osc 0))) h (1 / 10 ^ 10) = .ret r ∧
    Session (bsDoStep evenSeq) oscSys (newton (m := 1) (fun _ q => -q)) r.st h x' ∧
    TakesStep (newton (m := 1) (fun _ q => -q)) 0 (osc 0) h r ∧ r.res.accepted = true := by
  obtain ⟨C, hC⟩ := bs_short_steps_partial osc_computes (.inl rfl) (contDiff_newton (osc_smooth 2)) osc_solution
  obtain ⟨h₀, hh₀, H⟩ := hC (1 / 10 ^ 10) (by positivity)
  have hm : min h₀ 1 ≤ 1 := min_le_right _ _
  have hm0 : 0 < min h₀ 1 := lt_min hh₀ one_pos
  obtain ⟨r, x', h1, h2, h3, -⟩ := H 0 ⟨le_rfl, by norm_num⟩ (min h₀ 1) hm0.ne'
    (by rw [abs_of_pos hm0]; exact min_le_left _ _) ⟨by linarith, by linarith⟩ _ (Session.new 0 (osc 0))
  obtain ⟨r', h4, h5⟩ := bs_step_partial osc_computes (Session.new 0 (osc 0)) hm0.ne'
    (by positivity : (0 : ℝ) < 1 / 10 ^ 10)
  rw [h1] at h4
  cases h4
  have hS := Session.step _ _ _ (Session.new 0 (osc 0)) h1 h3
  rw [h2, if_pos rfl, h5.1, zero_add] at hS
  exact ⟨min h₀ 1, hm0, r, x', h1, hS, h5, h2⟩

/-! ## The extrapolation is wrong -/

/-- The equation `x' = t²` as a system. -/
noncomputable def squareSys : System := ⟨1, fun t _ _ => ret [t ^ 2]⟩

theorem square_computes : Computes squareSys (fun t (_ : Fin 1 → ℝ) _ => t ^ 2) :=
  ⟨rfl, fun t x d _ => by simp [squareSys]⟩

/-- The solution of `x' = t²` through 1 at time 0 is `1 + t³ / 3`.  For every tolerance and every step `H`
with `H³ ≤ 96 eps` the steppers accept the step, and the state they return is `1 + 35/96 H³`: the error is
`H³ / 32`, although the extrapolation of the midpoint rules with two and four substeps to step zero,
`m₄ + (m₄ - m₂) / 3`, is exact here.  The code adds the last correction to `m₂` instead. -/
theorem bs_wrong_extrapolation {seq : List ℕ} (hq : seq = evenSeq ∨ seq = bulirschSeq) {H eps : ℝ}
    (hH : 0 < H) (heps : H ^ 3 ≤ 96 * eps) :
    (∀ t, HasDerivAt (fun u : ℝ => 1 + u ^ 3 / 3) (t ^ 2) t) ∧
    (midRule (fun t (_ : Fin 1 → ℝ) _ => t ^ 2) 0 (fun _ => 1) H 3
      + (1 / 3 : ℝ) • (midRule (fun t (_ : Fin 1 → ℝ) _ => t ^ 2) 0 (fun _ => 1) H 3
        - midRule (fun t (_ : Fin 1 → ℝ) _ => t ^ 2) 0 (fun _ => 1) H 1) = fun _ => 1 + H ^ 3 / 3) ∧
    ∃ r x', bsDoStep seq squareSys (Stepper.new squareSys) 0 [1] [0] H eps = .ret r ∧
      r.res.accepted = true ∧ r.res.hDone = H ∧ r.x = [x'] ∧ x' - (1 + H ^ 3 / 3) = H ^ 3 / 32 := by
  have hq' : GoodSeq seq := by
    rcases hq with rfl | rfl
    · exact evenSeq_good
    · exact bulirschSeq_good
  have he : 0 < eps := by
    have : 0 < H ^ 3 := by positivity
    linarith
  have m2 : midRule (fun t (_ : Fin 1 → ℝ) _ => t ^ 2) 0 (fun _ => 1) H 1 = fun _ => 1 + 3 / 8 * H ^ 3 := by
    funext i
    simp only [midRule, gragg, Pi.smul_apply, Pi.add_apply, smul_eq_mul]
    push_cast
    ring
  have m4 : midRule (fun t (_ : Fin 1 → ℝ) _ => t ^ 2) 0 (fun _ => 1) H 3 = fun _ => 1 + 11 / 32 * H ^ 3 := by
    funext i
    simp only [midRule, gragg, Pi.smul_apply, Pi.add_apply, smul_eq_mul]
    push_cast
    ring
  refine ⟨fun t => ?_, ?_, ?_⟩
  · have := ((hasDerivAt_pow 3 t).div_const 3).const_add 1
    exact this.congr_deriv (by push_cast; ring)
  · rw [m2, m4]
    funext i
    simp only [Pi.smul_apply, Pi.add_apply, Pi.sub_apply, smul_eq_mul]
    ring
  · obtain ⟨r, h1, h2, h3⟩ := two_levels square_computes hq' 0 (fun _ => 1) hH.ne' he (Stepper.new squareSys) rfl (by
      intro i
      rw [m2, m4]
      dsimp only
      have hp : 0 < H ^ 3 := by positivity
      rw [abs_one, abs_of_nonpos (by linarith), abs_of_nonneg (by linarith)]
      have := tinyR_pos
      have h5 : eps * 1 < eps * (1 + (1 + 3 / 8 * H ^ 3 + 1 / 3 * (1 + 11 / 32 * H ^ 3 - (1 + 3 / 8 * H ^ 3))) + tinyR) :=
        mul_lt_mul_of_pos_left (by linarith) he
      linarith)
    obtain ⟨r', h4, h5, -⟩ := bs_step_of_good square_computes hq' (Session.new 0 (fun _ => 1)) hH.ne' he
    rw [h1] at h4
    cases h4
    refine ⟨r, 1 + 35 / 96 * H ^ 3, ?_, h2, h5, ?_, by ring⟩
    · simpa using h1
    · rw [h3, m2, m4]
      simp
      ring

example : ((1 / 10 : ℝ)) ^ 3 ≤ 96 * (1 / 10 ^ 4) := by norm_num

end Verif.ODE
