import Verif.Optim.BFGS
import Mathlib.Tactic

/-!
# BFGS: the specification and the proofs
-/

set_option autoImplicit false

namespace Verif.Optim.QN

variable {N : ℕ}

/-! ## Specification -/

/-- `H` is symmetric. -/
def Symm (H : Fin N → Fin N → ℝ) : Prop := ∀ i j, H i j = H j i

/-- `H` is positive definite. -/
def PosDef (H : Fin N → Fin N → ℝ) : Prop := ∀ v : Fin N → ℝ, v ≠ 0 → 0 < ∑ i, v i * ∑ j, H i j * v j

/-! ## Linear algebra -/

theorem dot_comm (a b : Pt N) : dot a b = dot b a := Finset.sum_congr rfl fun _ _ => mul_comm _ _

theorem dot_self_nonneg (a : Pt N) : 0 ≤ dot a a := Finset.sum_nonneg fun _ _ => mul_self_nonneg _

theorem dot_self_pos {a : Pt N} (ha : a ≠ 0) : 0 < dot a a := by
  obtain ⟨j, hj⟩ := Function.ne_iff.1 ha
  exact Finset.sum_pos' (fun _ _ => mul_self_nonneg _) ⟨j, Finset.mem_univ j, mul_self_pos.2 hj⟩

theorem dot_zero_left (b : Pt N) : dot (0 : Pt N) b = 0 := by simp [dot]

theorem dot_lin (a b c : Pt N) (t : ℝ) : dot (fun j => a j + t * b j) c = dot a c + t * dot b c := by
  simp only [dot, Finset.mul_sum, ← Finset.sum_add_distrib]
  exact Finset.sum_congr rfl fun _ _ => by ring

theorem dot_neg (a b : Pt N) : dot a (fun j => -b j) = -dot a b := by
  simp only [dot, ← Finset.sum_neg_distrib]
  exact Finset.sum_congr rfl fun _ _ => by ring

theorem dot_smul_right (a b : Pt N) (t : ℝ) : dot a (fun j => b j * t) = dot a b * t := by
  simp only [dot, Finset.sum_mul]
  exact Finset.sum_congr rfl fun _ _ => by ring

theorem mulV_lin (H : Fin N → Fin N → ℝ) (a b : Pt N) (t : ℝ) :
    mulV H (fun j => a j + t * b j) = fun i => mulV H a i + t * mulV H b i := by
  funext i
  simp only [mulV, Finset.mul_sum, ← Finset.sum_add_distrib]
  exact Finset.sum_congr rfl fun _ _ => by ring

theorem dot_mulV_symm {H : Fin N → Fin N → ℝ} (hH : Symm H) (a b : Pt N) : dot a (mulV H b) = dot b (mulV H a) := by
  simp only [dot, mulV, Finset.mul_sum]
  rw [Finset.sum_comm]
  exact Finset.sum_congr rfl fun i _ => Finset.sum_congr rfl fun j _ => by rw [hH i j]; ring

theorem posDef_dot {H : Fin N → Fin N → ℝ} (hH : PosDef H) {v : Pt N} (hv : v ≠ 0) : 0 < dot v (mulV H v) := hH v hv

theorem posDef_nonneg {H : Fin N → Fin N → ℝ} (hH : PosDef H) (v : Pt N) : 0 ≤ dot v (mulV H v) := by
  by_cases hv : v = 0
  · rw [hv, dot_zero_left]
  · exact (posDef_dot hH hv).le

/-- Cauchy-Schwarz for the form of `H`. -/
theorem cauchy {H : Fin N → Fin N → ℝ} (hs : Symm H) (hH : PosDef H) {y : Pt N} (hy : y ≠ 0) (v : Pt N) :
    dot (mulV H y) v ^ 2 / dot y (mulV H y) ≤ dot v (mulV H v) := by
  have ha := posDef_dot hH hy
  set a := dot y (mulV H y) with hadef
  set m := dot (mulV H y) v with hm
  have h := posDef_nonneg hH (fun j => v j + (-(m / a)) * y j)
  rw [mulV_lin, dot_lin, dot_comm v, dot_comm y, dot_lin, dot_lin, dot_comm (mulV H v) v, dot_comm (mulV H v) y,
    dot_comm (mulV H y) y, ← hm, ← hadef, dot_mulV_symm hs y v, dot_comm v (mulV H y), ← hm] at h
  have e : m ^ 2 / a = m / a * m := by rw [sq]; ring
  rw [e]
  have e2 : (m / a) * (m / a) * a = m / a * m := by field_simp
  linear_combination h + e2

theorem dot_comb (v w a b : Pt N) (x y z s t A B : ℝ) :
    dot v (fun i => w i + x * a i * A - y * b i * B + z * (s * a i - t * b i) * (s * A - t * B)) =
      dot v w + x * dot a v * A - y * dot b v * B + z * (s * dot a v - t * dot b v) * (s * A - t * B) := by
  have e1 : dot v w + x * dot a v * A - y * dot b v * B + z * (s * dot a v - t * dot b v) * (s * A - t * B) =
      dot v w + dot a v * (x * A + z * s * (s * A - t * B)) - dot b v * (y * B + z * t * (s * A - t * B)) := by ring
  rw [e1]
  simp only [dot, Finset.sum_mul, ← Finset.sum_add_distrib, ← Finset.sum_sub_distrib]
  exact Finset.sum_congr rfl fun _ _ => by ring

section
variable (H : Fin N → Fin N → ℝ) (xi hdg : Pt N) (fac fad fae : ℝ)

theorem updateH_eq (hs : Symm H) : updateH H (increment xi hdg fac fad fae) =
    fun i j => H i j + increment xi hdg fac fad fae i j := by
  funext i j
  unfold updateH
  split
  · rfl
  · rw [hs j i]
    congr 1
    unfold increment
    ring

theorem mulV_update (v : Pt N) :
    mulV (fun i j => H i j + increment xi hdg fac fad fae i j) v =
      fun i => mulV H v i + fac * xi i * dot xi v - fad * hdg i * dot hdg v +
        fae * (fac * xi i - fad * hdg i) * (fac * dot xi v - fad * dot hdg v) := by
  funext i
  simp only [mulV, dot, increment, Finset.mul_sum, ← Finset.sum_add_distrib, ← Finset.sum_sub_distrib]
  exact Finset.sum_congr rfl fun _ _ => by ring

theorem quad_update (v : Pt N) :
    dot v (mulV (fun i j => H i j + increment xi hdg fac fad fae i j) v) =
      dot v (mulV H v) + fac * dot xi v ^ 2 - fad * dot hdg v ^ 2 + fae * (fac * dot xi v - fad * dot hdg v) ^ 2 := by
  rw [mulV_update]
  have e1 : dot v (fun i => mulV H v i + fac * xi i * dot xi v - fad * hdg i * dot hdg v +
        fae * (fac * xi i - fad * hdg i) * (fac * dot xi v - fad * dot hdg v)) =
      dot v (mulV H v) + fac * dot xi v * dot xi v - fad * dot hdg v * dot hdg v +
        fae * (fac * dot xi v - fad * dot hdg v) * (fac * dot xi v - fad * dot hdg v) := by
    exact dot_comb v (mulV H v) xi hdg _ _ _ _ _ _ _
  rw [e1]
  ring

end

/-- **The update of the inverse Hessian**: for a step and a change of the gradient that pass the code's test the update
divides by no zero, keeps the matrix symmetric and positive definite and makes it satisfy the secant equation, that it
maps the change of the gradient to the step.  Otherwise the matrix is kept. -/
theorem newH_spec {H : Fin N → Fin N → ℝ} (hs : Symm H) (hH : PosDef H) (xi dg : Pt N) :
    ∃ H', newH H xi dg = .ret H' ∧ Symm H' ∧ PosDef H' ∧
      (Real.sqrt (1 / 10 ^ 18 * (∑ j, dg j * dg j) * ∑ j, xi j * xi j) < ∑ j, dg j * xi j → ∀ i, ∑ j, H' i j * dg j = xi i) ∧
      (¬ Real.sqrt (1 / 10 ^ 18 * (∑ j, dg j * dg j) * ∑ j, xi j * xi j) < ∑ j, dg j * xi j → H' = H) := by
  by_cases c : dot dg xi > Real.sqrt (eps * dot dg dg * dot xi xi)
  · have hb : 0 < dot dg xi := lt_of_le_of_lt (Real.sqrt_nonneg _) c
    have hdg : dg ≠ 0 := by
      intro h
      rw [h, dot_zero_left] at hb
      exact lt_irrefl _ hb
    have ha := posDef_dot hH hdg
    have ha' : dot dg (mulV H dg) ≠ 0 := ha.ne'
    set fae := dot dg (mulV H dg) with hfae
    refine ⟨updateH H (increment xi (mulV H dg) (1 / dot dg xi) (1 / fae) fae), ?_, ?_, ?_, ?_, ?_⟩
    · unfold newH
      rw [if_pos c, ← hfae, if_neg ha']
    · rw [updateH_eq _ _ _ _ _ _ hs]
      intro i j
      show H i j + _ = H j i + _
      rw [hs i j]
      congr 1
      unfold increment
      ring
    · rw [updateH_eq _ _ _ _ _ _ hs]
      intro v hv
      show 0 < dot v (mulV _ v)
      rw [quad_update]
      have hq := posDef_dot hH hv
      have hcs := cauchy hs hH hdg v
      rw [← hfae] at hcs
      have e1 : 1 / fae * dot (mulV H dg) v ^ 2 = dot (mulV H dg) v ^ 2 / fae := by ring
      rw [e1]
      have h3 : 0 ≤ fae * (1 / dot dg xi * dot xi v - 1 / fae * dot (mulV H dg) v) ^ 2 := mul_nonneg ha.le (sq_nonneg _)
      by_cases hn : dot xi v = 0
      · rw [hn]
        have e2 : fae * (1 / dot dg xi * 0 - 1 / fae * dot (mulV H dg) v) ^ 2 = dot (mulV H dg) v ^ 2 / fae := by
          field_simp
          ring
        rw [e2]
        nlinarith
      · have h4 : 0 < 1 / dot dg xi * dot xi v ^ 2 := by positivity
        linarith
    · intro _ i
      rw [updateH_eq _ _ _ _ _ _ hs]
      change mulV (fun i j => H i j + increment xi (mulV H dg) (1 / dot dg xi) (1 / fae) fae i j) dg i = xi i
      rw [mulV_update]
      have e1 : dot (mulV H dg) dg = fae := by rw [dot_comm]
      have e2 : dot xi dg = dot dg xi := dot_comm _ _
      simp only [e1, e2]
      rw [one_div_mul_cancel ha', one_div_mul_cancel hb.ne', sub_self, mul_zero, add_zero]
      have e3 : 1 / dot dg xi * xi i * dot dg xi = xi i := by field_simp
      have e4 : 1 / fae * mulV H dg i * fae = mulV H dg i := by field_simp
      rw [e3, e4]
      ring
    · intro h
      exact absurd c h
  · refine ⟨H, ?_, hs, hH, fun h => absurd h c, fun _ => rfl⟩
    unfold newH
    rw [if_neg c]

/-- Not vacuous: the identity is symmetric and positive definite, and a step along the change passes the test. -/
theorem start_H : Symm (fun i j : Fin N => if i = j then (1 : ℝ) else 0) ∧ PosDef (fun i j : Fin N => if i = j then (1 : ℝ) else 0) := by
  constructor
  · intro i j
    simp only [eq_comm]
  · intro v hv
    simp only [ite_mul, one_mul, zero_mul, Finset.sum_ite_eq, Finset.mem_univ, if_true]
    exact dot_self_pos hv

example : Real.sqrt (1 / 10 ^ 18 * (∑ j : Fin 1, (1 : ℝ) * 1) * ∑ j : Fin 1, (1 : ℝ) * 1) < ∑ j : Fin 1, (1 : ℝ) * 1 := by
  simp only [Finset.univ_unique, Finset.sum_singleton, mul_one]
  rw [Real.sqrt_lt' (by norm_num)]
  norm_num

/-! ## The line search -/

section
variable {phi dphi : ℝ → ℝ} {phi0 dphi0 : ℝ}

/-- The decrease at `a` suffices. -/
def Enough (phi : ℝ → ℝ) (phi0 dphi0 a : ℝ) : Prop := 0 ≤ a ∧ a ≤ 50 ∧ phi a ≤ phi0 + 1 / 10 ^ 4 * a * dphi0

theorem zoom_enough (k : ℕ) (z : Zoom) (hz : Enough phi phi0 dphi0 z.lo) (hh : 0 ≤ z.hi ∧ z.hi ≤ 50) :
    Enough phi phi0 dphi0 (zoom phi dphi phi0 dphi0 k z) := by
  induction k generalizing z with
  | zero => exact hz
  | succ k ih =>
    have hm : 0 ≤ 1 / 2 * (z.lo + z.hi) ∧ 1 / 2 * (z.lo + z.hi) ≤ 50 := by
      constructor <;> linarith [hz.1, hz.2.1, hh.1, hh.2]
    unfold zoom
    by_cases c : phi (1 / 2 * (z.lo + z.hi)) > phi0 + c1 * (1 / 2 * (z.lo + z.hi)) * dphi0 ∨ phi (1 / 2 * (z.lo + z.hi)) ≥ z.plo
    · rw [if_pos c]
      split
      · exact hz
      · exact ih ⟨z.lo, 1 / 2 * (z.lo + z.hi), z.plo⟩ hz hm
    · rw [if_neg c]
      have he : Enough phi phi0 dphi0 (1 / 2 * (z.lo + z.hi)) := ⟨hm.1, hm.2, not_lt.1 (fun h => c (Or.inl h))⟩
      split
      · exact he
      · split
        · exact he
        · refine ih _ he ?_
          unfold zoomIn
          simp only
          split
          · exact ⟨hz.1, hz.2.1⟩
          · exact hh

theorem pow_min (i : ℕ) (hi : 6 ≤ i) : min ((2 : ℝ) ^ i) 50 = 50 := by
  refine min_eq_right ?_
  calc (50 : ℝ) ≤ 2 ^ 6 := by norm_num
    _ ≤ 2 ^ i := pow_le_pow_right₀ (by norm_num) hi

theorem wolfeLoop_enough (k i : ℕ) (prev pprev cur : ℝ) (hk : k + i = 25) (hi : i ≤ 7) (hc : cur = min (2 ^ i) 50)
    (hp : Enough phi phi0 dphi0 prev) (hpp : 0 < i → pprev = phi prev) (hprev : 0 < i → prev = min (2 ^ (i - 1)) 50) :
    Enough phi phi0 dphi0 (wolfeLoop phi dphi phi0 dphi0 k i prev pprev cur) := by
  induction k generalizing i prev pprev cur with
  | zero => omega
  | succ k ih =>
    have hcur : 0 ≤ cur ∧ cur ≤ 50 := by
      rw [hc]
      exact ⟨le_min (by positivity) (by norm_num), min_le_right _ _⟩
    unfold wolfeLoop
    by_cases c : phi cur > phi0 + c1 * cur * dphi0 ∨ (i > 0 ∧ phi cur ≥ pprev)
    · rw [if_pos c]
      exact zoom_enough 20 ⟨prev, cur, pprev⟩ hp hcur
    · rw [if_neg c]
      have he : Enough phi phi0 dphi0 cur := ⟨hcur.1, hcur.2, not_lt.1 (fun h => c (Or.inl h))⟩
      split
      · exact he
      · split
        · exact zoom_enough 20 ⟨cur, prev, phi cur⟩ he ⟨hp.1, hp.2.1⟩
        · have hi7 : i ≠ 7 := by
            rintro rfl
            apply c
            right
            refine ⟨by norm_num, ?_⟩
            rw [hpp (by norm_num), hprev (by norm_num), hc, pow_min 7 (by norm_num), pow_min (7 - 1) (by norm_num)]
          refine ih (i + 1) cur (phi cur) (min (2 * cur) alphaMax) (by omega) (by omega) ?_ he (fun _ => rfl) (fun _ => ?_)
          · rw [hc, alphaMax, pow_succ]
            rcases le_total ((2 : ℝ) ^ i) 50 with h | h
            · rw [min_eq_left h, mul_comm]
            · rw [min_eq_right h, min_eq_right (by norm_num), min_eq_right (by linarith)]
          · rw [Nat.add_sub_cancel]; exact hc

end

theorem descent_slope (g d : Pt N) : dot g (descent g d) ≤ 0 := by
  unfold descent
  split
  · rw [dot_neg]
    linarith [dot_self_nonneg g]
  · next h => exact (not_le.1 h).le

/-- **The line search decreases enough**: for every function, gradient, point and direction the point found lies on the line
searched at a parameter `a` between 0 and 50 whose value is at most `f x + 1e-4 a slope`, with a slope that is not
positive.  The last resort, a step that was never evaluated, is never taken. -/
theorem lineSearch_spec (f : Pt N → ℝ) (G : Pt N → Pt N) (x g d : Pt N) (stpmax : ℝ) :
    ∃ a, lineSearch f G x g d stpmax = (fun j => x j + a * descent g (scaled d stpmax) j) ∧ 0 ≤ a ∧ a ≤ 50 ∧
      dot g (descent g (scaled d stpmax)) ≤ 0 ∧
      f (lineSearch f G x g d stpmax) ≤ f x + 1 / 10 ^ 4 * a * dot g (descent g (scaled d stpmax)) := by
  have h0 : (fun j => x j + 0 * descent g (scaled d stpmax) j) = x := by funext j; ring
  have h : Enough (fun a => f (along x (descent g (scaled d stpmax)) a)) (f x) (dot g (descent g (scaled d stpmax)))
      (stepLength f G x g (descent g (scaled d stpmax))) := by
    refine wolfeLoop_enough 25 0 0 (f x) 1 (by norm_num) (by norm_num) ?_ ⟨le_refl _, by norm_num, ?_⟩ (by norm_num) (by norm_num)
    · rw [pow_zero]; exact (min_eq_left (by norm_num)).symm
    · show f (fun j => x j + 0 * descent g (scaled d stpmax) j) ≤ _
      rw [h0]
      simp
  exact ⟨_, rfl, h.1, h.2.1, descent_slope _ _, h.2.2⟩

/-- **A good step is kept**: if the full step along the direction searched satisfies the strong Wolfe conditions (sufficient
decrease with factor 1e-4 and slope at most 0.9 times the initial slope in size), it is taken unchanged. -/
theorem lineSearch_full_step (f : Pt N → ℝ) (G : Pt N → Pt N) (x g d : Pt N) (stpmax : ℝ)
    (h1 : f (fun j => x j + descent g (scaled d stpmax) j) ≤ f x + 1 / 10 ^ 4 * dot g (descent g (scaled d stpmax)))
    (h2 : |dot (G (fun j => x j + descent g (scaled d stpmax) j)) (descent g (scaled d stpmax))| ≤
      9 / 10 * |dot g (descent g (scaled d stpmax))|) :
    lineSearch f G x g d stpmax = fun j => x j + descent g (scaled d stpmax) j := by
  have hs := descent_slope g (scaled d stpmax)
  have ha : along x (descent g (scaled d stpmax)) 1 = fun j => x j + descent g (scaled d stpmax) j := by
    funext j; simp [along]
  rw [abs_of_nonpos hs] at h2
  have : stepLength f G x g (descent g (scaled d stpmax)) = 1 := by
    unfold stepLength wolfeLoop
    rw [ha, if_neg, if_pos]
    · rw [c2]; linarith
    · rw [c1]
      rintro (h | ⟨h, -⟩)
      · linarith
      · omega
  rw [lineSearch, this, ha]

/-- **The first halving is kept** as well: if the full step does not decrease enough but half of it satisfies the strong Wolfe
conditions with a value below the start, half of the step is taken. -/
theorem lineSearch_half_step (f : Pt N → ℝ) (G : Pt N → Pt N) (x g d : Pt N) (stpmax : ℝ)
    (h0 : f x + 1 / 10 ^ 4 * dot g (descent g (scaled d stpmax)) < f (fun j => x j + descent g (scaled d stpmax) j))
    (h1 : f (fun j => x j + 1 / 2 * descent g (scaled d stpmax) j) ≤
      f x + 1 / 10 ^ 4 * (1 / 2) * dot g (descent g (scaled d stpmax)))
    (h1' : f (fun j => x j + 1 / 2 * descent g (scaled d stpmax) j) < f x)
    (h2 : |dot (G (fun j => x j + 1 / 2 * descent g (scaled d stpmax) j)) (descent g (scaled d stpmax))| ≤
      9 / 10 * |dot g (descent g (scaled d stpmax))|) :
    lineSearch f G x g d stpmax = fun j => x j + 1 / 2 * descent g (scaled d stpmax) j := by
  have hs := descent_slope g (scaled d stpmax)
  have ha : along x (descent g (scaled d stpmax)) 1 = fun j => x j + descent g (scaled d stpmax) j := by
    funext j; simp [along]
  have hh : along x (descent g (scaled d stpmax)) (1 / 2) = fun j => x j + 1 / 2 * descent g (scaled d stpmax) j := rfl
  rw [abs_of_nonpos hs] at h2
  have : stepLength f G x g (descent g (scaled d stpmax)) = 1 / 2 := by
    unfold stepLength wolfeLoop
    rw [if_pos (Or.inl (by rw [ha, c1]; linarith))]
    unfold zoom
    simp only
    rw [show (1 / 2 : ℝ) * (0 + 1) = 1 / 2 by norm_num, hh, if_neg, if_pos]
    · rw [c2]; linarith
    · rw [c1]
      rintro (h | h)
      · linarith
      · linarith
  rw [lineSearch, this, hh]

theorem lineSearch_le (f : Pt N → ℝ) (G : Pt N → Pt N) (x g d : Pt N) (stpmax : ℝ) : f (lineSearch f G x g d stpmax) ≤ f x := by
  obtain ⟨a, -, h1, -, h2, h3⟩ := lineSearch_spec f G x g d stpmax
  have : 1 / 10 ^ 4 * a * dot g (descent g (scaled d stpmax)) ≤ 0 := mul_nonpos_of_nonneg_of_nonpos (by positivity) h2
  linarith

/-! ## The method -/

theorem foldl_max (l : List (Fin N)) (c : Fin N → ℝ) (t u : ℝ) :
    (open Classical in l.foldl (fun t j => if c j > t then c j else t) t) < u ↔ t < u ∧ ∀ j ∈ l, c j < u := by
  induction l generalizing t with
  | nil => simp
  | cons k l ih =>
    simp only [List.foldl_cons, List.forall_mem_cons]
    rw [ih]
    split
    · next h => constructor
                · rintro ⟨h1, h2⟩; exact ⟨lt_trans h h1, h1, h2⟩
                · rintro ⟨-, h1, h2⟩; exact ⟨h1, h2⟩
    · next h => constructor
                · rintro ⟨h1, h2⟩; exact ⟨h1, (not_lt.1 h).trans_lt h1, h2⟩
                · rintro ⟨h1, -, h2⟩; exact ⟨h1, h2⟩

theorem gradTest_lt {fret : ℝ} {p g : Pt N} {gtol : ℝ} (hg : 0 < gtol) :
    gradTest fret p g < gtol ↔ ∀ j, |g j| * max |p j| 1 < gtol * max |fret| 1 := by
  unfold gradTest
  rw [foldl_max]
  have hpos : (0 : ℝ) < max |fret| 1 := lt_of_lt_of_le one_pos (le_max_right _ _)
  constructor
  · rintro ⟨-, h⟩ j
    have := h j (List.mem_finRange j)
    unfold gradComp at this
    rwa [div_lt_iff₀ hpos] at this
  · intro h
    refine ⟨hg, fun j _ => ?_⟩
    unfold gradComp
    rw [div_lt_iff₀ hpos]
    exact h j

/-- What holds before every iteration. -/
structure Inv (f : Pt N → ℝ) (G : Pt N → Pt N) (s : St N) : Prop where
  value : s.fret = f s.p
  grad : s.g = G s.p
  symm : Symm s.H
  pos : PosDef s.H
  dir : ∀ i, s.xi i = -∑ j, s.H i j * s.g j

theorem start_inv (f : Pt N → ℝ) (G : Pt N → Pt N) (x0 : Pt N) : Inv f G (start f G x0) where
  value := rfl
  grad := rfl
  symm := start_H.1
  pos := start_H.2
  dir := fun i => by simp [start]

theorem nextSt_spec (f : Pt N → ℝ) (G : Pt N → Pt N) (s : St N) (hs : Inv f G s) (p' : Pt N) :
    ∃ s', nextSt s p' (G p') (f p') = .ret s' ∧ Inv f G s' ∧ s'.p = p' := by
  obtain ⟨H', h1, h2, h3, -⟩ := newH_spec hs.symm hs.pos (fun j => p' j - s.p j) (fun j => G p' j - s.g j)
  refine ⟨⟨p', G p', fun i => -(mulV H' (G p') i), H', f p'⟩, ?_, ⟨rfl, rfl, h2, h3, fun i => rfl⟩, rfl⟩
  unfold nextSt
  rw [h1]
  rfl

/-- The direction of every iteration descends unless the gradient is zero, so the line search keeps it up to its length. -/
theorem inv_descends {f : Pt N → ℝ} {G : Pt N → Pt N} {s : St N} (hs : Inv f G s) (hg : s.g ≠ 0) : dot s.g s.xi < 0 := by
  have e : s.xi = fun i => -(mulV s.H s.g i) := funext hs.dir
  rw [e, dot_neg]
  linarith [posDef_dot hs.pos hg]

/-- The claim about a result. -/
def Good (f : Pt N → ℝ) (G : Pt N → Pt N) (ftol gtol : ℝ) (top : ℝ) (maxIter : ℕ) (r : Result N) : Prop :=
  r.fmin = f r.xmin ∧ r.fmin ≤ top ∧ r.iterations ≤ maxIter ∧
    (r.converged = true → (∀ j, |G r.xmin j| * max |r.xmin j| 1 < gtol * max |r.fmin| 1) ∨
      ∃ x, f x ≤ top ∧ r.fmin ≤ f x ∧ 2 * (f x - r.fmin) ≤ ftol * (|r.fmin| + |f x| + 1 / 10 ^ 18)) ∧
    (r.converged = false → r.iterations = maxIter)

theorem run_good (f : Pt N → ℝ) (G : Pt N → Pt N) (ftol gtol stpmax : ℝ) (hg : 0 < gtol) (top : ℝ) (k iter : ℕ) (s : St N)
    (hs : Inv f G s) (ht : f s.p ≤ top) :
    ∃ r, run f G ftol gtol stpmax k iter s = .ret r ∧ Good f G ftol gtol top (iter + k) r := by
  induction k generalizing iter s with
  | zero => exact ⟨_, rfl, hs.value, by rw [hs.value]; exact ht, le_refl _, (fun h => by cases h), fun _ => rfl⟩
  | succ k ih =>
    unfold run
    have hle := lineSearch_le f G s.p s.g s.xi stpmax
    set p' := lineSearch f G s.p s.g s.xi stpmax with hp'
    by_cases c1 : valueTest ftol (f p') s.fret
    · rw [if_pos c1]
      refine ⟨_, rfl, rfl, hle.trans ht, by simp only; omega, fun _ => Or.inr ⟨s.p, ht, hle, ?_⟩, fun h => by cases h⟩
      unfold valueTest at c1
      rw [hs.value, abs_sub_comm, abs_of_nonneg (by linarith)] at c1
      exact c1
    · rw [if_neg c1]
      by_cases c2 : gradTest (f p') p' (G p') < gtol
      · rw [if_pos c2]
        exact ⟨_, rfl, rfl, hle.trans ht, by simp only; omega, fun _ => Or.inl ((gradTest_lt hg).1 c2), fun h => by cases h⟩
      · rw [if_neg c2]
        obtain ⟨s', h1, h2, h3⟩ := nextSt_spec f G s hs p'
        rw [h1]
        obtain ⟨r, h4, h5⟩ := ih (iter + 1) s' h2 (by rw [h3]; exact hle.trans ht)
        refine ⟨r, h4, ?_⟩
        rw [show iter + (k + 1) = iter + 1 + k by omega]
        exact h5

/-- **BFGS** for every function, every gradient handed to it, every start and all positive tolerances and limits: it returns;
the value returned is the function's at the point returned and at most the value at the start; the number of iterations
respects the limit; the flag of convergence means that the scaled gradient there is below its tolerance or that the last
step, from a point no worse than the start, changed the value by no more than the fractional tolerance; without the flag all
the iterations have been used. -/
theorem bfgs_spec (f : Pt N → ℝ) (G : Pt N → Pt N) (ftol gtol : ℝ) (maxIter : ℤ) (x0 : Pt N) (hf : 0 < ftol) (hg : 0 < gtol)
    (hm : 0 < maxIter) :
    ∃ r, bfgs f G ftol gtol maxIter x0 = .ret r ∧ r.fmin = f r.xmin ∧ r.fmin ≤ f x0 ∧ (r.iterations : ℤ) ≤ maxIter ∧
      (r.converged = true → (∀ j, |G r.xmin j| * max |r.xmin j| 1 < gtol * max |r.fmin| 1) ∨
        ∃ x, f x ≤ f x0 ∧ r.fmin ≤ f x ∧ 2 * (f x - r.fmin) ≤ ftol * (|r.fmin| + |f x| + 1 / 10 ^ 18)) ∧
      (r.converged = false → (r.iterations : ℤ) = maxIter) := by
  obtain ⟨r, h, g1, g2, g3, g4, g5⟩ := run_good f G ftol gtol (maxStep x0) hg (f x0) maxIter.toNat 0 (start f G x0)
    (start_inv f G x0) (le_refl _)
  refine ⟨r, ?_, g1, g2, by omega, g4, fun hc => ?_⟩
  · unfold bfgs
    rw [if_neg (not_le.2 hf), if_neg (not_le.2 hg), if_neg (not_le.2 hm)]
    exact h
  · have := g5 hc
    omega

/-- Not vacuous. -/
example : ∃ r, bfgs (N := 2) (fun x => x 0 ^ 2 + 3 * x 1 ^ 2) (fun x => ![2 * x 0, 6 * x 1]) (1 / 10) (1 / 10) 7 ![1, 1] = .ret r ∧
    r.fmin ≤ 4 := by
  obtain ⟨r, h, -, h2, -⟩ := bfgs_spec (N := 2) (fun x => x 0 ^ 2 + 3 * x 1 ^ 2) (fun x => ![2 * x 0, 6 * x 1]) (1 / 10) (1 / 10) 7
    ![1, 1] (by norm_num) (by norm_num) (by norm_num)
  refine ⟨r, h, h2.trans ?_⟩
  norm_num

/-- The state reached from a state in one iteration that does not return. -/
def Next (f : Pt N → ℝ) (G : Pt N → Pt N) (stpmax : ℝ) (s s' : St N) : Prop :=
  nextSt s (lineSearch f G s.p s.g s.xi stpmax) (G (lineSearch f G s.p s.g s.xi stpmax))
    (f (lineSearch f G s.p s.g s.xi stpmax)) = .ret s'

/-- **Every iteration of BFGS** works with a symmetric positive definite matrix and a direction that descends unless the
gradient is zero, and never increases the value. -/
theorem reachable_spec (f : Pt N → ℝ) (G : Pt N → Pt N) (x0 : Pt N) (s : St N)
    (h : Relation.ReflTransGen (Next f G (maxStep x0)) (start f G x0) s) :
    Symm s.H ∧ PosDef s.H ∧ s.g = G s.p ∧ s.fret = f s.p ∧ f s.p ≤ f x0 ∧ (s.g ≠ 0 → ∑ j, s.g j * s.xi j < 0) := by
  have key : Inv f G s ∧ f s.p ≤ f x0 := by
    induction h with
    | refl => exact ⟨start_inv f G x0, le_refl _⟩
    | @tail b c hab hbc ih =>
      obtain ⟨s', h1, h2, h3⟩ := nextSt_spec f G b ih.1 (lineSearch f G b.p b.g b.xi (maxStep x0))
      unfold Next at hbc
      rw [h1] at hbc
      cases hbc
      exact ⟨h2, by rw [h3]; exact (lineSearch_le f G b.p b.g b.xi _).trans ih.2⟩
  obtain ⟨hi, hle⟩ := key
  exact ⟨hi.symm, hi.pos, hi.grad, hi.value, hle, fun hg => inv_descends hi hg⟩

/-- Not vacuous: from every state reached another one is reached. -/
example (f : Pt N → ℝ) (G : Pt N → Pt N) (x0 : Pt N) : ∃ s, Next f G (maxStep x0) (start f G x0) s := by
  obtain ⟨s', h1, -⟩ := nextSt_spec f G (start f G x0) (start_inv f G x0)
    (lineSearch f G (start f G x0).p (start f G x0).g (start f G x0).xi (maxStep x0))
  exact ⟨s', h1⟩

/-- **The rejected inputs.** -/
theorem bfgs_throws (f : Pt N → ℝ) (G : Pt N → Pt N) (ftol gtol : ℝ) (maxIter : ℤ) (x0 : Pt N)
    (h : ftol ≤ 0 ∨ gtol ≤ 0 ∨ maxIter ≤ 0) :
    bfgs f G ftol gtol maxIter x0 = .exn (.mml "MultidimOptimizationInputError") := by
  unfold bfgs
  by_cases h1 : ftol ≤ 0
  · rw [if_pos h1]
  · rw [if_neg h1]
    by_cases h2 : gtol ≤ 0
    · rw [if_pos h2]
    · rw [if_neg h2, if_pos (by tauto)]

/-! ## Convergence is reported where there is none -/

theorem zoom_stuck {phi dphi : ℝ → ℝ} {phi0 dphi0 plo : ℝ} (k : ℕ) (hi : ℝ) (hk : 1 / 10 ^ 14 ≤ hi / 2 ^ k)
    (h : ∀ a, hi / 2 ^ k ≤ a → a ≤ hi → phi a > phi0 + c1 * a * dphi0) :
    zoom phi dphi phi0 dphi0 k ⟨0, hi, plo⟩ = 0 := by
  induction k generalizing hi with
  | zero => rfl
  | succ k ih =>
    have hpos : (0 : ℝ) < hi / 2 ^ (k + 1) := lt_of_lt_of_le (by positivity) hk
    have hhi : 0 < hi := by
      have := mul_pos hpos (by positivity : (0 : ℝ) < 2 ^ (k + 1))
      rwa [div_mul_cancel₀ _ (by positivity)] at this
    have e : hi / 2 ^ (k + 1) = hi / 2 / 2 ^ k := by rw [pow_succ]; field_simp
    have e0 : 1 / 2 * (0 + hi) = hi / 2 := by ring
    have hle : hi / 2 / 2 ^ k ≤ hi / 2 := div_le_self (by positivity) (one_le_pow₀ (by norm_num))
    unfold zoom
    simp only [e0]
    rw [if_pos (Or.inl (h _ (by rw [e]; exact hle) (by linarith))), if_neg]
    · exact ih (hi / 2) (by rw [← e]; exact hk) (fun a h1 h2 => h a (by rw [e]; exact h1) (by linarith))
    · rw [sub_zero, abs_of_pos (by positivity), not_lt]
      rw [e] at hk
      exact hk.trans hle

/-- **BFGS reports convergence far from the minimum**: for the strictly convex quadratic `K x² - x + y²` with its true
gradient, started at `(0, 1)`, the zoom phase gives up after twenty halvings and returns the step length 0; the value has not
changed, so the call returns the start with `converged` true after one iteration, although the value there is 1, the
gradient is `(-1, 2)` and `f(0, 0) = 0`. -/
theorem bfgs_false_convergence (ftol gtol : ℝ) (maxIter : ℤ) (hf : 0 < ftol) (hg : 0 < gtol) (hm : 0 < maxIter) :
    bfgs (N := 2) (fun x => 2 ^ 23 * x 0 ^ 2 - x 0 + x 1 ^ 2) (fun x => ![2 ^ 24 * x 0 - 1, 2 * x 1]) ftol gtol maxIter ![0, 1] =
      .ret ⟨![0, 1], 1, 1, true⟩ := by
  set f : Pt 2 → ℝ := fun x => 2 ^ 23 * x 0 ^ 2 - x 0 + x 1 ^ 2 with hfd
  set G : Pt 2 → Pt 2 := fun x => ![2 ^ 24 * x 0 - 1, 2 * x 1] with hGd
  have hf0 : f ![0, 1] = 1 := by simp [hfd]
  have hG0 : G ![0, 1] = ![-1, 2] := by simp [hGd]
  have hd : (fun j => -G ![0, 1] j) = ![1, -2] := by
    rw [hG0]; funext j; fin_cases j <;> simp
  have hmax : (100 : ℝ) ≤ maxStep (N := 2) ![0, 1] := by
    unfold maxStep
    have : (2 : ℝ) ≤ max (Real.sqrt (dot (N := 2) ![0, 1] ![0, 1])) (2 : ℕ) := by
      refine le_trans ?_ (le_max_right _ _)
      norm_num
    linarith
  have hsc : scaled (N := 2) ![1, -2] (maxStep (N := 2) ![0, 1]) = ![1, -2] := by
    unfold scaled
    rw [if_neg]
    rw [not_lt]
    refine le_trans ?_ hmax
    rw [Real.sqrt_le_left (by norm_num)]
    simp [dot, Fin.sum_univ_two]
    norm_num
  have hdot : dot (N := 2) ![-1, 2] ![1, -2] = -5 := by
    simp [dot, Fin.sum_univ_two]
    norm_num
  have hde : descent (N := 2) ![-1, 2] ![1, -2] = ![1, -2] := by
    unfold descent
    rw [if_neg (by rw [hdot]; norm_num)]
  have hphi : ∀ a, f (along ![0, 1] ![1, -2] a) = 2 ^ 23 * a ^ 2 - a + (1 - 2 * a) ^ 2 := by
    intro a
    simp [hfd, along]
    ring
  have hbig : ∀ a : ℝ, 1 / 2 ^ 20 ≤ a → a ≤ 1 → f (along ![0, 1] ![1, -2] a) > 1 + c1 * a * -5 := by
    intro a h1 _
    rw [hphi, c1]
    have : (0 : ℝ) < a := lt_of_lt_of_le (by positivity) h1
    nlinarith [mul_le_mul_of_nonneg_left h1 this.le]
  have hlen : stepLength f G ![0, 1] ![-1, 2] ![1, -2] = 0 := by
    unfold stepLength wolfeLoop
    rw [hf0, hdot, if_pos (Or.inl (hbig 1 (by norm_num) le_rfl))]
    exact zoom_stuck 20 1 (by norm_num) (fun a h1 h2 => hbig a h1 h2)
  have hls : lineSearch f G ![0, 1] ![-1, 2] ![1, -2] (maxStep (N := 2) ![0, 1]) = ![0, 1] := by
    unfold lineSearch
    rw [hsc, hde, hlen]
    funext j
    simp [along]
  unfold bfgs
  rw [if_neg (not_le.2 hf), if_neg (not_le.2 hg), if_neg (not_le.2 hm)]
  obtain ⟨k, hk⟩ : ∃ k, maxIter.toNat = k + 1 := ⟨maxIter.toNat - 1, by omega⟩
  rw [hk]
  unfold run
  have hst : start f G ![0, 1] = ⟨![0, 1], ![-1, 2], ![1, -2], fun i j => if i = j then 1 else 0, 1⟩ := by
    unfold start
    rw [hd, hG0, hf0]
  rw [hst]
  simp only
  rw [hls, hf0, if_pos]
  unfold valueTest eps
  rw [sub_self, abs_zero, mul_zero]
  positivity

/-! The hypotheses of `lineSearch_full_step` hold for `x² / 2` at 1 with direction -1, and those of
`lineSearch_half_step` for `x²` at 1 with direction -2 (the full step lands at the mirror point). -/

example : let f : Pt 1 → ℝ := fun p => p 0 ^ 2 / 2
    lineSearch f id (fun _ => 1) (fun _ => 1) (fun _ => -1) 10 = fun _ => 0 := by
  intro f
  have hsc : scaled (N := 1) (fun _ => -1) 10 = fun _ => -1 := by
    unfold scaled
    rw [if_neg]
    simp [dot]
  have hde : descent (N := 1) (fun _ => 1) (fun _ => -1) = fun _ => -1 := by
    unfold descent
    rw [if_neg]
    simp [dot]
  rw [lineSearch_full_step, hsc, hde]
  · funext j; norm_num
  · rw [hsc, hde]; simp [f, dot]; norm_num
  · rw [hsc, hde]; simp [dot]; norm_num

example : let f : Pt 1 → ℝ := fun p => p 0 ^ 2
    lineSearch f (fun p j => 2 * p j) (fun _ => 1) (fun _ => 2) (fun _ => -2) 10 = fun _ => 0 := by
  intro f
  have hsc : scaled (N := 1) (fun _ => -2) 10 = fun _ => -2 := by
    unfold scaled
    rw [if_neg]
    have : dot (N := 1) (fun _ => -2) (fun _ => -2) = 2 ^ 2 := by simp [dot]; norm_num
    rw [this, Real.sqrt_sq (by norm_num)]; norm_num
  have hde : descent (N := 1) (fun _ => 2) (fun _ => -2) = fun _ => -2 := by
    unfold descent
    rw [if_neg]
    simp [dot]
  rw [lineSearch_half_step, hsc, hde]
  · funext j; norm_num
  · rw [hsc, hde]; simp [f, dot]; norm_num
  · rw [hsc, hde]; simp [f, dot]; norm_num
  · rw [hsc, hde]; simp [f]
  · rw [hsc, hde]; simp [dot]

end Verif.Optim.QN
