import Verif.Roots.LaguerreDisc
import Verif.Roots.LaguerreModel
import Verif.Poly.Lemmas
import Verif.Hoare

/-! # Helper lemmas for Laguerre's method -/

set_option autoImplicit false

namespace Verif.Roots

open Polynomial Outcome
open Verif.Poly (pl)

/-- A small value means a root nearby. -/
theorem root_near_value {q : ℂ[X]} {x : ℂ} (hd : 0 < q.natDegree) :
    ∃ z, q.IsRoot z ∧ ‖q.leadingCoeff‖ * ‖x - z‖ ^ q.natDegree ≤ ‖q.eval x‖ := by
  obtain ⟨l, hq, hlen⟩ := exists_ofRoots q
  have hl : l ≠ [] := by rintro rfl; simp at hlen; omega
  obtain ⟨r, hr, hmin⟩ : ∃ r ∈ l, ∀ r' ∈ l, ‖x - r‖ ≤ ‖x - r'‖ := by
    obtain ⟨r, hr, h⟩ := List.toFinset l |>.exists_min_image (fun r => ‖x - r‖)
      (by rw [List.toFinset_nonempty_iff]; exact hl)
    exact ⟨r, List.mem_toFinset.1 hr, fun r' hr' => h r' (List.mem_toFinset.2 hr')⟩
  refine ⟨r, by rw [hq, IsRoot, ofRoots_root _ _ _ hr], ?_⟩
  have key : ∀ l' : List ℂ, (∀ r' ∈ l', ‖x - r‖ ≤ ‖x - r'‖) → ∀ a : ℂ, ‖a‖ * ‖x - r‖ ^ l'.length ≤ ‖(ofRoots a l').eval x‖ := by
    intro l' h a
    induction l' with
    | nil => simp [ofRoots_nil]
    | cons s l' ih =>
      have h1 := ih fun r' hr' => h r' (List.mem_cons_of_mem _ hr')
      have h2 := h s List.mem_cons_self
      rw [ofRoots_eval_cons, norm_mul, List.length_cons, pow_succ]
      calc ‖a‖ * (‖x - r‖ ^ l'.length * ‖x - r‖) = ‖x - r‖ * (‖a‖ * ‖x - r‖ ^ l'.length) := by ring
        _ ≤ _ := mul_le_mul h2 h1 (by positivity) (norm_nonneg _)
  have := key l hmin q.leadingCoeff
  rw [hlen, ← hq] at this
  exact this

/-- The polynomial `f j + f (j+1) X + … + f n X^(n-j)`. -/
noncomputable def tl (n : ℕ) (f : ℕ → ℂ) (j : ℕ) : ℂ[X] := pl (n + 1 - j) fun i => f (i + j)

theorem tl_zero (n : ℕ) (f : ℕ → ℂ) : tl n f 0 = pl (n + 1) f := rfl

theorem tl_top (n : ℕ) (f : ℕ → ℂ) : tl n f n = C (f n) := by
  unfold tl
  rw [show n + 1 - n = 0 + 1 by omega, Poly.pl_succ, Poly.pl_zero]; simp

theorem tl_step {n j : ℕ} (f : ℕ → ℂ) (h : j < n) : tl n f j = X * tl n f (j + 1) + C (f j) := by
  unfold tl pl
  rw [show n + 1 - j = (n + 1 - (j + 1)) + 1 by omega, Finset.sum_range_succ', Finset.mul_sum]
  congr 1
  · refine Finset.sum_congr rfl fun i _ => ?_
    dsimp only
    rw [show i + 1 + j = i + (j + 1) by omega, pow_succ]; ring
  · simp

/-- The evaluation loop computes the value, the derivative and half the second derivative. -/
theorem lagEval_run {N n : ℕ} (f : ℕ → ℂ) (h : n < N) (x : ℂ) :
    ∃ s, lagEval (tab N f) n x = .ret s ∧ s.p = (pl (n + 1) f).eval x ∧ s.dp = (pl (n + 1) f).derivative.eval x ∧
      s.d2p * 2 = (pl (n + 1) f).derivative.derivative.eval x := by
  unfold lagEval
  rw [index_tab f h, Outcome.bind_ret]
  obtain ⟨s, hs, h1, h2, h3⟩ := forDown_rule
    (fun j (s : Jet) => s.p = (tl n f j).eval x ∧ s.dp = (tl n f j).derivative.eval x ∧
      s.d2p * 2 = (tl n f j).derivative.derivative.eval x) 0 n (Nat.zero_le _) (⟨f n, 0, 0⟩ : Jet) (lagHorner (tab N f) x)
    (by rw [tl_top]; simp)
    (fun j s _ hj hP => by
      obtain ⟨h1, h2, h3⟩ := hP
      refine ⟨_, by unfold lagHorner; rw [index_tab f (by omega), Outcome.bind_ret], ?_⟩
      rw [tl_step f hj]
      simp only [derivative_add, derivative_mul, derivative_X, derivative_C, one_mul, add_zero, eval_add, eval_mul, eval_X, eval_C]
      refine ⟨by rw [h1]; ring, by rw [h1, h2]; ring, ?_⟩
      rw [h2] at *
      linear_combination x * h3)
  exact ⟨s, hs, h1, h2, h3⟩

/-- The quotient the deflation leaves. -/
theorem quotient_eq (n : ℕ) (f : ℕ → ℂ) (x : ℂ) :
    pl (n + 1) f = (X - C x) * pl n (fun i => (tl n f (i + 1)).eval x) + C ((pl (n + 1) f).eval x) := by
  have key : ∀ k ≤ n, pl k f + C ((tl n f k).eval x) * X ^ k =
      (X - C x) * pl k (fun i => (tl n f (i + 1)).eval x) + C ((pl (n + 1) f).eval x) := by
    intro k hk
    induction k with
    | zero => rw [Poly.pl_zero, Poly.pl_zero, tl_zero]; simp
    | succ k ih =>
      have h := ih (by omega)
      have hs := congrArg (eval x) (tl_step f (show k < n by omega))
      simp only [eval_add, eval_mul, eval_X, eval_C] at hs
      rw [hs] at h
      rw [Poly.pl_succ, Poly.pl_succ]
      simp only [C_add, C_mul] at h ⊢
      rw [pow_succ]
      linear_combination h
  have := key n le_rfl
  rw [tl_top] at this
  rw [← this, Poly.pl_succ]
  simp

theorem divByMonic_eq (n : ℕ) (f : ℕ → ℂ) (x : ℂ) :
    pl (n + 1) f /ₘ (X - C x) = pl n (fun i => (tl n f (i + 1)).eval x) := by
  refine (div_modByMonic_unique (r := C ((pl (n + 1) f).eval x)) _ (monic_X_sub_C x) ⟨?_, ?_⟩).1
  · rw [add_comm]; exact (quotient_eq n f x).symm
  · rw [degree_X_sub_C]; exact lt_of_le_of_lt degree_C_le (by norm_num)

/-- The deflation. -/
theorem deflate_run {N n : ℕ} (f : ℕ → ℂ) (h : n < N) (x : ℂ) :
    ∃ g, deflate n x (tab N f) = .ret (tab N g) ∧
      (1 < n → (∀ i < n, g i = (tl n f (i + 1)).eval x)) := by
  unfold deflate
  split_ifs with hn
  · rw [index_tab f h, Outcome.bind_ret]
    obtain ⟨s, hs, hw, hb⟩ := forDown_rule
      (fun j (s : List ℂ × ℂ) => s.1 = tab N (fun i => if j ≤ i ∧ i < n then (tl n f (i + 1)).eval x else f i) ∧
        s.2 = (tl n f j).eval x) 0 n (Nat.zero_le _) (tab N f, f n) (deflateStep x)
      ⟨tab_congr fun i _ => by rw [if_neg (by omega)], by rw [tl_top]; simp⟩
      (fun j s _ hj hP => by
        obtain ⟨h1, h2⟩ := hP
        have hs' := congrArg (eval x) (tl_step f hj)
        simp only [eval_add, eval_mul, eval_X, eval_C] at hs'
        refine ⟨(tab N (fun i => if j ≤ i ∧ i < n then (tl n f (i + 1)).eval x else f i), (tl n f j).eval x), ?_, rfl, rfl⟩
        unfold deflateStep
        rw [h1, index_tab _ (by omega), Outcome.bind_ret, if_neg (by omega), store_tab _ (by omega), Outcome.bind_ret, h2, hs', add_comm (f j)]
        congr 2
        refine tab_congr fun i _ => ?_
        split_ifs with h1 h2 h3 h4 <;> first | rfl | (exfalso; omega) | (subst h1; rfl) | skip)
    rw [hs, Outcome.bind_ret, hw]
    exact ⟨_, rfl, fun _ i hi => by rw [if_pos ⟨by omega, hi⟩]⟩
  · exact ⟨f, rfl, fun h => absurd h hn⟩

theorem pl_natDegree {n : ℕ} {f : ℕ → ℂ} (h : f n ≠ 0) : (pl (n + 1) f).natDegree = n ∧ (pl (n + 1) f).leadingCoeff = f n := by
  have hc : (pl (n + 1) f).coeff n = f n := by rw [Poly.pl_coeff, if_pos (by omega)]
  have hd : (pl (n + 1) f).natDegree = n := by
    refine natDegree_eq_of_le_of_coeff_ne_zero ?_ (by rw [hc]; exact h)
    rw [natDegree_le_iff_coeff_eq_zero]
    intro m hm
    rw [Poly.pl_coeff, if_neg (by omega)]
  exact ⟨hd, by rw [leadingCoeff, hd, hc]⟩

/-- The error a failing search ends with. -/
def lagFails (e : Exn) : Prop := e = .mml "RootFindingError"

theorem lagIterate_run {N n : ℕ} {f : ℕ → ℂ} (h : n < N) (hn : 0 < n) (hf : f n ≠ 0) (tol : ℝ) (fuel : ℕ) (x : ℂ) :
    (lagIterate (tab N f) n tol fuel x).Sat (fun y => CloseTo (pl (n + 1) f) tol y) lagFails := by
  obtain ⟨hdeg, -⟩ := pl_natDegree hf
  induction fuel generalizing x with
  | zero => exact rfl
  | succ fuel ih =>
    obtain ⟨s, hs, hp, hdp, hd2p⟩ := lagEval_run f h x
    rw [lagIterate, hs, Outcome.bind_ret]
    split_ifs with hsmall
    · obtain ⟨z, hz, hle⟩ := root_near_value (q := pl (n + 1) f) (x := x) (by rw [hdeg]; exact hn)
      exact ⟨z, hz, .inr (lt_of_le_of_lt hle (by rw [← hp]; exact hsmall))⟩
    · unfold lagCorrection
      by_cases hc : s.p = 0 ∨ lagDenom n (s.dp / s.p) (s.dp / s.p * (s.dp / s.p) - s.d2p * 2 / s.p) = 0
      · rw [if_pos hc]; exact rfl
      · rw [if_neg hc]
        push Not at hc
        dsimp only
        split_ifs with hdx
        · obtain ⟨z, hz, hle⟩ := root_near (q := pl (n + 1) f) (y := x) (by rw [hdeg]; exact hn) (by rw [← hp]; exact hc.1)
            (csqrt ((n - 1) * (n * (s.dp / s.p * (s.dp / s.p) - s.d2p * 2 / s.p) - s.dp / s.p * (s.dp / s.p))))
            (lagDenom n (s.dp / s.p) (s.dp / s.p * (s.dp / s.p) - s.d2p * 2 / s.p))
            (by rw [csqrt_mul, hp, hdp, hd2p, hdeg])
            (by
              rw [← hp, ← hdp]
              unfold lagDenom
              split_ifs
              · exact .inl rfl
              · exact .inr rfl) hc.2
          rw [hdeg] at hle
          refine ⟨z, hz, .inl ?_⟩
          generalize (n : ℂ) / lagDenom n (s.dp / s.p) (s.dp / s.p * (s.dp / s.p) - s.d2p * 2 / s.p) = dx at *
          rw [hdeg]
          calc ‖x - dx - z‖ = ‖(x - z) - dx‖ := by congr 1; ring
            _ ≤ ‖x - z‖ + ‖dx‖ := norm_sub_le _ _
            _ ≤ (Real.sqrt n + 1) * ‖dx‖ := by linarith
            _ < _ := mul_lt_mul_of_pos_left hdx (by positivity)
        · exact ih _

theorem polish_run {N n : ℕ} {f : ℕ → ℂ} (h : n < N) {tol : ℝ} (htol : 0 ≤ tol) (x : ℂ) (i : ℕ) :
    ∃ y, polish (tab N f) n tol x i = .ret y ∧ NewtonStep (pl (n + 1) f) tol x y := by
  obtain ⟨s, hs, hp, hdp, -⟩ := lagEval_run f h x
  unfold polish
  rw [hs, Outcome.bind_ret]
  split_ifs with h1 h2
  · rw [h2, norm_zero] at h1; exact absurd h1 (not_lt.2 htol)
  · exact ⟨_, rfl, .inl ⟨by rw [← hdp]; exact h1, by rw [← hp, ← hdp]⟩⟩
  · exact ⟨_, rfl, .inr ⟨by rw [← hdp]; exact not_lt.1 h1, rfl⟩⟩

theorem polish3_run {N n : ℕ} {f : ℕ → ℂ} (h : n < N) {tol : ℝ} (htol : 0 ≤ tol) (x : ℂ) :
    ∃ y z r, forRange 3 x (polish (tab N f) n tol) = .ret r ∧ NewtonStep (pl (n + 1) f) tol x y ∧
      NewtonStep (pl (n + 1) f) tol y z ∧ NewtonStep (pl (n + 1) f) tol z r := by
  obtain ⟨y, hy, h1⟩ := polish_run h htol (f := f) x 0
  obtain ⟨z, hz, h2⟩ := polish_run h htol (f := f) y 1
  obtain ⟨r, hr, h3⟩ := polish_run h htol (f := f) z 2
  refine ⟨y, z, r, ?_, h1, h2, h3⟩
  simp only [forRange, Outcome.bind_ret, hy, hz, hr]

end Verif.Roots
