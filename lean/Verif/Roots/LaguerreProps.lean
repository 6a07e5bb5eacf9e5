import Verif.Roots.LaguerreLemmas

/-! # C96: Laguerre's method -/

set_option autoImplicit false

namespace Verif.Roots

open Polynomial Outcome
open Verif.Poly (pl)

/-- What the loop of `LaguerreRoots` keeps: the roots so far are found for `p`, and the rest are to be found for the polynomial in
`workCoeffs`. -/
def LagInv (p : ℂ[X]) (tol : ℝ) (N j : ℕ) (s : List ℂ × List ℂ) : Prop :=
  ∃ q, (∀ rest, Found tol q rest → Found tol p (s.2 ++ rest)) ∧
    (2 ≤ j → ∃ f, s.1 = tab N f ∧ q = pl j f ∧ f (j - 1) ≠ 0) ∧ (j = 1 → ∃ a, q = C a) ∧ s.2.length + j = N

theorem lagRoot_run {p : ℂ[X]} {tol : ℝ} (htol : 0 ≤ tol) {N j : ℕ} (h1 : 1 ≤ j) (hj : j < N) (maxIter : ℕ) {s : List ℂ × List ℂ}
    (hs : LagInv p tol N (j + 1) s) : (lagRoot tol maxIter s j).Sat (LagInv p tol N j) lagFails := by
  obtain ⟨q, hq, hw, -, hl⟩ := hs
  obtain ⟨f, hf, rfl, hne⟩ := hw (by omega)
  rw [Nat.add_sub_cancel] at hne
  unfold lagRoot
  rw [hf]
  refine Sat.bind (lagIterate_run hj h1 hne tol maxIter _) fun x hx => ?_
  obtain ⟨y, z, r, hr, n1, n2, n3⟩ := polish3_run hj htol (f := f) x
  rw [hr, Outcome.bind_ret]
  obtain ⟨g, hg, hgv⟩ := deflate_run f hj r
  rw [hg, Outcome.bind_ret]
  refine ⟨pl (j + 1) f /ₘ (X - C r), ?_, ?_, ?_, ?_⟩
  · intro rest hrest
    rw [List.append_assoc]
    exact hq _ (.cons _ _ _ _ _ _ hx n1 n2 n3 hrest)
  · intro h2
    refine ⟨g, rfl, ?_, ?_⟩
    · rw [divByMonic_eq]
      exact Finset.sum_congr rfl fun i hi => by rw [hgv (by omega) i (Finset.mem_range.1 hi)]
    · rw [hgv (by omega) (j - 1) (by omega), Nat.sub_add_cancel h1, tl_top]
      simpa using hne
  · rintro rfl
    rw [divByMonic_eq]
    exact ⟨(tl 1 f 1).eval r, by rw [Poly.pl_succ, Poly.pl_zero]; simp⟩
  · simp only [List.length_append, List.length_singleton]; omega

/-- C96.  `LaguerreRoots` of a polynomial with a leading coefficient that is not zero, with a positive tolerance, throws or gives as
many numbers as the degree.  Each is three steps of Newton's method from a point close to a root of what is left of the polynomial, and
the next ones are found for the quotient by its linear factor.  Missing: that the last steps and the deflation keep the numbers close
to roots of the given polynomial, which is false (`laguerre_small`). -/
theorem laguerre_partial (poly : List ℝ) (n : ℕ) (hn : poly.length = n + 1) (hlead : ∀ c ∈ poly.getLast?, c ≠ 0) (tol : ℝ)
    (htol : 0 < tol) (maxIter : ℤ) :
    laguerreRoots poly tol maxIter = .exn (.mml "RootFindingError") ∨
      ∃ roots, laguerreRoots poly tol maxIter = .ret roots ∧ roots.length = n ∧
        Found tol (∑ i ∈ Finset.range (n + 1), C ((poly.getD i 0 : ℝ) : ℂ) * X ^ i) roots := by
  set f : ℕ → ℂ := fun i => ((poly.getD i 0 : ℝ) : ℂ) with hf
  have hmain : (laguerreRoots poly tol maxIter).Sat (fun roots => roots.length = n ∧ Found tol (pl (n + 1) f) roots) lagFails := by
    unfold laguerreRoots
    split_ifs with h
    · have : n = 0 := by omega
      subst this
      refine ⟨rfl, ?_⟩
      rw [Poly.pl_succ, Poly.pl_zero, pow_zero, mul_one, zero_add]
      exact .nil _
    · have hpoly : poly.map Complex.ofReal = tab (n + 1) f := by
        refine List.ext_getElem? fun i => ?_
        rw [List.getElem?_map, getElem?_tab]
        by_cases hi : i < n + 1
        · rw [if_pos hi, List.getElem?_eq_getElem (by omega), Option.map_some, hf]
          simp [List.getD, List.getElem?_eq_getElem (show i < poly.length by omega)]
        · rw [if_neg hi, List.getElem?_eq_none (by omega)]; rfl
      have hne : f n ≠ 0 := by
        have : poly.getLast? = some (poly.getD n 0) := by
          rw [List.getLast?_eq_getElem?, hn, Nat.add_sub_cancel, List.getD, List.getElem?_eq_getElem (by omega)]; rfl
        exact Complex.ofReal_ne_zero.2 (hlead _ (by rw [this]; exact rfl))
      refine Sat.bind (forDown_sat (LagInv (pl (n + 1) f) tol (n + 1)) lagFails 1 poly.length (by omega) _ _ ?_ ?_) ?_
      · rw [hn]
        exact ⟨_, fun _ h => h, fun _ => ⟨f, hpoly, rfl, hne⟩, fun h => absurd h (by omega), by simp⟩
      · intro j s h1 hj hs
        exact lagRoot_run htol.le h1 (by omega) _ hs
      · rintro s ⟨q, hq, -, hc, hl⟩
        obtain ⟨a, rfl⟩ := hc rfl
        refine ⟨by omega, ?_⟩
        simpa using hq [] (.nil a)
  obtain ⟨hub, hexn, hret⟩ := sat_iff.1 hmain
  cases hres : laguerreRoots poly tol maxIter with
  | ret roots => exact .inr ⟨roots, rfl, hret _ hres⟩
  | exn e => rw [hexn _ hres]; exact .inl rfl
  | ub => exact absurd hres hub

example : ([-6, 11, -6, 1] : List ℝ).length = 3 + 1 ∧ (∀ c ∈ ([-6, 11, -6, 1] : List ℝ).getLast?, c ≠ 0) ∧
    (0 : ℝ) < 1 / 10 ^ 10 := by norm_num

/-- C96, linear polynomials: the root is exact when the leading coefficient is above the tolerance. -/
theorem laguerre_linear (a b tol : ℝ) (htol : 0 < tol) (ha : tol < |a|) (maxIter : ℤ) (hm : 2 ≤ maxIter) :
    laguerreRoots [b, a] tol maxIter = .ret [((-b / a : ℝ) : ℂ)] := by
  have ha0 : a ≠ 0 := by rintro rfl; simp at ha; linarith
  have haC : (a : ℂ) ≠ 0 := Complex.ofReal_ne_zero.2 ha0
  obtain ⟨k, hk⟩ : ∃ k, maxIter.toNat = k + 2 := ⟨maxIter.toNat - 2, by omega⟩
  have heval : ∀ x : ℂ, lagEval [(b : ℂ), a] 1 x = .ret ⟨a * x + b, a, 0⟩ := by
    intro x; simp [lagEval, forDown, forRange, lagHorner, index]
  have hroot : ∀ x : ℂ, x - (a * x + b) / a = ((-b / a : ℝ) : ℂ) := by
    intro x; push_cast; field_simp; ring
  have hval : (a : ℂ) * ((-b / a : ℝ) : ℂ) + b = 0 := by push_cast; field_simp; ring
  have hit : ∀ x, ∃ y, lagIterate [(b : ℂ), a] 1 tol (k + 2) x = .ret y := by
    intro x
    rw [lagIterate, heval, Outcome.bind_ret]
    split_ifs with h
    · exact ⟨_, rfl⟩
    · have hp : (a : ℂ) * x + b ≠ 0 := by intro h0; rw [h0, norm_zero] at h; exact h htol
      have hd : lagDenom 1 (a / (a * x + b)) (a / (a * x + b) * (a / (a * x + b)) - 0 * 2 / (a * x + b)) = a / (a * x + b) := by
        have h0 : csqrt 0 = 0 := by
          have := csqrt_mul 0
          simpa using this
        unfold lagDenom
        simp [h0]
      have hc : lagCorrection 1 ⟨a * x + b, a, 0⟩ = some ((a * x + b) / a) := by
        unfold lagCorrection
        dsimp only
        rw [hd, if_neg (by
          push Not
          exact ⟨hp, div_ne_zero haC hp⟩)]
        simp
      rw [hc]
      dsimp only
      split_ifs with h2
      · exact ⟨_, rfl⟩
      · rw [hroot, lagIterate, heval, Outcome.bind_ret, hval]
        simp [htol]
  have hpol : ∀ x i, polish [(b : ℂ), a] 1 tol x i = .ret ((-b / a : ℝ) : ℂ) := by
    intro x i
    rw [polish, heval, Outcome.bind_ret]
    dsimp only
    rw [if_pos (by simpa using ha), if_neg haC, hroot]
  obtain ⟨y, hy⟩ := hit ⟨1 / 2, 1 / 2⟩
  unfold laguerreRoots
  simp only [List.map, List.length_cons, List.length_nil, forDown, lagRoot, hk, hy, forRange, hpol, deflate, Outcome.bind_ret]
  simp

example : (0 : ℝ) < 1 / 10 ^ 10 ∧ 1 / 10 ^ 10 < |(2 : ℝ)| ∧ (2 : ℤ) ≤ 100 := by norm_num

/-- C96, where it fails: a polynomial with small coefficients is taken to be zero at the starting point `(1 + i) / 2`, which is given
as its root. -/
theorem laguerre_small (a b tol : ℝ) (ha : |a| ≤ tol) (hp : ‖(a : ℂ) * ⟨1 / 2, 1 / 2⟩ + b‖ < tol) (maxIter : ℤ)
    (hm : 1 ≤ maxIter) : laguerreRoots [b, a] tol maxIter = .ret [⟨1 / 2, 1 / 2⟩] := by
  obtain ⟨k, hk⟩ : ∃ k, maxIter.toNat = k + 1 := ⟨maxIter.toNat - 1, by omega⟩
  have heval : ∀ x : ℂ, lagEval [(b : ℂ), a] 1 x = .ret ⟨a * x + b, a, 0⟩ := by
    intro x; simp [lagEval, forDown, forRange, lagHorner, index]
  have hy : lagIterate [(b : ℂ), a] 1 tol (k + 1) ⟨1 / 2, 1 / 2⟩ = .ret ⟨1 / 2, 1 / 2⟩ := by
    rw [lagIterate, heval, Outcome.bind_ret, if_pos hp]
  have hpol : ∀ x i, polish [(b : ℂ), a] 1 tol x i = .ret x := by
    intro x i
    rw [polish, heval, Outcome.bind_ret]
    dsimp only
    rw [if_neg (by simpa using ha)]
  unfold laguerreRoots
  simp only [List.map, List.length_cons, List.length_nil, forDown, lagRoot, hk, hy, forRange, hpol, deflate, Outcome.bind_ret]
  simp

/-- `10^-12 x` with the default tolerance `10^-10`: the root is zero, the result `(1 + i) / 2`. -/
example : laguerreRoots [0, 1 / 10 ^ 12] (1 / 10 ^ 10) 100 = .ret [⟨1 / 2, 1 / 2⟩] := by
  refine laguerre_small _ _ _ (by norm_num [abs_of_pos]) ?_ _ (by norm_num)
  refine lt_of_le_of_lt (Complex.norm_le_abs_re_add_abs_im _) ?_
  norm_num [abs_of_pos]

end Verif.Roots
