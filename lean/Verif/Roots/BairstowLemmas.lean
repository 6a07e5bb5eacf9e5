import Verif.Roots.BairstowSpec
import Verif.Roots.LaguerreModel
import Verif.Poly.Lemmas
import Verif.Hoare

/-! # Helper lemmas for Bairstow's method -/

set_option autoImplicit false

namespace Verif.Roots

open Polynomial Outcome
open Verif.Poly (pl)

/-- What the synthetic division leaves in `b`. -/
structure IsQuot (n : ℕ) (f : ℕ → ℝ) (u v : ℝ) (g : ℕ → ℝ) : Prop where
  top : g n = 0
  top' : g (n - 1) = 0
  eqn : ∀ i < n - 1, g i = f (i + 2) - u * g (i + 1) - v * g (i + 2)

theorem synth_run {N n : ℕ} (f : ℕ → ℝ) (hn : 2 ≤ n) (hN : n < N) (u v : ℝ) (b : ℕ → ℝ) :
    ∃ g, IsQuot n f u v g ∧ synth (tab N f) n u v (tab (n + 1) b) =
      .ret (tab (n + 1) g, f 1 - u * g 0 - v * g 1, f 0 - v * g 0) := by
  unfold synth
  rw [store_tab _ (by omega), Outcome.bind_ret, store_tab _ (by omega), Outcome.bind_ret]
  obtain ⟨s, hs, g, rfl, h1, h2, h3⟩ := forDown_rule
    (fun j (s : List ℝ) => ∃ g, s = tab (n + 1) g ∧ g n = 0 ∧ g (n - 1) = 0 ∧
      ∀ i, j ≤ i → i < n - 1 → g i = f (i + 2) - u * g (i + 1) - v * g (i + 2)) 0 (n - 1) (Nat.zero_le _)
    (tab (n + 1) (fun i => if i = n - 1 then 0 else if i = n then 0 else b i)) (synthStep (tab N f) u v)
    ⟨_, rfl, by simp, by simp, fun i h1 h2 => absurd h1 (by omega)⟩
    (fun j s _ hj hP => by
      obtain ⟨g, rfl, h1, h2, h3⟩ := hP
      refine ⟨tab (n + 1) (fun i => if i = j then f (j + 2) - u * g (j + 1) - v * g (j + 2) else g i), ?_, _, rfl, ?_, ?_, ?_⟩
      · unfold synthStep
        rw [index_tab _ (by omega), Outcome.bind_ret, index_tab _ (by omega), Outcome.bind_ret, index_tab _ (by omega),
          Outcome.bind_ret, store_tab _ (by omega)]
      · rw [if_neg (by omega), h1]
      · rw [if_neg (by omega), h2]
      · intro i h4 h5
        rw [if_neg (by omega : i + 1 ≠ j), if_neg (by omega : i + 2 ≠ j)]
        split_ifs with h
        · rw [h]
        · exact h3 i (by omega) h5)
  rw [hs, Outcome.bind_ret, index_tab _ (by omega), Outcome.bind_ret, index_tab _ (by omega), Outcome.bind_ret,
    index_tab _ (by omega), Outcome.bind_ret, index_tab _ (by omega), Outcome.bind_ret]
  exact ⟨g, ⟨h1, h2, fun i hi => h3 i (Nat.zero_le _) hi⟩, rfl⟩

/-- The division with remainder. -/
theorem synth_identity {n : ℕ} {f g : ℕ → ℝ} {u v : ℝ} (hn : 2 ≤ n) (h : IsQuot n f u v g) :
    pl (n + 1) f = quad u v * pl (n - 1) g + lin (f 1 - u * g 0 - v * g 1) (f 0 - v * g 0) := by
  ext k
  unfold quad lin
  rw [add_mul, add_mul, mul_assoc (C u)]
  simp only [coeff_add, coeff_C_mul, coeff_X_pow_mul']
  rcases k with _ | _ | k
  · simp [Poly.pl_coeff, show 1 < n by omega]
  · simp only [Poly.pl_coeff, coeff_X_mul, zero_add, coeff_X_one, coeff_C]
    have h1 : (if 1 < n - 1 then g 1 else 0) = g 1 := by
      split_ifs with h1
      · rfl
      · rw [← h.top', show n - 1 = 1 by omega]
    rw [h1, if_pos (by omega), if_neg (by omega), if_pos (by omega)]
    simp
  · simp only [Poly.pl_coeff, coeff_X_mul, coeff_X, coeff_C]
    rw [if_pos (show 2 ≤ k + 1 + 1 by omega), show k + 1 + 1 - 2 = k by omega, if_neg (by omega : ¬ 1 = k + 1 + 1), if_neg (by omega : ¬ k + 1 + 1 = 0)]
    by_cases hk : k < n - 1
    · have h1 : (if k + 1 < n - 1 then g (k + 1) else 0) = g (k + 1) := by
        split_ifs with h1
        · rfl
        · rw [← h.top', show n - 1 = k + 1 by omega]
      have h2 : (if k + 1 + 1 < n - 1 then g (k + 1 + 1) else 0) = g (k + 2) := by
        split_ifs with h1
        · rfl
        · rcases (by omega : k + 2 = n - 1 ∨ k + 2 = n) with h' | h'
          · rw [h', h.top']
          · rw [h', h.top]
      rw [h1, h2, if_pos (show k + 1 + 1 < n + 1 by omega), if_pos hk, h.eqn k hk]
      ring
    · rw [if_neg (show ¬ k + 1 + 1 < n + 1 by omega), if_neg hk, if_neg (by omega), if_neg (by omega)]
      ring

/-- The step of the method is that of Newton. -/
theorem newton_step {n : ℕ} {f g k : ℕ → ℝ} {u v c d : ℝ} (hn : 2 ≤ n) (hk : IsQuot n g u v k) (hg : IsQuot n f u v g)
    (hdet : bairstowDet u v (g 1 - u * k 0 - v * k 1) (g 0 - v * k 0) ≠ 0) :
    NewtonFactor (pl (n - 1) g) (lin c d) u v (bairstowDu u v c d (g 1 - u * k 0 - v * k 1) (g 0 - v * k 0))
      (bairstowDv u v c d (g 1 - u * k 0 - v * k 1) (g 0 - v * k 0)) := by
  have hid := synth_identity hn hk
  have hpl : pl (n + 1) g = pl (n - 1) g := Poly.pl_extend (by omega) g fun i h1 h2 => by
    rcases (by omega : i = n - 1 ∨ i = n) with rfl | rfl
    · exact hg.top'
    · exact hg.top
  rw [hpl] at hid
  generalize g 1 - u * k 0 - v * k 1 = G at *
  generalize g 0 - v * k 0 = H at *
  have e1 : bairstowDu u v c d G H * H + bairstowDv u v c d G H * G + c = u * (bairstowDu u v c d G H * G) := by
    unfold bairstowDu bairstowDv
    have : bairstowDet u v G H = v * G * G + H * (H - u * G) := rfl
    field_simp
    rw [this]; ring
  have e2 : bairstowDv u v c d G H * H + d = v * (bairstowDu u v c d G H * G) := by
    unfold bairstowDu bairstowDv
    have : bairstowDet u v G H = v * G * G + H * (H - u * G) := rfl
    field_simp
    rw [this]; ring
  generalize bairstowDu u v c d G H = du at *
  generalize bairstowDv u v c d G H = dv at *
  refine ⟨lin du dv * pl (n - 1) k + C (du * G), ?_⟩
  have e1' := congrArg (C : ℝ → ℝ[X]) e1
  have e2' := congrArg (C : ℝ → ℝ[X]) e2
  rw [hid]
  unfold lin quad
  simp only [C_add, C_mul, C_sub] at e1' e2' ⊢
  linear_combination X * e1' + e2'

theorem factorRoots_eq (u v : ℝ) : ∃ r₁ r₂, factorRoots u v = [r₁, r₂] ∧
    (quad u v).map Complex.ofRealHom = (X - C r₁) * (X - C r₂) := by
  have key : ∀ r₁ r₂ : ℂ, r₁ + r₂ = -(u : ℂ) → r₁ * r₂ = (v : ℂ) →
      (quad u v).map Complex.ofRealHom = (X - C r₁) * (X - C r₂) := by
    intro r₁ r₂ h1 h2
    have h1' := congrArg (C : ℂ → ℂ[X]) h1
    have h2' := congrArg (C : ℂ → ℂ[X]) h2
    simp only [C_add, C_neg, C_mul] at h1' h2'
    unfold quad
    simp only [Polynomial.map_add, Polynomial.map_mul, Polynomial.map_pow, map_X, map_C, Complex.ofRealHom_eq_coe]
    linear_combination X * h1' - h2'
  unfold factorRoots
  split_ifs with h
  · have hs := Real.mul_self_sqrt h
    refine ⟨_, _, rfl, key _ _ ?_ ?_⟩
    · apply Complex.ext <;> simp; ring
    · apply Complex.ext <;> simp
      linarith
  · have hs := Real.mul_self_sqrt (show 0 ≤ 4 * v - u * u by linarith)
    rw [show -(u * u - 4 * v) = 4 * v - u * u by ring]
    refine ⟨_, _, rfl, key _ _ ?_ ?_⟩
    · apply Complex.ext <;> simp; ring
    · apply Complex.ext <;> simp
      · linarith
      · ring

/-- The error of a search that does not converge. -/
def bairstowFails (e : Exn) : Prop := e = .mml "runtime_error"

/-- The next two numbers and the quotient. -/
def NextFactor (tol : ℝ) (n : ℕ) (f : ℕ → ℝ) (r : ℝ × ℝ × List ℝ) : Prop :=
  ∃ g, r.2.2 = tab (n + 1) g ∧ g (n - 2) = f n ∧
    ∀ rest, Factored tol (pl (n - 1) g) rest → Factored tol (pl (n + 1) f) (factorRoots r.1 r.2.1 ++ rest)

theorem IsQuot.lead {n : ℕ} {f g : ℕ → ℝ} {u v : ℝ} (hn : 2 ≤ n) (h : IsQuot n f u v g) : g (n - 2) = f n := by
  have := h.eqn (n - 2) (by omega)
  rw [show n - 2 + 1 = n - 1 by omega, show n - 2 + 2 = n by omega, h.top, h.top'] at this
  linarith

theorem bairstowIterate_run {N n : ℕ} (f : ℕ → ℝ) (hn : 2 ≤ n) (hN : n < N) (tol : ℝ) (fuel : ℕ) (u v : ℝ) (b k : ℕ → ℝ) :
    (bairstowIterate (tab N f) n tol fuel u v (tab (n + 1) b) (tab (n + 1) k)).Sat (NextFactor tol n f) bairstowFails := by
  induction fuel generalizing u v b k with
  | zero => exact rfl
  | succ fuel ih =>
    obtain ⟨g, hg, hs⟩ := synth_run f hn hN u v b
    rw [bairstowIterate, hs, Outcome.bind_ret]
    dsimp only
    split_ifs with hc
    · refine ⟨g, rfl, hg.lead hn, fun rest hrest => ?_⟩
      obtain ⟨r₁, r₂, hr, hq⟩ := factorRoots_eq u v
      rw [synth_identity hn hg]
      dsimp only
      rw [hr]
      exact .small _ _ _ _ _ _ _ _ hc.1 hc.2 hq hrest
    · obtain ⟨k', hk, hs'⟩ := synth_run g hn (Nat.lt_succ_self n) u v k
      rw [hs', Outcome.bind_ret]
      dsimp only
      split_ifs with hd ht
      · exact ih _ _ _ _
      · have hdet : bairstowDet u v (g 1 - u * k' 0 - v * k' 1) (g 0 - v * k' 0) ≠ 0 := by
          intro h0; rw [h0, abs_zero] at hd; exact hd (by unfold detThreshold; positivity)
        refine ⟨g, rfl, hg.lead hn, fun rest hrest => ?_⟩
        dsimp only
        obtain ⟨r₁, r₂, hr, hq⟩ := factorRoots_eq
          (u - bairstowDu u v (f 1 - u * g 0 - v * g 1) (f 0 - v * g 0) (g 1 - u * k' 0 - v * k' 1) (g 0 - v * k' 0))
          (v - bairstowDv u v (f 1 - u * g 0 - v * g 1) (f 0 - v * g 0) (g 1 - u * k' 0 - v * k' 1) (g 0 - v * k' 0))
        rw [hr, synth_identity hn hg]
        exact .step _ _ _ _ _ _ _ _ _ _ (newton_step hn hk hg hdet) ht.1 ht.2 hq hrest
      · exact ih _ _ _ _

/-- What the loop gives: all roots are found, or all but the last, that of a linear factor with a coefficient at most `10^-12`. -/
def LoopResult (tol : ℝ) (n : ℕ) (f : ℕ → ℝ) (roots : List ℂ) : Prop :=
  if n % 2 = 0 ∨ coeffThreshold < |f n| then roots.length = n ∧ Factored tol (pl (n + 1) f) roots
  else roots.length + 1 = n ∧ ∃ r, Factored tol (pl (n + 1) f) (roots ++ [r])

theorem bairstowLoop_run (init : List ℂ) (tol : ℝ) (maxIter : ℕ) (n : ℕ) : ∀ (N : ℕ) (whole : Bool) (f : ℕ → ℝ), n < N → f n ≠ 0 →
    (bairstowLoop init tol maxIter n whole (tab N f)).Sat (LoopResult tol n f) bairstowFails := by
  induction n using Nat.strong_induction_on with
  | _ n ih =>
    intro N whole f hN hne
    rcases n with _ | _ | n
    · rw [bairstowLoop, lastRoot, if_neg (by omega)]
      · show LoopResult _ _ _ _
        rw [LoopResult, if_pos (by left; rfl)]
        refine ⟨rfl, ?_⟩
        rw [Poly.pl_succ, Poly.pl_zero, pow_zero, mul_one, zero_add]
        exact .nil _
      · intro n' h; omega
    · rw [bairstowLoop, lastRoot, if_pos rfl, index_tab _ (by omega), Outcome.bind_ret, index_tab _ (by omega), Outcome.bind_ret]
      · have hf : Factored tol (pl (0 + 1 + 1) f) [((-f 0 / f 1 : ℝ) : ℂ)] := by
          have : pl (0 + 1 + 1) f = lin (f 1) (f 0) := by
            rw [Poly.pl_succ, Poly.pl_succ, Poly.pl_zero]; unfold lin; simp; ring
          rw [this]
          exact .linear _ _ hne
        split_ifs with h
        · show LoopResult _ _ _ _
          rw [LoopResult, if_pos (by right; exact h)]
          exact ⟨rfl, hf⟩
        · show LoopResult _ _ _ _
          rw [LoopResult, if_neg (by push Not; exact ⟨by omega, not_lt.1 h⟩)]
          exact ⟨rfl, _, hf⟩
      · intro n' h; omega
    · rw [bairstowLoop]
      rw [replicate_eq_tab]
      refine Sat.bind (bairstowIterate_run f (by omega) hN tol maxIter _ _ _ _) fun r hr => ?_
      obtain ⟨g, hg, hlead, hfac⟩ := hr
      rw [show n + 1 + 1 - 2 = n by omega] at hlead
      rw [show n + 1 + 1 - 1 = n + 1 by omega] at hfac
      obtain ⟨a', ha'⟩ : ∃ a', (if n > 0 then r.2.2.take (n + 1) else tab N f) = a' := ⟨_, rfl⟩
      have hsat : (bairstowLoop init tol maxIter n false (if n > 0 then r.2.2.take (n + 1) else tab N f)).Sat
          (LoopResult tol n g) bairstowFails := by
        split_ifs with h
        · have : r.2.2.take (n + 1) = tab (n + 1) g := by
            rw [hg]
            refine List.ext_getElem? fun i => ?_
            rw [List.getElem?_take, getElem?_tab, getElem?_tab]
            split_ifs <;> first | rfl | omega
          rw [this]
          exact ih n (by omega) _ _ _ (by omega) (by rw [hlead]; exact hne)
        · obtain rfl : n = 0 := by omega
          rw [bairstowLoop, lastRoot, if_neg (by omega)]
          · show LoopResult _ _ _ _
            rw [LoopResult, if_pos (by left; rfl)]
            refine ⟨rfl, ?_⟩
            rw [Poly.pl_succ, Poly.pl_zero, pow_zero, mul_one, zero_add]
            exact .nil _
          · intro n' h; omega
      refine Sat.bind hsat fun rest hrest => ?_
      obtain ⟨r₁, r₂, h12, -⟩ := factorRoots_eq r.1 r.2.1
      show LoopResult _ _ _ _
      unfold LoopResult at hrest ⊢
      rw [hlead] at hrest
      rw [show (n + 1 + 1) % 2 = n % 2 by omega]
      split_ifs at hrest ⊢ with h
      · refine ⟨?_, hfac _ hrest.2⟩
        rw [List.length_append, h12, hrest.1]; simp; omega
      · refine ⟨?_, ?_⟩
        · rw [List.length_append, h12]; simp; omega
        · obtain ⟨-, r', hr'⟩ := hrest
          exact ⟨r', by rw [List.append_assoc]; exact hfac _ hr'⟩

end Verif.Roots
