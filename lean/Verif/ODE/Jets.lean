import Verif.ODE.Trees
import Mathlib.Analysis.Asymptotics.Lemmas
import Mathlib.Analysis.Calculus.TaylorIntegral
import Mathlib.Analysis.Normed.Module.Multilinear.Basic

/-!
# Taylor expansion of a composition, with uniform remainders

Internal machinery.  `X` is a type of configurations (base point and step), `l` a filter on it, and
all estimates are `=O[l]` with a bounded step `h`, so that a principal filter gives constants that do
not depend on the configuration.
-/

set_option autoImplicit false

namespace Verif.ODE

open Asymptotics

section

variable {X G E : Type*} [NormedAddCommGroup G] [NormedSpace ℝ G] [NormedAddCommGroup E]
  [NormedSpace ℝ E] {l : Filter X} {h : X → ℝ}

theorem pow_isBigO_pow (hh : h =O[l] (fun _ => (1 : ℝ))) {a b : ℕ} (hab : b ≤ a) :
    (fun x => h x ^ a) =O[l] (fun x => h x ^ b) := by
  obtain ⟨d, rfl⟩ := Nat.exists_eq_add_of_le hab
  have h1 : (fun x => h x ^ d) =O[l] (fun _ => (1 : ℝ)) := by
    simpa using hh.pow d
  have := (isBigO_refl (fun x => h x ^ b) l).mul h1
  simpa [pow_add] using this

theorem smul_pow_isBigO {g : X → E} {b a c : ℕ} (hg : g =O[l] (fun x => h x ^ b))
    (hc : c = a + b) : (fun x => h x ^ a • g x) =O[l] (fun x => h x ^ c) := by
  subst hc
  have := (isBigO_refl (fun x => h x ^ a) l).smul hg
  simpa [pow_add] using this

theorem isBigO_sum {ι : Type*} (S : Finset ι) {g : ι → X → E} {f : X → ℝ}
    (hg : ∀ i ∈ S, g i =O[l] f) : (fun x => ∑ i ∈ S, g i x) =O[l] f :=
  (IsBigO.sum hg).congr_left fun x => Finset.sum_apply x S g

/-- The size of a Taylor coefficient of `F` applied to small arguments. -/
theorem Dn_isBigO (F : G → E) (z : X → G) (m : ℕ) (w : ℕ → X → G) (d : ℕ → ℕ)
    (hD : (fun x => iteratedFDeriv ℝ m F (z x)) =O[l] (fun _ => (1 : ℝ)))
    (hw : ∀ i < m, w i =O[l] (fun x => h x ^ d i)) :
    (fun x => Dn F (z x) m (fun i => w i x)) =O[l]
      (fun x => h x ^ (∑ i ∈ Finset.range m, d i)) := by
  have h1 : (fun x => Dn F (z x) m (fun i => w i x)) =O[l]
      (fun x => ‖iteratedFDeriv ℝ m F (z x)‖ * ∏ i : Fin m, ‖w i x‖) := by
    refine IsBigO.of_bound ‖((m.factorial : ℕ) : ℝ)⁻¹‖ (Filter.Eventually.of_forall fun x => ?_)
    unfold Dn
    rw [norm_smul]
    refine mul_le_mul_of_nonneg_left ?_ (norm_nonneg _)
    rw [Real.norm_of_nonneg (by positivity)]
    exact ContinuousMultilinearMap.le_opNorm _ _
  refine h1.trans ?_
  have h2 : (fun x => ∏ i : Fin m, ‖w i x‖) =O[l] (fun x => ∏ i : Fin m, h x ^ d i) := by
    refine IsBigO.finsetProd fun i _ => (hw i i.2).norm_left
  have h3 := hD.norm_left.mul h2
  refine h3.congr_right fun x => ?_
  rw [one_mul, Finset.prod_pow_eq_pow_sum, Finset.sum_range]

theorem update_fun (w : ℕ → X → G) (m : ℕ) (u : X → G) (x : X) :
    (fun i => Function.update w m u i x) = Function.update (fun i => w i x) m (u x) := by
  funext i
  by_cases hi : i = m
  · subst hi; simp
  · rw [Function.update_of_ne hi, Function.update_of_ne hi]

theorem coef_isBigO (F : G → E) (z : X → G) (v : ℕ → X → G) {P : ℕ}
    (hD : ∀ j ≤ P, (fun x => iteratedFDeriv ℝ j F (z x)) =O[l] (fun _ => (1 : ℝ)))
    (hv : ∀ k ≤ P, v k =O[l] (fun _ => (1 : ℝ))) : ∀ (N m : ℕ) (w : ℕ → X → G), m + N ≤ P →
      (∀ i < m, w i =O[l] (fun _ => (1 : ℝ))) →
      (fun x => coef F (z x) (fun k => v k x) N m (fun i => w i x)) =O[l] (fun _ => (1 : ℝ)) := by
  intro N
  induction N using Nat.strong_induction_on with
  | _ N ih =>
    intro m w hP hw
    cases N with
    | zero =>
      simp only [coef_zero]
      have := Dn_isBigO (l := l) (h := fun _ => (1 : ℝ)) F z m w (fun _ => 0) (hD m (by omega))
        (fun i hi => by simpa using hw i hi)
      simpa using this
    | succ N =>
      simp only [coef_succ]
      refine isBigO_sum _ fun k hk => ?_
      have hk' := Finset.mem_range.mp hk
      have := ih (N - k) (by omega) (m + 1) (Function.update w m (v (k + 1))) (by omega) ?_
      · simpa only [update_fun] using this
      · intro i hi
        by_cases him : i = m
        · subst him; rw [Function.update_self]; exact hv _ (by omega)
        · rw [Function.update_of_ne him]; exact hw i (by omega)

/-- `w` up to `m`, then `V` for ever. -/
def ext (m : ℕ) (w : ℕ → X → G) (V : X → G) : ℕ → X → G := fun i => if i < m then w i else V

theorem ext_update (m : ℕ) (w : ℕ → X → G) (V : X → G) (q : ℕ) (F : G → E) (z : G) (x : X) :
    Dn F z (m + (q + 1)) (fun i => ext m w V i x)
      = Dn F z (m + 1 + q) (Function.update (fun i => ext m w V i x) m (V x)) := by
  rw [show m + (q + 1) = m + 1 + q by omega]
  refine Dn_congr F z _ fun i hi => ?_
  by_cases him : i = m
  · subst him; simp [ext]
  · rw [Function.update_of_ne him]

theorem ext_update' (m : ℕ) (w : ℕ → X → G) (V u : X → G) (x : X) :
    (fun i => ext (m + 1) (Function.update w m u) V i x)
      = Function.update (fun i => ext m w V i x) m (u x) := by
  funext i
  by_cases him : i = m
  · subst him; simp [ext]
  · rw [Function.update_of_ne him]
    unfold ext
    by_cases h1 : i < m
    · rw [if_pos h1, if_pos (by omega), Function.update_of_ne him]
    · rw [if_neg h1, if_neg (by omega)]

theorem Dn_update_sum {ι : Type*} (S : Finset ι) (F : G → E) (z : G) (M : ℕ) (w : ℕ → G) {j : ℕ}
    (hj : j < M) (r : ι → ℝ) (u : ι → G) :
    Dn F z M (Function.update w j (∑ i ∈ S, r i • u i))
      = ∑ i ∈ S, r i • Dn F z M (Function.update w j (u i)) := by
  classical
  induction S using Finset.induction_on with
  | empty =>
    simp only [Finset.sum_empty]
    have := Dn_update_smul F z M w hj 0 0
    rwa [zero_smul, zero_smul] at this
  | insert i S hi ih =>
    rw [Finset.sum_insert hi, Finset.sum_insert hi, Dn_update_add F z M w hj,
      Dn_update_smul F z M w hj, ih]

/-- Expansion of `∑ q, Dn (m + q) (w, V, …, V)`. -/
theorem jet_comp (F : G → E) (z : X → G) (V : X → G) (v : ℕ → X → G) {P : ℕ}
    (hh : h =O[l] (fun _ => (1 : ℝ)))
    (hD : ∀ j ≤ P, (fun x => iteratedFDeriv ℝ j F (z x)) =O[l] (fun _ => (1 : ℝ)))
    (hv : ∀ k ≤ P, v k =O[l] (fun _ => (1 : ℝ)))
    (hV : ∀ n ≤ P, (fun x => V x - ∑ k ∈ Finset.range n, h x ^ (k + 1) • v (k + 1) x)
      =O[l] (fun x => h x ^ (n + 1))) :
    ∀ (n m : ℕ) (w : ℕ → X → G), m + n ≤ P → (∀ i < m, w i =O[l] (fun _ => (1 : ℝ))) →
      (fun x => ∑ q ∈ Finset.range (n + 1), Dn F (z x) (m + q) (fun i => ext m w V i x)
        - ∑ N ∈ Finset.range (n + 1), h x ^ N • coef F (z x) (fun k => v k x) N m (fun i => w i x))
        =O[l] (fun x => h x ^ (n + 1)) := by
  have hV1 : V =O[l] (fun x => h x ^ 1) := by
    have := hV 0 (Nat.zero_le _)
    simpa using this
  intro n
  induction n using Nat.strong_induction_on with
  | _ n ih =>
    intro m w hP hw
    have h00 : ∀ x, Dn F (z x) m (fun i => ext m w V i x) = Dn F (z x) m (fun i => w i x) :=
      fun x => Dn_congr F (z x) m fun i hi => by simp [ext, hi]
    cases n with
    | zero =>
      have : ∀ x, ∑ q ∈ Finset.range (0 + 1), Dn F (z x) (m + q) (fun i => ext m w V i x)
        - ∑ N ∈ Finset.range (0 + 1),
          h x ^ N • coef F (z x) (fun k => v k x) N m (fun i => w i x) = 0 := by
        intro x
        simp only [zero_add, Finset.sum_range_one, add_zero, pow_zero, one_smul, coef_zero]
        rw [h00, sub_self]
      simp only [this]
      exact isBigO_zero _ _
    | succ n =>
      -- the building blocks
      let A : ℕ → (X → G) → X → E := fun q u x =>
        Dn F (z x) (m + 1 + q) (Function.update (fun i => ext m w V i x) m (u x))
      let R : X → G := fun x => V x - ∑ k ∈ Finset.range (n + 1), h x ^ (k + 1) • v (k + 1) x
      have hA : ∀ q ≤ n, ∀ (u : X → G) (b : ℕ), u =O[l] (fun x => h x ^ b) →
          A q u =O[l] (fun x => h x ^ (b + q)) := by
        intro q hq u b hu
        have := Dn_isBigO (l := l) (h := h) F z (m + 1 + q)
          (ext (m + 1) (Function.update w m u) V)
          (fun i => if i < m then 0 else if i = m then b else 1) (hD _ (by omega)) ?_
        · have e : ∑ i ∈ Finset.range (m + 1 + q),
              (if i < m then 0 else if i = m then b else 1) = b + q := by
            rw [Finset.sum_range_add, Finset.sum_range_succ]
            rw [Finset.sum_eq_zero (fun i hi => if_pos (Finset.mem_range.mp hi))]
            rw [if_neg (lt_irrefl m), if_pos rfl, zero_add]
            rw [Finset.sum_congr rfl (fun i _ => by
              rw [if_neg (by omega), if_neg (by omega)])]
            simp
          rw [e] at this
          simpa only [ext_update'] using this
        · intro i hi
          by_cases h1 : i < m
          · rw [if_pos h1]
            unfold ext
            rw [if_pos (by omega), Function.update_of_ne (by omega)]
            simpa using hw i h1
          · by_cases h2 : i = m
            · subst h2
              unfold ext
              rw [if_neg h1, if_pos rfl, if_pos (Nat.lt_succ_self i), Function.update_self]
              exact hu
            · rw [if_neg h1, if_neg h2]
              unfold ext
              rw [if_neg (by omega)]
              exact hV1
      have e1 : ∀ x, ∑ q ∈ Finset.range (n + 1 + 1), Dn F (z x) (m + q) (fun i => ext m w V i x)
          = Dn F (z x) m (fun i => w i x)
            + (∑ k ∈ Finset.range (n + 1), h x ^ (k + 1) •
                (∑ q ∈ Finset.range (n + 1), A q (v (k + 1)) x)
              + ∑ q ∈ Finset.range (n + 1), A q R x) := by
        intro x
        rw [Finset.sum_range_succ', add_zero, h00, add_comm]
        congr 1
        have : ∀ q ∈ Finset.range (n + 1), Dn F (z x) (m + (q + 1)) (fun i => ext m w V i x)
            = ∑ k ∈ Finset.range (n + 1), h x ^ (k + 1) • A q (v (k + 1)) x + A q R x := by
          intro q _
          rw [ext_update]
          have e2 : V x = (∑ k ∈ Finset.range (n + 1), h x ^ (k + 1) • v (k + 1) x) + R x := by
            simp only [R]; abel
          rw [e2, Dn_update_add F (z x) _ _ (by omega), Dn_update_sum _ F (z x) _ _ (by omega)]
        rw [Finset.sum_congr rfl this, Finset.sum_add_distrib, Finset.sum_comm]
        congr 1
        exact Finset.sum_congr rfl fun k _ => (Finset.smul_sum).symm
      have e3 : ∀ x, ∑ N ∈ Finset.range (n + 1 + 1),
            h x ^ N • coef F (z x) (fun k => v k x) N m (fun i => w i x)
          = Dn F (z x) m (fun i => w i x) + ∑ k ∈ Finset.range (n + 1), h x ^ (k + 1) •
              (∑ N ∈ Finset.range (n + 1 - k), h x ^ N • coef F (z x) (fun k => v k x) N (m + 1)
                (Function.update (fun i => w i x) m (v (k + 1) x))) := by
        intro x
        rw [Finset.sum_range_succ', pow_zero, one_smul, coef_zero, add_comm]
        congr 1
        have := Finset.sum_range_diag_flip (n + 1) (fun k j => h x ^ (k + 1) • (h x ^ j •
          coef F (z x) (fun k => v k x) j (m + 1)
                (Function.update (fun i => w i x) m (v (k + 1) x))))
        simp only [← Finset.smul_sum] at this
        rw [← this]
        refine Finset.sum_congr rfl fun N _ => ?_
        rw [coef_succ, Finset.smul_sum]
        refine Finset.sum_congr rfl fun k hk => ?_
        rw [smul_smul, ← pow_add, show k + 1 + (N - k) = N + 1 by
          have := Finset.mem_range.mp hk; omega]
      have e4 : ∀ x, ∑ q ∈ Finset.range (n + 1 + 1), Dn F (z x) (m + q) (fun i => ext m w V i x)
          - ∑ N ∈ Finset.range (n + 1 + 1),
            h x ^ N • coef F (z x) (fun k => v k x) N m (fun i => w i x)
          = ∑ k ∈ Finset.range (n + 1), h x ^ (k + 1) •
              (∑ q ∈ Finset.range (n + 1), A q (v (k + 1)) x
                - ∑ N ∈ Finset.range (n + 1 - k), h x ^ N • coef F (z x) (fun k => v k x) N (m + 1)
                (Function.update (fun i => w i x) m (v (k + 1) x)))
            + ∑ q ∈ Finset.range (n + 1), A q R x := by
        intro x
        rw [e1, e3]
        simp only [smul_sub, Finset.sum_sub_distrib]
        abel
      simp only [e4]
      refine IsBigO.add (isBigO_sum _ fun k hk => ?_) (isBigO_sum _ fun q hq => ?_)
      · have hk' := Finset.mem_range.mp hk
        refine smul_pow_isBigO (b := n - k + 1) ?_ (by omega)
        have hIH := ih (n - k) (by omega) (m + 1) (Function.update w m (v (k + 1))) (by omega) ?_
        · have hs : n + 1 = (n - k + 1) + k := by omega
          have e5 : ∀ x, ∑ q ∈ Finset.range (n + 1), A q (v (k + 1)) x
              = ∑ q ∈ Finset.range (n - k + 1), A q (v (k + 1)) x
                + ∑ q ∈ Finset.range k, A (n - k + 1 + q) (v (k + 1)) x := by
            intro x
            conv_lhs => rw [hs]
            rw [Finset.sum_range_add]
          have e6 : ∀ x, ∑ q ∈ Finset.range (n + 1), A q (v (k + 1)) x
                - ∑ N ∈ Finset.range (n + 1 - k), h x ^ N • coef F (z x) (fun k => v k x) N (m + 1)
                (Function.update (fun i => w i x) m (v (k + 1) x))
              = (∑ q ∈ Finset.range (n - k + 1), Dn F (z x) (m + 1 + q)
                    (fun i => ext (m + 1) (Function.update w m (v (k + 1))) V i x)
                  - ∑ N ∈ Finset.range (n - k + 1), h x ^ N •
                      coef F (z x) (fun k => v k x) N (m + 1)
                        (fun i => Function.update w m (v (k + 1)) i x))
                + ∑ q ∈ Finset.range k, A (n - k + 1 + q) (v (k + 1)) x := by
            intro x
            rw [e5, show n + 1 - k = n - k + 1 by omega]
            simp only [update_fun, ext_update', A]
            abel
          simp only [e6]
          refine hIH.add (isBigO_sum _ fun q hq => ?_)
          have hq' := Finset.mem_range.mp hq
          have := hA (n - k + 1 + q) (by omega) (v (k + 1)) 0 (by simpa using hv (k + 1) (by omega))
          exact this.trans (pow_isBigO_pow hh (by omega))
        · intro i hi
          by_cases him : i = m
          · subst him; rw [Function.update_self]; exact hv _ (by omega)
          · rw [Function.update_of_ne him]; exact hw i (by omega)
      · have := hA q (by have := Finset.mem_range.mp hq; omega) R (n + 1 + 1)
          (hV (n + 1) (by omega))
        exact this.trans (pow_isBigO_pow hh (by omega))

/-- Taylor's formula with a uniform remainder. -/
theorem taylor_isBigO [CompleteSpace E] {F : G → E} {n : ℕ} (hF : ContDiff ℝ (n + 1) F) {M : ℝ}
    (hM : ∀ z, ‖iteratedFDeriv ℝ (n + 1) F z‖ ≤ M) (z V : X → G)
    (hV : V =O[l] (fun x => h x ^ 1)) :
    (fun x => F (z x + V x) - ∑ q ∈ Finset.range (n + 1), Dn F (z x) q (fun _ => V x))
      =O[l] (fun x => h x ^ (n + 1)) := by
  have h1 : (fun x => F (z x + V x) - ∑ q ∈ Finset.range (n + 1), Dn F (z x) q (fun _ => V x))
      =O[l] (fun x => ‖V x‖ ^ (n + 1)) := by
    refine IsBigO.of_bound (((n.factorial : ℕ) : ℝ)⁻¹ * M)
      (Filter.Eventually.of_forall fun x => ?_)
    rw [map_add_eq_sum_add_integral_iteratedFDeriv (n := n) (fun t _ => hF.contDiffAt)]
    unfold Dn
    rw [add_sub_cancel_left, norm_smul, Real.norm_of_nonneg (by positivity), mul_assoc]
    refine mul_le_mul_of_nonneg_left ?_ (by positivity)
    have hM0 : 0 ≤ M := (norm_nonneg _).trans (hM 0)
    have := intervalIntegral.norm_integral_le_of_norm_le_const (a := 0) (b := 1)
      (f := fun t : ℝ => (1 - t) ^ n • iteratedFDeriv ℝ (n + 1) F (z x + t • V x) fun _ => V x)
      (C := M * ‖V x‖ ^ (n + 1)) (fun t ht => ?_)
    · rw [sub_zero, abs_one, mul_one] at this
      rwa [Real.norm_of_nonneg (by positivity)]
    · rw [Set.uIoc_of_le zero_le_one] at ht
      rw [norm_smul, Real.norm_of_nonneg (pow_nonneg (by linarith [ht.2]) _)]
      have h2 : (1 - t) ^ n ≤ 1 := pow_le_one₀ (by linarith [ht.2]) (by linarith [ht.1])
      have h3 : ‖iteratedFDeriv ℝ (n + 1) F (z x + t • V x) fun _ => V x‖
          ≤ M * ‖V x‖ ^ (n + 1) := by
        refine (ContinuousMultilinearMap.le_opNorm _ _).trans ?_
        rw [Finset.prod_const, Finset.card_univ, Fintype.card_fin]
        exact mul_le_mul_of_nonneg_right (hM _) (by positivity)
      calc (1 - t) ^ n * ‖iteratedFDeriv ℝ (n + 1) F (z x + t • V x) fun _ => V x‖
          ≤ 1 * (M * ‖V x‖ ^ (n + 1)) := mul_le_mul h2 h3 (norm_nonneg _) zero_le_one
        _ = _ := one_mul _
  refine h1.trans ?_
  have := hV.norm_left.pow (n + 1)
  simpa using this

/-- The expansion of `F (z + V)` in powers of `h`. -/
theorem jet_of_comp [CompleteSpace E] {F : G → E} {n : ℕ} (hF : ContDiff ℝ (n + 1) F) {M : ℝ}
    (hM : ∀ z, ‖iteratedFDeriv ℝ (n + 1) F z‖ ≤ M) (z V : X → G) (v : ℕ → X → G)
    (hh : h =O[l] (fun _ => (1 : ℝ)))
    (hD : ∀ j ≤ n, (fun x => iteratedFDeriv ℝ j F (z x)) =O[l] (fun _ => (1 : ℝ)))
    (hv : ∀ k ≤ n, v k =O[l] (fun _ => (1 : ℝ)))
    (hV : ∀ m ≤ n, (fun x => V x - ∑ k ∈ Finset.range m, h x ^ (k + 1) • v (k + 1) x)
      =O[l] (fun x => h x ^ (m + 1))) :
    (fun x => F (z x + V x)
        - ∑ N ∈ Finset.range (n + 1), h x ^ N • coef F (z x) (fun k => v k x) N 0 0)
      =O[l] (fun x => h x ^ (n + 1)) := by
  have hV1 : V =O[l] (fun x => h x ^ 1) := by
    have := hV 0 (Nat.zero_le _)
    simpa using this
  have h1 := taylor_isBigO hF hM z V hV1
  have h2 := jet_comp F z V v hh hD hv hV n 0 0 (by omega) (fun i hi => absurd hi (Nat.not_lt_zero i))
  refine (h1.add h2).congr_left fun x => ?_
  have : ∀ q, Dn F (z x) (0 + q) (fun i => ext 0 (0 : ℕ → X → G) V i x)
      = Dn F (z x) q (fun _ => V x) := by
    intro q
    rw [Nat.zero_add]
    exact Dn_congr F _ _ fun i _ => by simp [ext]
  simp only [this]
  rw [sub_add_sub_cancel]
  rfl

end

end Verif.ODE
