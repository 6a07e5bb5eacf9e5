import Verif.ODE.Global

/-! # Convergence in both directions of time -/

set_option autoImplicit false

namespace Verif.ODE

variable {ι : Type*} [Fintype ι]

/-- The right-hand side of the system run backwards in time. -/
def rev (F : ℝ × (ι → ℝ) → (ι → ℝ)) (z : ℝ × (ι → ℝ)) : ι → ℝ := -F (-z.1, z.2)

theorem rkStage_rev (F : ℝ × (ι → ℝ) → (ι → ℝ)) (a : ℕ → ℕ → ℝ) (c : ℕ → ℝ) (t : ℝ) (x : ι → ℝ) (h : ℝ)
    (i : ℕ) : rkStage (rev F) a c (-t) x h i = -rkStage F a c t x (-h) i := by
  induction i using Nat.strong_induction_on with
  | _ i ih =>
    rw [rkStage_eq, rkStage_eq, rev]
    have e : h • ∑ j ∈ Finset.range i, a i j • rkStage (rev F) a c (-t) x h j
        = -h • ∑ j ∈ Finset.range i, a i j • rkStage F a c t x (-h) j := by
      rw [Finset.sum_congr rfl (fun j hj => by rw [ih j (Finset.mem_range.mp hj), smul_neg]),
        Finset.sum_neg_distrib, smul_neg, neg_smul]
    dsimp only
    rw [e, show -(-t + c i * h) = t + c i * -h by ring]

theorem rkStep_rev (F : ℝ × (ι → ℝ) → (ι → ℝ)) (s : ℕ) (a : ℕ → ℕ → ℝ) (b c : ℕ → ℝ) (t : ℝ) (x : ι → ℝ)
    (h : ℝ) : rkStep (rev F) s a b c (-t) x h = rkStep F s a b c t x (-h) := by
  rw [rkStep, rkStep, Finset.sum_congr rfl (fun j _ => by rw [rkStage_rev, smul_neg]),
    Finset.sum_neg_distrib, smul_neg, neg_smul]

theorem prkIter_rev (F : ℝ × (ι → ℝ) → (ι → ℝ)) (s : ℕ) (a : ℕ → ℕ → ℝ) (b : ι → ℕ → ℝ) (c : ℕ → ℝ)
    (t : ℝ) (x : ι → ℝ) (h : ℝ) (k : ℕ) :
    prkIter (rev F) s a b c (-t) x h k = prkIter F s a b c t x (-h) k := by
  induction k with
  | zero => rfl
  | succ k ih =>
    rw [prkIter, prkIter, ih]
    funext m
    rw [prkStep, prkStep, show -t + k * h = -(t + k * -h) by ring, rkStep_rev]

theorem contDiff_rev {F : ℝ × (ι → ℝ) → (ι → ℝ)} {n : WithTop ℕ∞} (hF : ContDiff ℝ n F) :
    ContDiff ℝ n (rev F) :=
  (hF.comp (contDiff_fst.neg.prodMk contDiff_snd)).neg

theorem solution_rev {F : ℝ × (ι → ℝ) → (ι → ℝ)} {t₁ t₂ : ℝ} {y : ℝ → ι → ℝ}
    (hy : ∀ t ∈ Set.Icc t₁ t₂, HasDerivWithinAt y (F (t, y t)) (Set.Icc t₁ t₂) t) :
    ∀ t ∈ Set.Icc (-t₂) (-t₁), HasDerivWithinAt (fun s => y (-s)) (rev F (t, y (-t)))
      (Set.Icc (-t₂) (-t₁)) t := by
  intro t ht
  have h1 : -t ∈ Set.Icc t₁ t₂ := ⟨by linarith [ht.2], by linarith [ht.1]⟩
  have h2 := (hy (-t) h1).scomp t ((hasDerivAt_neg t).hasDerivWithinAt (s := Set.Icc (-t₂) (-t₁)))
    (fun s hs => ⟨by linarith [hs.2], by linarith [hs.1]⟩)
  rw [neg_one_smul] at h2
  exact h2

/-- **Convergence** of an explicit Runge–Kutta method of order `n + 1`, forwards and backwards in
time, uniformly in the initial time and for all sufficiently small steps. -/
theorem rk_converges_both {F : ℝ × (ι → ℝ) → (ι → ℝ)} {n : ℕ} (hF : ContDiff ℝ (n + 1) F)
    {t₁ t₂ : ℝ} {y : ℝ → ι → ℝ}
    (hy : ∀ t ∈ Set.Icc t₁ t₂, HasDerivWithinAt y (F (t, y t)) (Set.Icc t₁ t₂) t)
    (s : ℕ) (a : ℕ → ℕ → ℝ) (b : ι → ℕ → ℝ) (c : ℕ → ℝ) (hord : ∀ m, Order s a (b m) c (n + 1) 0) :
    ∃ C h₀, 0 ≤ C ∧ 0 < h₀ ∧ ∀ t₀ ∈ Set.Icc t₁ t₂, ∀ h, |h| ≤ h₀ → ∀ k : ℕ,
      t₀ + k * h ∈ Set.Icc t₁ t₂ →
      ‖prkIter F s a b c t₀ (y t₀) h k - y (t₀ + k * h)‖ ≤ C * (k * |h|) * |h| ^ (n + 1) := by
  obtain ⟨C, h₀, h0, H⟩ := rk_converges hF hy s a b c hord
  obtain ⟨C', h₀', h0', H'⟩ := rk_converges (contDiff_rev hF) (solution_rev hy) s a b c hord
  refine ⟨max (max C C') 0, min h₀ h₀', le_max_right _ _, lt_min h0 h0', fun t₀ ht₀ h hh k hk => ?_⟩
  have hC : C ≤ max (max C C') 0 := (le_max_left _ _).trans (le_max_left _ _)
  have hC' : C' ≤ max (max C C') 0 := (le_max_right _ _).trans (le_max_left _ _)
  have hp : 0 ≤ k * |h| * |h| ^ (n + 1) := by positivity
  rcases le_total 0 h with hs | hs
  · have := H t₀ h ht₀.1 hs (by rw [← abs_of_nonneg hs]; exact hh.trans (min_le_left _ _)) k hk.2
    rw [abs_of_nonneg hs] at hp ⊢
    refine this.trans ?_
    rw [mul_assoc C, mul_assoc (max _ _)]
    exact mul_le_mul_of_nonneg_right hC hp
  · have := H' (-t₀) (-h) (by linarith [ht₀.2]) (by linarith)
      (by rw [← abs_of_nonpos hs]; exact hh.trans (min_le_right _ _)) k (by linarith [hk.1])
    rw [prkIter_rev, neg_neg, neg_neg, show -(-t₀ + k * -h) = t₀ + k * h by ring,
      ← abs_of_nonpos hs] at this
    refine this.trans ?_
    rw [mul_assoc C', mul_assoc (max _ _)]
    exact mul_le_mul_of_nonneg_right hC' hp

theorem rev_bound {F : ℝ × (ι → ℝ) → (ι → ℝ)} {n : ℕ} (hF : ContDiff ℝ n F) {M : ℝ}
    (hM : ∀ j ≤ n, ∀ z, ‖iteratedFDeriv ℝ j F z‖ ≤ M) :
    ∃ M', ∀ j ≤ n, ∀ z, ‖iteratedFDeriv ℝ j (rev F) z‖ ≤ M' := by
  set g : (ℝ × (ι → ℝ)) →L[ℝ] (ℝ × (ι → ℝ)) :=
    (-ContinuousLinearMap.fst ℝ ℝ (ι → ℝ)).prod (ContinuousLinearMap.snd ℝ ℝ (ι → ℝ)) with hg
  have e : rev F = -(F ∘ g) := by
    funext z; rfl
  refine ⟨|M| * (1 + ‖g‖) ^ n, fun j hj z => ?_⟩
  rw [e, iteratedFDeriv_neg, Pi.neg_apply, norm_neg,
    g.iteratedFDeriv_comp_right hF z (by exact_mod_cast hj)]
  refine (ContinuousMultilinearMap.norm_compContinuousLinearMap_le _ _).trans ?_
  rw [Finset.prod_const, Finset.card_univ, Fintype.card_fin]
  refine mul_le_mul ((hM j hj _).trans (le_abs_self M)) ?_ (by positivity) (abs_nonneg _)
  calc ‖g‖ ^ j ≤ (1 + ‖g‖) ^ j := pow_le_pow_left₀ (norm_nonneg _) (by linarith) _
    _ ≤ (1 + ‖g‖) ^ n := pow_le_pow_right₀ (by linarith [norm_nonneg g]) hj

/-- The version for a right-hand side with bounded derivatives, for a method whose order conditions
hold up to `ε`. -/
theorem global_error_both {F : ℝ × (ι → ℝ) → (ι → ℝ)} {n : ℕ} (hF : ContDiff ℝ (n + 1) F) {M : ℝ}
    (hM : ∀ j ≤ n + 1, ∀ z, ‖iteratedFDeriv ℝ j F z‖ ≤ M) {t₁ t₂ : ℝ} {y : ℝ → ι → ℝ}
    (hy : ∀ t ∈ Set.Icc t₁ t₂, HasDerivWithinAt y (F (t, y t)) (Set.Icc t₁ t₂) t)
    (s : ℕ) (a : ℕ → ℕ → ℝ) (b : ι → ℕ → ℝ) (c : ℕ → ℝ) {ε : ℝ} (hε : 0 ≤ ε)
    (hord : ∀ m, Order s a (b m) c (n + 1) ε) :
    ∃ C, 0 ≤ C ∧ ∀ t₀ ∈ Set.Icc t₁ t₂, ∀ h, ∀ k : ℕ, t₀ + k * h ∈ Set.Icc t₁ t₂ →
      ‖prkIter F s a b c t₀ (y t₀) h k - y (t₀ + k * h)‖ ≤ C * (k * |h|) * (|h| ^ (n + 1) + ε) := by
  obtain ⟨C, h0, H⟩ := global_error hF hM hy s a b c hε hord
  obtain ⟨M', hM'⟩ := rev_bound (n := n + 1) (by exact_mod_cast hF) hM
  obtain ⟨C', h0', H'⟩ := global_error (contDiff_rev hF) hM' (solution_rev hy) s a b c hε hord
  refine ⟨max C C', h0.trans (le_max_left _ _), fun t₀ ht₀ h k hk => ?_⟩
  have hp : 0 ≤ k * |h| * (|h| ^ (n + 1) + ε) := by positivity
  rcases le_total 0 h with hs | hs
  · have := H t₀ h ht₀.1 hs k hk.2
    rw [abs_of_nonneg hs] at hp ⊢
    refine this.trans ?_
    rw [mul_assoc C, mul_assoc (max _ _)]
    exact mul_le_mul_of_nonneg_right (le_max_left _ _) hp
  · have := H' (-t₀) (-h) (by linarith [ht₀.2]) (by linarith) k (by linarith [hk.1])
    rw [prkIter_rev, neg_neg, neg_neg, show -(-t₀ + k * -h) = t₀ + k * h by ring,
      ← abs_of_nonpos hs] at this
    refine this.trans ?_
    rw [mul_assoc C', mul_assoc (max _ _)]
    exact mul_le_mul_of_nonneg_right (le_max_right _ _) hp

end Verif.ODE
