import Verif.ODE.Jets
import Mathlib.Analysis.Calculus.MeanValue

/-!
# The local error of an explicit Runge–Kutta method

Internal machinery: the expansion of a step in powers of `h`, the expansion of the solution, and the
local error of a method whose weights agree with the solution's on all trees up to some order.
-/

set_option autoImplicit false

namespace Verif.ODE

open Asymptotics

variable {E : Type*} [NormedAddCommGroup E] [NormedSpace ℝ E]

/-- The stages of the explicit method with coefficients `a`, `c` for `y' = F (t, y)`. -/
noncomputable def rkStage (F : ℝ × E → E) (a : ℕ → ℕ → ℝ) (c : ℕ → ℝ) (t : ℝ) (x : E) (h : ℝ) :
    ℕ → E
  | i => F (t + c i * h, x + h • ∑ j : Fin i, a i j.val • rkStage F a c t x h j.val)
termination_by i => i

theorem rkStage_eq (F : ℝ × E → E) (a : ℕ → ℕ → ℝ) (c : ℕ → ℝ) (t : ℝ) (x : E) (h : ℝ) (i : ℕ) :
    rkStage F a c t x h i
      = F (t + c i * h, x + h • ∑ j ∈ Finset.range i, a i j • rkStage F a c t x h j) := by
  rw [rkStage, Finset.sum_range]

/-- One step of the `s`-stage explicit method with coefficients `a`, `b`, `c`. -/
noncomputable def rkStep (F : ℝ × E → E) (s : ℕ) (a : ℕ → ℕ → ℝ) (b c : ℕ → ℝ) (t : ℝ) (x : E)
    (h : ℝ) : E :=
  x + h • ∑ i ∈ Finset.range s, b i • rkStage F a c t x h i

section

variable {X : Type*} {l : Filter X} {h : X → ℝ}

theorem jet_trunc {g : X → E} {u : ℕ → X → E} {n : ℕ} (hh : h =O[l] (fun _ => (1 : ℝ)))
    (hu : ∀ N < n, u N =O[l] (fun _ => (1 : ℝ)))
    (hg : (fun x => g x - ∑ N ∈ Finset.range n, h x ^ N • u N x) =O[l] (fun x => h x ^ n))
    {m : ℕ} (hm : m ≤ n) :
    (fun x => g x - ∑ N ∈ Finset.range m, h x ^ N • u N x) =O[l] (fun x => h x ^ m) := by
  obtain ⟨d, rfl⟩ := Nat.exists_eq_add_of_le hm
  have h1 : ∀ x, g x - ∑ N ∈ Finset.range m, h x ^ N • u N x
      = (g x - ∑ N ∈ Finset.range (m + d), h x ^ N • u N x)
        + ∑ N ∈ Finset.range d, h x ^ (m + N) • u (m + N) x := by
    intro x
    rw [Finset.sum_range_add]; abel
  simp only [h1]
  refine (hg.trans (pow_isBigO_pow hh hm)).add (isBigO_sum _ fun N hN => ?_)
  have hN' := Finset.mem_range.mp hN
  have : (fun x => h x ^ (m + N) • u (m + N) x) =O[l] (fun x => h x ^ (m + N)) :=
    smul_pow_isBigO (b := 0) (by simpa using hu (m + N) (by omega)) (by omega)
  exact this.trans (pow_isBigO_pow hh (by omega))

theorem ev_isBigO (F : ℝ × E → E) (z : X → ℝ × E) {P : ℕ}
    (hD : ∀ j ≤ P, (fun x => iteratedFDeriv ℝ j F (z x)) =O[l] (fun _ => (1 : ℝ))) :
    ∀ (τ : Tree) (m : ℕ) (w : ℕ → X → ℝ × E), m + τ.ord ≤ P + 1 →
      (∀ i < m, w i =O[l] (fun _ => (1 : ℝ))) →
      (fun x => ev F (z x) τ m (fun i => w i x)) =O[l] (fun _ => (1 : ℝ))
  | .dot, m, w, hP, hw => by
      simp only [ev]
      rw [Tree.ord] at hP
      have := Dn_isBigO (l := l) (h := fun _ => (1 : ℝ)) F z m w (fun _ => 0) (hD m (by omega))
        (fun i hi => by simpa using hw i hi)
      simpa using this
  | .graft t s, m, w, hP, hw => by
      rw [Tree.ord] at hP
      have hs0 := s.ord_pos
      have ht0 := t.ord_pos
      have ht := ev_isBigO F z hD t 0 0 (by omega) (fun i hi => absurd hi (Nat.not_lt_zero i))
      have hs := ev_isBigO F z hD s (m + 1)
        (Function.update w m (fun x => ((0 : ℝ), ev F (z x) t 0 0))) (by omega) ?_
      · simp only [ev]
        simpa only [update_fun] using hs
      · intro i hi
        by_cases him : i = m
        · subst him
          rw [Function.update_self]
          exact (isBigO_zero _ _).prod_left ht
        · rw [Function.update_of_ne him]; exact hw i (by omega)
  | .tick s, m, w, hP, hw => by
      rw [Tree.ord] at hP
      have hs := ev_isBigO F z hD s (m + 1)
        (Function.update w m (fun _ => ((1 : ℝ), (0 : E)))) (by omega) ?_
      · simp only [ev]
        simpa only [update_fun] using hs
      · intro i hi
        by_cases him : i = m
        · subst him
          rw [Function.update_self]
          exact isBigO_const_const _ one_ne_zero _
        · rw [Function.update_of_ne him]; exact hw i (by omega)

theorem treeSum_isBigO {f : X → ℝ} (N : ℕ) (g : Tree → X → E)
    (hg : ∀ τ : Tree, τ.ord = N + 1 → g τ =O[l] f) :
    (fun x => treeSum N (fun τ => g τ x)) =O[l] f := by
  induction N using Nat.strong_induction_on generalizing g with
  | _ N ih =>
    cases N with
    | zero => simp only [treeSum_zero]; exact hg _ rfl
    | succ N =>
      simp only [treeSum_succ]
      refine (ih N (Nat.lt_succ_self _) _ fun τ hτ => hg _ (by rw [Tree.ord, hτ])).add
        (isBigO_sum _ fun k hk => ?_)
      have hk' := Finset.mem_range.mp hk
      refine ih k hk' (fun t x => treeSum (N - k) fun s => g (.graft t s) x) fun t ht => ?_
      refine ih (N - k) (by omega) (fun s => g (.graft t s)) fun s hs => hg _ ?_
      rw [Tree.ord, ht, hs]; omega

/-- The expansion of the stages of a Runge–Kutta step. -/
theorem stage_jet [CompleteSpace E] {F : ℝ × E → E} {n : ℕ} (hF : ContDiff ℝ (n + 1) F) {M : ℝ}
    (hM : ∀ z, ‖iteratedFDeriv ℝ (n + 1) F z‖ ≤ M) (a : ℕ → ℕ → ℝ) (c : ℕ → ℝ) (t : X → ℝ)
    (y : X → E) (hh : h =O[l] (fun _ => (1 : ℝ)))
    (hD : ∀ j ≤ n, (fun x => iteratedFDeriv ℝ j F (t x, y x)) =O[l] (fun _ => (1 : ℝ))) (i : ℕ) :
    (fun x => rkStage F a c (t x) (y x) (h x) i - ∑ N ∈ Finset.range (n + 1), h x ^ N •
        treeSum N (fun τ => τ.stage a c i • ev F (t x, y x) τ 0 0))
      =O[l] (fun x => h x ^ (n + 1)) := by
  have hev : ∀ (r : Tree → ℝ) (N : ℕ), N ≤ n →
      (fun x => treeSum N (fun τ => r τ • ev F (t x, y x) τ 0 0)) =O[l] (fun _ => (1 : ℝ)) := by
    intro r N hN
    refine treeSum_isBigO N (fun τ x => r τ • ev F (t x, y x) τ 0 0) fun τ hτ => ?_
    exact (ev_isBigO F (fun x => (t x, y x)) hD τ 0 0 (by omega)
      (fun i hi => absurd hi (Nat.not_lt_zero i))).const_smul_left (r τ)
  induction i using Nat.strong_induction_on with
  | _ i ih =>
    -- the displacement of the stage
    let V : X → ℝ × E := fun x =>
      (c i * h x, h x • ∑ j ∈ Finset.range i, a i j • rkStage F a c (t x) (y x) (h x) j)
    let κ : Tree → ℝ := fun τ => ∑ j ∈ Finset.range i, a i j * τ.stage a c j
    let v : ℕ → X → ℝ × E := fun k x =>
      (if k = 1 then c i else 0, treeSum (k - 1) (fun τ => κ τ • ev F (t x, y x) τ 0 0))
    have hv : ∀ k ≤ n, v k =O[l] (fun _ => (1 : ℝ)) := by
      intro k hk
      exact (isBigO_const_const _ one_ne_zero _).prod_left (hev κ (k - 1) (by omega))
    have hV : ∀ m ≤ n, (fun x => V x - ∑ k ∈ Finset.range m, h x ^ (k + 1) • v (k + 1) x)
        =O[l] (fun x => h x ^ (m + 1)) := by
      intro m hm
      have e1 : ∀ x, V x - ∑ k ∈ Finset.range m, h x ^ (k + 1) • v (k + 1) x
          = (if m = 0 then c i * h x else 0, h x ^ 1 • ∑ j ∈ Finset.range i, a i j •
              (rkStage F a c (t x) (y x) (h x) j - ∑ N ∈ Finset.range m, h x ^ N •
                treeSum N (fun τ => τ.stage a c j • ev F (t x, y x) τ 0 0))) := by
        intro x
        refine Prod.ext ?_ ?_
        · rw [Prod.fst_sub, Prod.fst_sum]
          have : ∀ k ∈ Finset.range m, (h x ^ (k + 1) • v (k + 1) x).1
              = if k = 0 then c i * h x else 0 := by
            intro k _
            simp only [v, Prod.smul_fst, smul_eq_mul, Nat.add_eq_right]
            split_ifs with hk
            · rw [hk]; ring
            · ring
          rw [Finset.sum_congr rfl this, Finset.sum_ite_eq']
          simp only [V, Finset.mem_range]
          by_cases hm0 : m = 0
          · rw [if_pos hm0, if_neg (by omega), sub_zero]
          · rw [if_neg hm0, if_pos (by omega), sub_self]
        · rw [Prod.snd_sub, Prod.snd_sum]
          have : ∀ k ∈ Finset.range m, (h x ^ (k + 1) • v (k + 1) x).2
              = h x • ∑ j ∈ Finset.range i, a i j • (h x ^ k •
                treeSum k (fun τ => τ.stage a c j • ev F (t x, y x) τ 0 0)) := by
            intro k _
            simp only [v, Prod.smul_snd, Nat.add_sub_cancel, κ]
            have e2 : treeSum k (fun τ => (∑ j ∈ Finset.range i, a i j * τ.stage a c j) •
                  ev F (t x, y x) τ 0 0)
                = ∑ j ∈ Finset.range i, a i j •
                  treeSum k (fun τ => τ.stage a c j • ev F (t x, y x) τ 0 0) := by
              simp only [← treeSum_smul, ← treeSum_finset]
              refine treeSum_congr k fun τ _ => ?_
              rw [Finset.sum_smul]
              exact Finset.sum_congr rfl fun j _ => mul_smul _ _ _
            rw [e2, pow_succ', mul_smul, Finset.smul_sum]
            congr 1
            exact Finset.sum_congr rfl fun j _ => smul_comm _ _ _
          rw [Finset.sum_congr rfl this, ← Finset.smul_sum, Finset.sum_comm]
          simp only [V, pow_one, smul_sub, Finset.sum_sub_distrib, Finset.smul_sum]
      simp only [e1]
      refine IsBigO.prod_left ?_ ?_
      · by_cases hm0 : m = 0
        · subst hm0
          simp only [if_true, zero_add, pow_one]
          exact isBigO_const_mul_self _ _ _
        · simp only [if_neg hm0]
          exact isBigO_zero _ _
      · refine smul_pow_isBigO (b := m) (isBigO_sum _ fun j hj => ?_) (by omega)
        refine IsBigO.const_smul_left ?_ _
        exact jet_trunc (n := n + 1) hh (fun N hN => hev _ N (by omega))
          (ih j (Finset.mem_range.mp hj)) (by omega)
    have key := jet_of_comp hF hM (fun x => (t x, y x)) V v hh hD hv hV
    refine key.congr_left fun x => ?_
    have e3 : ∀ N, coef F (t x, y x) (fun k => v k x) N 0 0
        = treeSum N (fun τ => τ.stage a c i • ev F (t x, y x) τ 0 0) := by
      intro N
      rw [coef_eq_treeSum F (t x, y x) (c i) κ (fun k => v k x) (fun k => ?_) N 0 0]
      · exact treeSum_congr N fun τ _ => by rw [Tree.stage_eq_prod]
      · simp only [v, Nat.add_sub_cancel, Nat.add_eq_right]
    simp only [e3]
    rw [rkStage_eq]
    rfl

end

/-! ## The solution -/

/-- Configurations: a start in `[t₁, t₂]` and a step that stays there. -/
def Conf (t₁ t₂ : ℝ) : Set (ℝ × ℝ) := {x | t₁ ≤ x.1 ∧ 0 ≤ x.2 ∧ x.1 + x.2 ≤ t₂}

/-- The expansion of the solution in powers of the step. -/
theorem solution_jet [CompleteSpace E] {F : ℝ × E → E} {n : ℕ} (hF : ContDiff ℝ (n + 1) F) {M : ℝ}
    (hM : ∀ j ≤ n + 1, ∀ z, ‖iteratedFDeriv ℝ j F z‖ ≤ M) {t₁ t₂ : ℝ} {y : ℝ → E}
    (hy : ∀ t ∈ Set.Icc t₁ t₂, HasDerivWithinAt y (F (t, y t)) (Set.Icc t₁ t₂) t) :
    ∀ m ≤ n + 1, (fun x : ℝ × ℝ => (y (x.1 + x.2) - y x.1) - ∑ N ∈ Finset.range m, x.2 ^ (N + 1) •
        treeSum N (fun τ => (τ.exact / (τ.ord : ℝ)) • ev F (x.1, y x.1) τ 0 0))
      =O[Filter.principal (Conf t₁ t₂)] (fun x => x.2 ^ (m + 1)) := by
  have hD : ∀ j ≤ n, (fun x : ℝ × ℝ => iteratedFDeriv ℝ j F (x.1, y x.1))
      =O[Filter.principal (Conf t₁ t₂)] (fun _ => (1 : ℝ)) := by
    intro j hj
    refine isBigO_principal.mpr ⟨M, fun x _ => ?_⟩
    rw [norm_one, mul_one]
    exact hM j (by omega) _
  have hh : (fun x : ℝ × ℝ => x.2) =O[Filter.principal (Conf t₁ t₂)] (fun _ => (1 : ℝ)) := by
    refine isBigO_principal.mpr ⟨t₂ - t₁, fun x hx => ?_⟩
    rw [norm_one, mul_one, Real.norm_of_nonneg hx.2.1]
    linarith [hx.1, hx.2.2]
  have hev : ∀ (r : Tree → ℝ) (N : ℕ), N ≤ n →
      (fun x : ℝ × ℝ => treeSum N (fun τ => r τ • ev F (x.1, y x.1) τ 0 0))
        =O[Filter.principal (Conf t₁ t₂)] (fun _ => (1 : ℝ)) := by
    intro r N hN
    refine treeSum_isBigO N (fun τ (x : ℝ × ℝ) => r τ • ev F (x.1, y x.1) τ 0 0) fun τ hτ => ?_
    exact (ev_isBigO F (fun x : ℝ × ℝ => (x.1, y x.1)) hD τ 0 0 (by omega)
      (fun i hi => absurd hi (Nat.not_lt_zero i))).const_smul_left (r τ)
  -- the general estimate: a bound on the defect of the derivative bounds the defect
  have hint : ∀ (k : ℕ) (u : ℕ → ℝ → E) (C : ℝ), 0 ≤ C →
      (∀ x ∈ Conf t₁ t₂, ‖F (x.1 + x.2, y (x.1 + x.2)) - ∑ N ∈ Finset.range k, x.2 ^ N • u N x.1‖
        ≤ C * x.2 ^ k) →
      ∀ x ∈ Conf t₁ t₂, ‖(y (x.1 + x.2) - y x.1) - ∑ N ∈ Finset.range k, x.2 ^ (N + 1) •
        (((N : ℝ) + 1)⁻¹ • u N x.1)‖ ≤ C * x.2 ^ (k + 1) := by
    intro k u C hC hb x hx
    obtain ⟨hx1, hx2, hx3⟩ := hx
    let g : ℝ → E := fun s => y (x.1 + s) - y x.1 - ∑ N ∈ Finset.range k, s ^ (N + 1) •
        (((N : ℝ) + 1)⁻¹ • u N x.1)
    have hg : ∀ s ∈ Set.Icc 0 x.2, HasDerivWithinAt g
        (F (x.1 + s, y (x.1 + s)) - ∑ N ∈ Finset.range k, s ^ N • u N x.1) (Set.Icc 0 x.2) s := by
      intro s hs
      have h1 : HasDerivWithinAt (fun s => y (x.1 + s)) (F (x.1 + s, y (x.1 + s)))
          (Set.Icc 0 x.2) s := by
        have := (hy (x.1 + s) ⟨by linarith [hs.1], by linarith [hs.2]⟩).scomp s
          (h := fun s => x.1 + s) (h' := 1) (s := Set.Icc 0 x.2)
          (by simpa using (hasDerivWithinAt_id s (Set.Icc 0 x.2)).const_add x.1)
          (fun r hr => ⟨by linarith [hr.1], by linarith [hr.2]⟩)
        simpa [Function.comp_def] using this
      have h2 : HasDerivWithinAt (fun s : ℝ => ∑ N ∈ Finset.range k, s ^ (N + 1) •
          (((N : ℝ) + 1)⁻¹ • u N x.1)) (∑ N ∈ Finset.range k, s ^ N • u N x.1)
          (Set.Icc 0 x.2) s := by
        refine (HasDerivAt.fun_sum fun N _ => ?_).hasDerivWithinAt
        have := (hasDerivAt_pow (N + 1) s).smul_const (((N : ℝ) + 1)⁻¹ • u N x.1)
        have e : (((N + 1 : ℕ) : ℝ) * s ^ (N + 1 - 1)) • (((N : ℝ) + 1)⁻¹ • u N x.1)
            = s ^ N • u N x.1 := by
          rw [smul_smul, Nat.add_sub_cancel]
          congr 1
          push_cast
          have : (N : ℝ) + 1 ≠ 0 := by positivity
          field_simp
        rwa [e] at this
      exact (h1.sub_const (y x.1)).sub h2
    have := norm_image_sub_le_of_norm_deriv_le_segment' (C := C * x.2 ^ k) hg (fun s hs => by
      have hb' := hb (x.1, s) ⟨hx1, hs.1, by linarith [hs.2]⟩
      refine hb'.trans ?_
      exact mul_le_mul_of_nonneg_left (pow_le_pow_left₀ hs.1 hs.2.le k) hC) x.2
      (Set.right_mem_Icc.mpr hx2)
    have e0 : g 0 = 0 := by simp [g]
    rw [e0, sub_zero, sub_zero] at this
    calc _ = ‖g x.2‖ := rfl
      _ ≤ C * x.2 ^ k * x.2 := this
      _ = C * x.2 ^ (k + 1) := by ring
  intro m
  induction m with
  | zero =>
    intro _
    refine isBigO_principal.mpr ⟨M, fun x hx => ?_⟩
    have := hint 0 (fun _ _ => 0) M ((norm_nonneg _).trans (hM 0 (Nat.zero_le _) 0))
      (fun x _ => by
        simpa using (hM 0 (Nat.zero_le _) (x.1 + x.2, y (x.1 + x.2))))
      x hx
    simpa [abs_of_nonneg hx.2.1] using this
  | succ m ih =>
    intro hm
    have ihm := ih (by omega)
    -- all the lower orders
    have hall : ∀ k ≤ m, (fun x : ℝ × ℝ => (y (x.1 + x.2) - y x.1)
        - ∑ N ∈ Finset.range k, x.2 ^ (N + 1) •
        treeSum N (fun τ => (τ.exact / (τ.ord : ℝ)) • ev F (x.1, y x.1) τ 0 0))
      =O[Filter.principal (Conf t₁ t₂)] (fun x => x.2 ^ (k + 1)) := by
      intro k hk
      have := jet_trunc (l := Filter.principal (Conf t₁ t₂)) (h := fun x : ℝ × ℝ => x.2)
        (g := fun x : ℝ × ℝ => y (x.1 + x.2) - y x.1)
        (u := fun N x => if N = 0 then 0 else
          treeSum (N - 1) (fun τ => (τ.exact / (τ.ord : ℝ)) • ev F (x.1, y x.1) τ 0 0))
        (n := m + 1) hh (fun N hN => ?_) ?_ (m := k + 1) (by omega)
      · refine this.congr_left fun x => ?_
        rw [Finset.sum_range_succ']
        simp
      · by_cases hN0 : N = 0
        · simp only [hN0, if_true]; exact isBigO_zero _ _
        · simp only [hN0, if_false]; exact hev _ _ (by omega)
      · refine ihm.congr_left fun x => ?_
        rw [Finset.sum_range_succ' (n := m)]
        simp
    let V : ℝ × ℝ → ℝ × E := fun x => (x.2, y (x.1 + x.2) - y x.1)
    let v : ℕ → ℝ × ℝ → ℝ × E := fun k x => (if k = 1 then 1 else 0,
      treeSum (k - 1) (fun τ => (τ.exact / (τ.ord : ℝ)) • ev F (x.1, y x.1) τ 0 0))
    have hv : ∀ k ≤ m, v k =O[Filter.principal (Conf t₁ t₂)] (fun _ => (1 : ℝ)) := by
      intro k hk
      exact (isBigO_const_const _ one_ne_zero _).prod_left (hev _ (k - 1) (by omega))
    have hV : ∀ k ≤ m, (fun x => V x - ∑ j ∈ Finset.range k, x.2 ^ (j + 1) • v (j + 1) x)
        =O[Filter.principal (Conf t₁ t₂)] (fun x => x.2 ^ (k + 1)) := by
      intro k hk
      have e1 : ∀ x, V x - ∑ j ∈ Finset.range k, x.2 ^ (j + 1) • v (j + 1) x
          = (if k = 0 then x.2 else 0, (y (x.1 + x.2) - y x.1) - ∑ N ∈ Finset.range k,
            x.2 ^ (N + 1) •
            treeSum N (fun τ => (τ.exact / (τ.ord : ℝ)) • ev F (x.1, y x.1) τ 0 0)) := by
        intro x
        refine Prod.ext ?_ ?_
        · rw [Prod.fst_sub, Prod.fst_sum]
          have : ∀ j ∈ Finset.range k, (x.2 ^ (j + 1) • v (j + 1) x).1
              = if j = 0 then x.2 else 0 := by
            intro j _
            simp only [v, Prod.smul_fst, smul_eq_mul, Nat.add_eq_right]
            split_ifs with hj
            · rw [hj]; ring
            · ring
          rw [Finset.sum_congr rfl this, Finset.sum_ite_eq']
          simp only [V, Finset.mem_range]
          by_cases hm0 : k = 0
          · rw [if_pos hm0, if_neg (by omega), sub_zero]
          · rw [if_neg hm0, if_pos (by omega), sub_self]
        · rw [Prod.snd_sub, Prod.snd_sum]
          simp only [V, v, Prod.smul_snd, Nat.add_sub_cancel]
      simp only [e1]
      refine IsBigO.prod_left ?_ (hall k hk)
      by_cases hm0 : k = 0
      · subst hm0
        simp only [if_true, zero_add, pow_one]
        exact isBigO_refl _ _
      · simp only [if_neg hm0]
        exact isBigO_zero _ _
    have hFm : ContDiff ℝ (m + 1) F := hF.of_le (by exact_mod_cast (by omega : m + 1 ≤ n + 1))
    have key := jet_of_comp hFm (fun z => hM (m + 1) hm z) (fun x : ℝ × ℝ => (x.1, y x.1)) V v hh
      (fun j hj => hD j (by omega)) hv hV
    have e3 : ∀ (x : ℝ × ℝ) N, coef F (x.1, y x.1) (fun k => v k x) N 0 0
        = treeSum N (fun τ => (τ.exact : ℝ) • ev F (x.1, y x.1) τ 0 0) := by
      intro x N
      rw [coef_eq_treeSum F (x.1, y x.1) 1 (fun τ => τ.exact / (τ.ord : ℝ)) (fun k => v k x)
        (fun k => ?_) N 0 0]
      · exact treeSum_congr N fun τ _ => by rw [Tree.exact_eq_prod]
      · simp only [v, Nat.add_sub_cancel, Nat.add_eq_right]
    obtain ⟨C, hC0, hC⟩ := key.exists_nonneg
    have hC' := isBigOWith_principal.mp hC
    refine isBigO_principal.mpr ⟨C, fun x hx => ?_⟩
    have := hint (m + 1) (fun N t => treeSum N (fun τ => (τ.exact : ℝ) • ev F (t, y t) τ 0 0)) C hC0
      (fun x hx => by
        have := hC' x hx
        simp only [e3] at this
        rw [norm_pow, Real.norm_of_nonneg hx.2.1] at this
        refine le_trans (le_of_eq ?_) this
        congr 2
        simp [V]) x hx
    rw [norm_pow, Real.norm_of_nonneg hx.2.1]
    refine le_trans (le_of_eq ?_) this
    congr 2
    refine Finset.sum_congr rfl fun N _ => ?_
    congr 1
    rw [← treeSum_smul]
    refine treeSum_congr N fun τ hτ => ?_
    rw [smul_smul, hτ]
    congr 1
    push_cast
    rw [div_eq_inv_mul]

/-- The weights of the method agree with those of the solution up to `ε` on all trees with at most
`p` vertices. -/
def Order (s : ℕ) (a : ℕ → ℕ → ℝ) (b c : ℕ → ℝ) (p : ℕ) (ε : ℝ) : Prop :=
  ∀ τ : Tree, τ.ord ≤ p →
    |∑ i ∈ Finset.range s, b i * τ.stage a c i - τ.exact / (τ.ord : ℝ)| ≤ ε

/-- The local error of a Runge–Kutta method along a solution. -/
theorem local_error [CompleteSpace E] {F : ℝ × E → E} {n : ℕ} (hF : ContDiff ℝ (n + 1) F) {M : ℝ}
    (hM : ∀ j ≤ n + 1, ∀ z, ‖iteratedFDeriv ℝ j F z‖ ≤ M) {t₁ t₂ : ℝ} {y : ℝ → E}
    (hy : ∀ t ∈ Set.Icc t₁ t₂, HasDerivWithinAt y (F (t, y t)) (Set.Icc t₁ t₂) t)
    (s : ℕ) (a : ℕ → ℕ → ℝ) (b c : ℕ → ℝ) (ε : ℝ) (hord : Order s a b c (n + 1) ε) :
    ∃ C, 0 ≤ C ∧ ∀ t h, t₁ ≤ t → 0 ≤ h → t + h ≤ t₂ →
      ‖rkStep F s a b c t (y t) h - y (t + h)‖ ≤ C * (h ^ (n + 2) + ε * h) := by
  have hD : ∀ j ≤ n, (fun x : ℝ × ℝ => iteratedFDeriv ℝ j F (x.1, y x.1))
      =O[Filter.principal (Conf t₁ t₂)] (fun _ => (1 : ℝ)) := by
    intro j hj
    refine isBigO_principal.mpr ⟨M, fun x _ => ?_⟩
    rw [norm_one, mul_one]
    exact hM j (by omega) _
  have hh : (fun x : ℝ × ℝ => x.2) =O[Filter.principal (Conf t₁ t₂)] (fun _ => (1 : ℝ)) := by
    refine isBigO_principal.mpr ⟨t₂ - t₁, fun x hx => ?_⟩
    rw [norm_one, mul_one, Real.norm_of_nonneg hx.2.1]
    linarith [hx.1, hx.2.2]
  have hε : 0 ≤ ε := (abs_nonneg _).trans (hord .dot (by simp [Tree.ord]))
  have h1 := solution_jet hF hM hy (n + 1) le_rfl
  have h2 : (fun x : ℝ × ℝ => x.2 ^ 1 • ∑ i ∈ Finset.range s, b i •
      (rkStage F a c x.1 (y x.1) x.2 i - ∑ N ∈ Finset.range (n + 1), x.2 ^ N •
        treeSum N (fun τ => τ.stage a c i • ev F (x.1, y x.1) τ 0 0)))
      =O[Filter.principal (Conf t₁ t₂)] (fun x => x.2 ^ (n + 2)) := by
    refine smul_pow_isBigO (b := n + 1) (isBigO_sum _ fun i _ => IsBigO.const_smul_left ?_ _)
      (by omega)
    exact stage_jet hF (hM (n + 1) le_rfl) a c (fun x : ℝ × ℝ => x.1) (fun x => y x.1) hh hD i
  have h3 : (fun x : ℝ × ℝ => ∑ N ∈ Finset.range (n + 1), x.2 ^ N • treeSum N (fun τ =>
      (∑ i ∈ Finset.range s, b i * τ.stage a c i - τ.exact / (τ.ord : ℝ)) •
        ev F (x.1, y x.1) τ 0 0)) =O[Filter.principal (Conf t₁ t₂)] (fun _ => ε) := by
    refine isBigO_sum _ fun N hN => ?_
    have hN' := Finset.mem_range.mp hN
    have h4 := treeSum_isBigO (l := Filter.principal (Conf t₁ t₂)) (f := fun _ => ε) N
      (fun τ x => (∑ i ∈ Finset.range s, b i * τ.stage a c i - τ.exact / (τ.ord : ℝ)) •
        ev F (x.1, y x.1) τ 0 0) (fun τ hτ => by
      have he := ev_isBigO F (fun x : ℝ × ℝ => (x.1, y x.1)) hD τ 0 0 (by omega)
        (fun i hi => absurd hi (Nat.not_lt_zero i))
      have hr : (fun _ : ℝ × ℝ => ∑ i ∈ Finset.range s, b i * τ.stage a c i
          - τ.exact / (τ.ord : ℝ)) =O[Filter.principal (Conf t₁ t₂)] (fun _ => ε) := by
        refine IsBigO.of_bound 1 (Filter.Eventually.of_forall fun _ => ?_)
        rw [one_mul, Real.norm_eq_abs, Real.norm_of_nonneg hε]
        exact hord τ (by omega)
      have h6 := hr.smul he
      simp only [smul_eq_mul, mul_one] at h6
      exact h6)
    have h5 : (fun x : ℝ × ℝ => x.2 ^ N) =O[Filter.principal (Conf t₁ t₂)] (fun _ => (1 : ℝ)) := by
      simpa using hh.pow N
    simpa using h5.smul h4
  obtain ⟨C1, hC10, hC1⟩ := h1.exists_nonneg
  obtain ⟨C2, hC20, hC2⟩ := h2.exists_nonneg
  obtain ⟨C3, hC30, hC3⟩ := h3.exists_nonneg
  refine ⟨C1 + C2 + C3, by positivity, fun t h ht hh0 hth => ?_⟩
  have hx : ((t, h) : ℝ × ℝ) ∈ Conf t₁ t₂ := ⟨ht, hh0, hth⟩
  have b1 := isBigOWith_principal.mp hC1 _ hx
  have b2 := isBigOWith_principal.mp hC2 _ hx
  have b3 := isBigOWith_principal.mp hC3 _ hx
  dsimp only at b1 b2 b3
  rw [norm_pow, Real.norm_of_nonneg hh0] at b1 b2
  rw [Real.norm_of_nonneg hε] at b3
  have e : rkStep F s a b c t (y t) h - y (t + h)
      = (h ^ 1 • ∑ i ∈ Finset.range s, b i •
      (rkStage F a c t (y t) h i - ∑ N ∈ Finset.range (n + 1), h ^ N •
        treeSum N (fun τ => τ.stage a c i • ev F (t, y t) τ 0 0)))
      - ((y (t + h) - y t) - ∑ N ∈ Finset.range (n + 1), h ^ (N + 1) •
        treeSum N (fun τ => (τ.exact / (τ.ord : ℝ)) • ev F (t, y t) τ 0 0))
      + h • ∑ N ∈ Finset.range (n + 1), h ^ N • treeSum N (fun τ =>
      (∑ i ∈ Finset.range s, b i * τ.stage a c i - τ.exact / (τ.ord : ℝ)) •
        ev F (t, y t) τ 0 0) := by
    have e1 : ∀ N, treeSum N (fun τ =>
        (∑ i ∈ Finset.range s, b i * τ.stage a c i - τ.exact / (τ.ord : ℝ)) • ev F (t, y t) τ 0 0)
        = ∑ i ∈ Finset.range s, b i • treeSum N (fun τ => τ.stage a c i • ev F (t, y t) τ 0 0)
          - treeSum N (fun τ => (τ.exact / (τ.ord : ℝ)) • ev F (t, y t) τ 0 0) := by
      intro N
      rw [eq_sub_iff_add_eq, ← treeSum_add]
      simp only [← treeSum_smul, ← treeSum_finset]
      refine treeSum_congr N fun τ _ => ?_
      rw [← add_smul, sub_add_cancel, Finset.sum_smul]
      exact Finset.sum_congr rfl fun i _ => mul_smul _ _ _
    simp only [e1, smul_sub, Finset.sum_sub_distrib, rkStep, pow_zero, one_smul, Finset.smul_sum,
      pow_succ', mul_smul]
    rw [Finset.sum_comm (s := Finset.range (n + 1)) (t := Finset.range s)]
    simp only [smul_comm (h ^ _) (b _)]
    abel
  rw [e]
  calc _ ≤ C2 * h ^ (n + 2) + C1 * h ^ (n + 1 + 1) + h * (C3 * ε) := by
        refine (norm_add_le _ _).trans (add_le_add ((norm_sub_le _ _).trans (add_le_add b2 b1)) ?_)
        rw [norm_smul, Real.norm_of_nonneg hh0]
        exact mul_le_mul_of_nonneg_left b3 hh0
    _ ≤ (C1 + C2 + C3) * (h ^ (n + 2) + ε * h) := by
        have : 0 ≤ h ^ (n + 2) := by positivity
        have h6 : 0 ≤ ε * h := by positivity
        rw [show n + 1 + 1 = n + 2 from rfl]
        nlinarith [mul_nonneg hC30 this, mul_nonneg hC10 h6, mul_nonneg hC20 h6]

end Verif.ODE
