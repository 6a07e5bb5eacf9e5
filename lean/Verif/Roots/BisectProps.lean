import Verif.Roots.Model
import Mathlib.Topology.Order.IntermediateValue
import Mathlib.Topology.Instances.Real.Lemmas

/-!
# Bisection and false position

C43 (a converged bisection is within tolerance of a root) and the false position part of C44.
-/

set_option autoImplicit false

namespace Verif.Roots

/-! ## Specification -/

/-- `f` is finite on the bracket and there equals the continuous function `g`. -/
def ContOn (f : Fn) (g : ℝ → ℝ) (x1 x2 : ℝ) : Prop :=
  (∀ x ∈ Set.uIcc x1 x2, f x = some (g x)) ∧ ContinuousOn g (Set.uIcc x1 x2)

/-- What every result of a root finder with at most `rounds` rounds says about itself: it is converged exactly when there
is no error message, the rounds counted are at most the limit, and a converged result reports the function at its root. -/
def Honest (f : Fn) (rounds : ℕ) (r : Result) : Prop :=
  (r.converged = true ↔ r.error = "") ∧ r.iterations ≤ rounds ∧ (r.converged = true → r.functionValue = f r.root)

/-- There is a root of `g` in the bracket within `d` of `x`. -/
def RootWithin (g : ℝ → ℝ) (x1 x2 x d : ℝ) : Prop := ∃ z ∈ Set.uIcc x1 x2, g z = 0 ∧ |x - z| ≤ d

/-! ## Lemmas -/

theorem mem_segment {x y p d t : ℝ} (hp : p ∈ Set.uIcc x y) (hq : p + d ∈ Set.uIcc x y) (h0 : 0 ≤ t) (h1 : t ≤ 1) :
    p + t * d ∈ Set.uIcc x y := by
  simp only [Set.uIcc, Set.mem_Icc] at *
  constructor <;> nlinarith

theorem root_between {g : ℝ → ℝ} {x1 x2 a b : ℝ} (hc : ContinuousOn g (Set.uIcc x1 x2)) (ha : a ∈ Set.uIcc x1 x2)
    (hb : b ∈ Set.uIcc x1 x2) (h1 : g a ≤ 0) (h2 : 0 ≤ g b) : ∃ z ∈ Set.uIcc a b, z ∈ Set.uIcc x1 x2 ∧ g z = 0 := by
  have hs : Set.uIcc a b ⊆ Set.uIcc x1 x2 := Set.uIcc_subset_uIcc ha hb
  have := intermediate_value_uIcc (hc.mono hs) (Set.mem_uIcc.mpr (Or.inl ⟨h1, h2⟩) : (0 : ℝ) ∈ Set.uIcc (g a) (g b))
  obtain ⟨z, hz, hz0⟩ := this
  exact ⟨z, hz, hs hz, hz0⟩

theorem abs_sub_le_of_mem {a b z x : ℝ} (hz : z ∈ Set.uIcc a b) (hx : x ∈ Set.uIcc a b) : |x - z| ≤ |b - a| :=
  Set.abs_sub_le_of_uIcc_subset_uIcc (Set.uIcc_subset_uIcc hz hx)

/-! ## Bisection -/

theorem bisectLoop_honest (f : Fn) (tol : ℝ) (rounds : ℕ) (dx rtb : ℝ) : Honest f rounds (bisectLoop f tol rounds dx rtb) := by
  have := forExit_rule (fun _ (_ : ℝ × ℝ) => True) (fun r => Honest f rounds r) (bisectStep f tol) 0 rounds (dx, rtb) trivial
    (by
      intro i s _ hi _
      rw [bisectStep]
      cases hf : f (s.2 + s.1 * (1 / 2)) with
      | none => exact ⟨by simp, by simp; omega, by simp⟩
      | some y =>
        dsimp only
        split
        · exact ⟨by simp, by simp; omega, by simp⟩
        · trivial)
  rw [bisectLoop]
  cases h : forExit (bisectStep f tol) 0 rounds (dx, rtb) with
  | inr r => rw [h] at this; exact this
  | inl s => exact ⟨by simp, by simp, by simp⟩

/-- **C43.**  What bisection says about its own result, for every function. -/
theorem bisection_honest (f : Fn) (x1 x2 tol : ℝ) (rounds : ℕ) : Honest f rounds (bisection f x1 x2 tol rounds) := by
  rw [bisection]
  split
  · split
    · exact ⟨by simp, by simp, by simp⟩
    split <;> exact bisectLoop_honest _ _ _ _ _
  · exact ⟨by simp, by simp, by simp⟩

/-- **C43.**  Without finite values of opposite sign at the ends, bisection refuses. -/
theorem bisection_refuses (f : Fn) (x1 x2 tol : ℝ) (rounds : ℕ)
    (h : ¬ ∃ y1 y2, f x1 = some y1 ∧ f x2 = some y2 ∧ y1 * y2 < 0) : (bisection f x1 x2 tol rounds).converged = false := by
  rw [bisection]
  split
  · rename_i y1 y2 h1 h2
    split
    · rfl
    · rename_i h3
      exact absurd ⟨y1, y2, h1, h2, not_le.mp h3⟩ h
  · rfl

theorem bisectLoop_spec (f : Fn) (g : ℝ → ℝ) (x1 x2 tol : ℝ) (rounds : ℕ) (dx rtb : ℝ) (hg : ContOn f g x1 x2)
    (h1 : rtb ∈ Set.uIcc x1 x2) (h2 : rtb + dx ∈ Set.uIcc x1 x2) (h3 : g rtb ≤ 0) (h4 : 0 < g (rtb + dx)) :
    (∃ r, bisectLoop f tol rounds dx rtb = r ∧ r.root ∈ Set.uIcc x1 x2 ∧ RootWithin g x1 x2 r.root r.achieved ∧
      r.achieved = |dx| / 2 ^ r.iterations ∧ (r.converged = true → r.achieved < tol ∨ g r.root = 0) ∧
      (r.converged = false → r.iterations = rounds ∧ (0 < rounds → tol ≤ |dx| / 2 ^ rounds))) := by
  have := forExit_rule
    (fun i (s : ℝ × ℝ) => s.2 ∈ Set.uIcc x1 x2 ∧ s.2 + s.1 ∈ Set.uIcc x1 x2 ∧ g s.2 ≤ 0 ∧ 0 < g (s.2 + s.1) ∧
      |s.1| = |dx| / 2 ^ i ∧ (0 < i → tol ≤ |s.1|))
    (fun r => r.root ∈ Set.uIcc x1 x2 ∧ RootWithin g x1 x2 r.root r.achieved ∧
      r.achieved = |dx| / 2 ^ r.iterations ∧ (r.achieved < tol ∨ g r.root = 0) ∧ r.converged = true)
    (bisectStep f tol) 0 rounds (dx, rtb) ⟨h1, h2, h3, h4, by simp, by simp⟩
    (by
      rintro i ⟨d, p⟩ _ hi ⟨hp, hq, hgp, hgq, hd, -⟩
      dsimp only at hp hq hgp hgq hd
      have hm : p + d * (1 / 2) ∈ Set.uIcc x1 x2 := by
        have := mem_segment hp hq (t := 1 / 2) (by norm_num) (by norm_num)
        rwa [mul_comm] at this
      have hd' : |d * (1 / 2)| = |dx| / 2 ^ (i + 1) := by
        rw [abs_mul, hd, abs_of_pos (by norm_num : (0 : ℝ) < 1 / 2), pow_succ]
        field_simp
      rw [bisectStep]
      dsimp only
      rw [hg.1 _ hm]
      dsimp only
      -- the bracket after the round
      have key : ∀ p', p' = (if g (p + d * (1 / 2)) ≤ 0 then p + d * (1 / 2) else p) →
          p' ∈ Set.uIcc x1 x2 ∧ p' + d * (1 / 2) ∈ Set.uIcc x1 x2 ∧ g p' ≤ 0 ∧ 0 < g (p' + d * (1 / 2)) := by
        rintro p' rfl
        split
        · rename_i h
          have e : p + d * (1 / 2) + d * (1 / 2) = p + d := by ring
          exact ⟨hm, by rw [e]; exact hq, h, by rw [e]; exact hgq⟩
        · rename_i h
          exact ⟨hp, hm, hgp, not_le.mp h⟩
      obtain ⟨k1, k2, k3, k4⟩ := key _ rfl
      split
      · rename_i hstop
        refine ⟨k1, ?_, hd', ?_, rfl⟩
        · obtain ⟨z, hz, hz', hz0⟩ := root_between hg.2 k1 k2 k3 k4.le
          refine ⟨z, hz', hz0, ?_⟩
          have := abs_sub_le_of_mem hz (x := if g (p + d * (1 / 2)) ≤ 0 then p + d * (1 / 2) else p) Set.left_mem_uIcc
          simpa using this
        · rcases hstop with h | h
          · exact Or.inl h
          · right
            dsimp only
            rw [if_pos h.le]
            exact h
      · rename_i hstop
        push Not at hstop
        exact ⟨k1, k2, k3, k4, hd', fun _ => hstop.1⟩)
  refine ⟨_, rfl, ?_⟩
  rw [bisectLoop]
  cases h : forExit (bisectStep f tol) 0 rounds (dx, rtb) with
  | inr r =>
    rw [h] at this
    obtain ⟨a, b, c, d, e⟩ := this
    exact ⟨a, b, c, fun _ => d, fun h => by rw [e] at h; cases h⟩
  | inl s =>
    rw [h] at this
    obtain ⟨k1, k2, k3, k4, k5, k6⟩ := this
    rw [Nat.zero_add] at k5 k6
    refine ⟨k1, ?_, k5, by simp, fun _ => ⟨rfl, fun h => by rw [← k5]; exact k6 h⟩⟩
    obtain ⟨z, hz, hz', hz0⟩ := root_between hg.2 k1 k2 k3 k4.le
    refine ⟨z, hz', hz0, ?_⟩
    have := abs_sub_le_of_mem hz (x := s.2) Set.left_mem_uIcc
    simpa using this

theorem bisection_cases {f : Fn} {g : ℝ → ℝ} {x1 x2 : ℝ} (tol : ℝ) (rounds : ℕ) (hg : ContOn f g x1 x2)
    (h : g x1 * g x2 < 0) : ∃ r, bisection f x1 x2 tol rounds = r ∧ r.root ∈ Set.uIcc x1 x2 ∧
      RootWithin g x1 x2 r.root r.achieved ∧ r.achieved = |x2 - x1| / 2 ^ r.iterations ∧
      (r.converged = true → r.achieved < tol ∨ g r.root = 0) ∧
      (r.converged = false → r.iterations = rounds ∧ (0 < rounds → tol ≤ |x2 - x1| / 2 ^ rounds)) := by
  rw [bisection, hg.1 x1 Set.left_mem_uIcc, hg.1 x2 Set.right_mem_uIcc]
  dsimp only
  rw [if_neg (not_le.mpr h)]
  split
  · rename_i h1
    have h2 : 0 < g x2 := by nlinarith
    exact bisectLoop_spec f g x1 x2 tol rounds (x2 - x1) x1 hg Set.left_mem_uIcc (by simp) h1.le (by simpa using h2)
  · rename_i h1
    have h1' : 0 < g x1 := lt_of_le_of_ne (not_lt.mp h1) (fun e => by rw [← e] at h; simp at h)
    have h2 : g x2 < 0 := by nlinarith
    have := bisectLoop_spec f g x1 x2 tol rounds (x1 - x2) x2 hg Set.right_mem_uIcc (by simp) h2.le (by simpa using h1')
    rw [abs_sub_comm x1 x2] at this
    exact this

/-- **C43.**  A converged bisection of a continuous function has bracketed a root: it lies in the initial bracket within
the reported accuracy of the returned value, which is the width of the bracket halved once per round; the accuracy is
below the tolerance unless the returned value is itself a root. -/
theorem bisection_converged (f : Fn) (g : ℝ → ℝ) (x1 x2 tol : ℝ) (rounds : ℕ) (hg : ContOn f g x1 x2)
    (hc : (bisection f x1 x2 tol rounds).converged = true) :
    (bisection f x1 x2 tol rounds).root ∈ Set.uIcc x1 x2 ∧
    RootWithin g x1 x2 (bisection f x1 x2 tol rounds).root (bisection f x1 x2 tol rounds).achieved ∧
    (bisection f x1 x2 tol rounds).achieved = |x2 - x1| / 2 ^ (bisection f x1 x2 tol rounds).iterations ∧
    ((bisection f x1 x2 tol rounds).achieved < tol ∨ g (bisection f x1 x2 tol rounds).root = 0) := by
  by_cases h : g x1 * g x2 < 0
  · obtain ⟨r, hr, h1, h2, h3, h4, -⟩ := bisection_cases tol rounds hg h
    rw [hr] at hc ⊢
    exact ⟨h1, h2, h3, h4 hc⟩
  · have := bisection_refuses f x1 x2 tol rounds (by
      rintro ⟨y1, y2, e1, e2, e3⟩
      rw [hg.1 x1 Set.left_mem_uIcc] at e1
      rw [hg.1 x2 Set.right_mem_uIcc] at e2
      cases e1; cases e2
      exact h e3)
    rw [this] at hc
    cases hc

/-- **C43.**  Bisection of a continuous function with a sign change converges when the limit on the rounds allows it. -/
theorem bisection_converges (f : Fn) (g : ℝ → ℝ) (x1 x2 tol : ℝ) (rounds : ℕ) (hg : ContOn f g x1 x2)
    (h : g x1 * g x2 < 0) (hr : 0 < rounds) (ht : |x2 - x1| / 2 ^ rounds < tol) :
    (bisection f x1 x2 tol rounds).converged = true := by
  obtain ⟨r, e, -, -, -, -, h5⟩ := bisection_cases tol rounds hg h
  rw [e]
  by_contra hn
  have := (h5 (by simpa using hn)).2 hr
  linarith

/-- The function `x ↦ x² - 2` on `[0, 2]` meets the hypotheses. -/
example : ContOn (fun x => some (x ^ 2 - 2)) (fun x => x ^ 2 - 2) 0 2 ∧
    (fun x : ℝ => x ^ 2 - 2) 0 * (fun x : ℝ => x ^ 2 - 2) 2 < 0 ∧ |(2 : ℝ) - 0| / 2 ^ 50 < 1 / 10 ^ 10 :=
  ⟨⟨fun _ _ => rfl, by fun_prop⟩, by norm_num, by norm_num⟩

/-- **C43.**  The overload without configuration returns a value within its tolerance of a root, or throws. -/
theorem bisection_simple (f : Fn) (g : ℝ → ℝ) (x1 x2 tol : ℝ) (rounds : ℕ) (hg : ContOn f g x1 x2) (ht : 0 ≤ tol) :
    (∃ x, rootOrThrow (.ret (bisection f x1 x2 tol rounds)) = .ret x ∧ RootWithin g x1 x2 x tol) ∨
      rootOrThrow (.ret (bisection f x1 x2 tol rounds)) = .exn (.mml "RootFindingError") := by
  cases hc : (bisection f x1 x2 tol rounds).converged with
  | false => right; simp [rootOrThrow, hc]
  | true =>
    left
    obtain ⟨h1, ⟨z, hz, hz0, hzd⟩, -, h4⟩ := bisection_converged f g x1 x2 tol rounds hg hc
    refine ⟨_, by simp only [rootOrThrow, Outcome.bind_ret, hc, if_true]; rfl, ?_⟩
    rcases h4 with h4 | h4
    · exact ⟨z, hz, hz0, hzd.trans h4.le⟩
    · exact ⟨_, h1, h4, by simpa using ht⟩

/-! ## False position -/

theorem fpLoop_honest (f : Fn) (tol : ℝ) (rounds : ℕ) (x1 x2 f1 f2 : ℝ) :
    ∀ r, fpLoop f tol rounds x1 x2 f1 f2 = .ret r → Honest f rounds r := by
  have := forExit_rule (fun _ (_ : FP) => True) (fun o => ∀ r, o = .ret r → Honest f rounds r) (fpStep f tol) 0 rounds
    ⟨x1, x2, f1, f2, x1⟩ trivial
    (by
      intro i s _ hi _
      rw [fpStep]
      split
      · intro r hr; cases hr
      cases hf : f (s.x1 + (s.x2 - s.x1) * s.f1 / (s.f1 - s.f2)) with
      | none => rintro r ⟨⟩; exact ⟨by simp, by simp; omega, by simp⟩
      | some y =>
        dsimp only
        rw [fpFinish]
        split
        · rintro r ⟨⟩
          refine ⟨by simp, by simp; omega, fun _ => ?_⟩
          rw [fpUpdate]
          split <;> exact hf.symm
        · trivial)
  rw [fpLoop]
  cases h : forExit (fpStep f tol) 0 rounds ⟨x1, x2, f1, f2, x1⟩ with
  | inr r => rw [h] at this; exact this
  | inl s => rintro r ⟨⟩; exact ⟨by simp, by simp, by simp⟩

/-- **C44.**  What false position says about its own result, for every function. -/
theorem falsePosition_honest (f : Fn) (x1 x2 tol : ℝ) (rounds : ℕ) (r : Result)
    (h : falsePosition f x1 x2 tol rounds = .ret r) : Honest f rounds r := by
  rw [falsePosition] at h
  split at h
  · split at h
    · cases h; exact ⟨by simp, by simp, by simp⟩
    split at h <;> exact fpLoop_honest _ _ _ _ _ _ _ _ h
  · cases h; exact ⟨by simp, by simp, by simp⟩

theorem fpLoop_spec (f : Fn) (g : ℝ → ℝ) (x1 x2 tol : ℝ) (rounds : ℕ) (a b : ℝ) (hg : ContOn f g x1 x2)
    (h1 : a ∈ Set.uIcc x1 x2) (h2 : b ∈ Set.uIcc x1 x2) (h3 : g a < 0) (h4 : 0 ≤ g b) :
    ∃ r, fpLoop f tol rounds a b (g a) (g b) = .ret r ∧ r.root ∈ Set.uIcc x1 x2 ∧
      (∃ z ∈ Set.uIcc x1 x2, g z = 0 ∧ |r.root - z| ≤ r.achieved) ∧
      (r.converged = true → |g r.root| < tol ∨ r.achieved < tol) := by
  have := forExit_rule
    (fun _ (s : FP) => s.x1 ∈ Set.uIcc x1 x2 ∧ s.x2 ∈ Set.uIcc x1 x2 ∧ s.f1 = g s.x1 ∧ s.f2 = g s.x2 ∧ g s.x1 < 0 ∧
      0 ≤ g s.x2 ∧ (s.rtf = s.x1 ∨ s.rtf = s.x2))
    (fun o => ∃ r, o = .ret r ∧ r.root ∈ Set.uIcc x1 x2 ∧ (∃ z ∈ Set.uIcc x1 x2, g z = 0 ∧ |r.root - z| ≤ r.achieved) ∧
      (r.converged = true → |g r.root| < tol ∨ r.achieved < tol))
    (fpStep f tol) 0 rounds ⟨a, b, g a, g b, a⟩ ⟨h1, h2, rfl, rfl, h3, h4, Or.inl rfl⟩
    (by
      rintro i ⟨a, b, fa, fb, c⟩ _ hi ⟨ha, hb, hfa, hfb, hga, hgb, -⟩
      dsimp only at ha hb hga hgb hfa hfb
      subst hfa hfb
      have hden : g a - g b < 0 := by linarith
      rw [fpStep]
      dsimp only
      rw [if_neg hden.ne]
      have ht0 : 0 ≤ g a / (g a - g b) := div_nonneg_of_nonpos hga.le hden.le
      have ht1 : g a / (g a - g b) ≤ 1 := by rw [div_le_one_of_neg hden]; linarith
      have hm : a + (b - a) * g a / (g a - g b) ∈ Set.uIcc x1 x2 := by
        have := mem_segment ha (by simpa using hb : a + (b - a) ∈ Set.uIcc x1 x2) ht0 ht1
        rwa [mul_comm, ← mul_div_assoc] at this
      generalize a + (b - a) * g a / (g a - g b) = m at hm
      rw [hg.1 _ hm]
      dsimp only
      -- the bracket after the round
      have key : ∀ s', s' = fpUpdate ⟨a, b, g a, g b, c⟩ m (g m) →
          s'.x1 ∈ Set.uIcc x1 x2 ∧ s'.x2 ∈ Set.uIcc x1 x2 ∧ s'.f1 = g s'.x1 ∧ s'.f2 = g s'.x2 ∧ g s'.x1 < 0 ∧
          0 ≤ g s'.x2 ∧ (s'.rtf = s'.x1 ∨ s'.rtf = s'.x2) ∧ s'.rtf = m := by
        rintro s' rfl
        rw [fpUpdate]
        split
        · rename_i h
          exact ⟨hm, hb, rfl, rfl, h, hgb, Or.inl rfl, rfl⟩
        · rename_i h
          exact ⟨ha, hm, rfl, rfl, hga, not_lt.mp h, Or.inr rfl, rfl⟩
      generalize fpUpdate ⟨a, b, g a, g b, c⟩ m (g m) = s' at key
      obtain ⟨k1, k2, k3, k4, k5, k6, k7, k8⟩ := key s' rfl
      rw [fpFinish]
      split
      · rename_i hstop
        refine ⟨_, rfl, by rw [k8]; exact hm, ?_, fun _ => ?_⟩
        · obtain ⟨z, hz, hz', hz0⟩ := root_between hg.2 k1 k2 k5.le k6
          refine ⟨z, hz', hz0, abs_sub_le_of_mem hz ?_⟩
          rcases k7 with k7 | k7 <;> rw [k7]
          · exact Set.left_mem_uIcc
          · exact Set.right_mem_uIcc
        · rcases hstop with h | h
          · left; rw [k8]; exact h
          · exact Or.inr h
      · exact ⟨k1, k2, k3, k4, k5, k6, k7⟩)
  rw [fpLoop]
  cases h : forExit (fpStep f tol) 0 rounds ⟨a, b, g a, g b, a⟩ with
  | inr r => rw [h] at this; exact this
  | inl s =>
    rw [h] at this
    obtain ⟨k1, k2, k3, k4, k5, k6, k7⟩ := this
    refine ⟨_, rfl, ?_, ?_, by simp⟩
    · rcases k7 with k7 | k7 <;> dsimp only <;> rw [k7] <;> assumption
    · obtain ⟨z, hz, hz', hz0⟩ := root_between hg.2 k1 k2 k5.le k6
      refine ⟨z, hz', hz0, abs_sub_le_of_mem hz ?_⟩
      rcases k7 with k7 | k7 <;> dsimp only <;> rw [k7]
      · exact Set.left_mem_uIcc
      · exact Set.right_mem_uIcc

/-- **C44.**  False position keeps a bracket: for a continuous function with a sign change it never divides by zero, and
converged or not its result lies in the initial bracket, with a root of the function in the bracket within the reported
accuracy; on convergence the accuracy or the function value is below the tolerance. -/
theorem falsePosition_brackets (f : Fn) (g : ℝ → ℝ) (x1 x2 tol : ℝ) (rounds : ℕ) (hg : ContOn f g x1 x2)
    (h : g x1 * g x2 < 0) :
    ∃ r, falsePosition f x1 x2 tol rounds = .ret r ∧ r.root ∈ Set.uIcc x1 x2 ∧
      RootWithin g x1 x2 r.root r.achieved ∧ (r.converged = true → |g r.root| < tol ∨ r.achieved < tol) := by
  rw [falsePosition, hg.1 x1 Set.left_mem_uIcc, hg.1 x2 Set.right_mem_uIcc]
  dsimp only
  rw [if_neg (not_le.mpr h)]
  split
  · rename_i h1
    have h2 : g x2 < 0 := by nlinarith
    exact fpLoop_spec f g x1 x2 tol rounds x2 x1 hg Set.right_mem_uIcc Set.left_mem_uIcc h2 h1.le
  · rename_i h1
    have h1' : g x1 < 0 := lt_of_le_of_ne (not_lt.mp h1) (fun e => by rw [e] at h; simp at h)
    have h2 : 0 < g x2 := by nlinarith
    exact fpLoop_spec f g x1 x2 tol rounds x1 x2 hg Set.left_mem_uIcc Set.right_mem_uIcc h1' h2.le

/-- **C44.**  Without finite values of opposite sign at the ends, false position refuses. -/
theorem falsePosition_refuses (f : Fn) (x1 x2 tol : ℝ) (rounds : ℕ)
    (h : ¬ ∃ y1 y2, f x1 = some y1 ∧ f x2 = some y2 ∧ y1 * y2 < 0) :
    ∃ r, falsePosition f x1 x2 tol rounds = .ret r ∧ r.converged = false := by
  rw [falsePosition]
  split
  · rename_i y1 y2 h1 h2
    split
    · exact ⟨_, rfl, rfl⟩
    · rename_i h3
      exact absurd ⟨y1, y2, h1, h2, not_le.mp h3⟩ h
  · exact ⟨_, rfl, rfl⟩

end Verif.Roots
