import Verif.Roots.BisectProps

/-!
# Brent, Ridders, Newton and the secant method

C68: what a converged result of the faster root finders guarantees.
-/

set_option autoImplicit false

namespace Verif.Roots

/-! ## Brent -/

theorem brChoose_spec (s : Br) (xm tol1 : ℝ) (hxm : xm ≠ 0) (hfc : s.fc ≠ 0) :
    ∃ d e u, brChoose s xm tol1 = .ret (d, e) ∧ d = u * xm ∧ 0 ≤ u ∧ u ≤ 3 / 2 := by
  rw [brChoose]
  split
  · rename_i h
    have hfa : s.fa ≠ 0 := by
      intro h0
      rw [h0, abs_zero] at h
      exact absurd h.2 (not_lt.mpr (abs_nonneg _))
    obtain ⟨p, q, hp, hpq⟩ : ∃ p q, 0 ≤ p ∧ brPQ s xm = .ret (p, q) := by
      rw [brPQ, if_neg hfa]
      split
      · exact ⟨_, _, abs_nonneg _, rfl⟩
      · exact ⟨_, _, abs_nonneg _, rfl⟩
    rw [hpq]
    show ∃ d e u, brAccept s xm tol1 (p, q) = .ret (d, e) ∧ _
    rw [brAccept]
    dsimp only
    have hmin : (if 3 * xm * q - |tol1 * q| < |s.e * q| then 3 * xm * q - |tol1 * q| else |s.e * q|) ≤
        3 * xm * q - |tol1 * q| := by
      split
      · exact le_rfl
      · rename_i h'; exact not_lt.mp h'
    generalize (if 3 * xm * q - |tol1 * q| < |s.e * q| then 3 * xm * q - |tol1 * q| else |s.e * q|) = m at hmin
    by_cases hlt : 2 * p < m
    · rw [if_pos hlt]
      have hlt' : 2 * p < 3 * xm * q - |tol1 * q| := lt_of_lt_of_le hlt hmin
      have hq : 0 < xm * q := by nlinarith [abs_nonneg (tol1 * q)]
      have hq0 : q ≠ 0 := fun h0 => by rw [h0] at hq; simp at hq
      rw [if_neg hq0]
      refine ⟨_, _, p / (xm * q), rfl, by field_simp, by positivity, ?_⟩
      rw [div_le_iff₀ hq]
      nlinarith [abs_nonneg (tol1 * q)]
    · rw [if_neg hlt]
      exact ⟨xm, xm, 1, rfl, by ring, by norm_num, by norm_num⟩
  · exact ⟨xm, xm, 1, rfl, by ring, by norm_num, by norm_num⟩

theorem brNext_mem {x1 x2 b c d u tol1 : ℝ} (hb : b ∈ Set.uIcc x1 x2) (hc : c ∈ Set.uIcc x1 x2)
    (hd : d = u * (1 / 2 * (c - b))) (h0 : 0 ≤ u) (h1 : u ≤ 3 / 2) (ht : 0 ≤ tol1) (hx : tol1 < |1 / 2 * (c - b)|) :
    brNext b d (1 / 2 * (c - b)) tol1 ∈ Set.uIcc x1 x2 := by
  have hq : b + (c - b) ∈ Set.uIcc x1 x2 := by simpa using hc
  rw [brNext]
  split
  · have := mem_segment hb hq (t := u * (1 / 2)) (by linarith) (by linarith)
    rwa [mul_assoc, ← hd] at this
  · have hpos : 0 < |1 / 2 * (c - b)| := lt_of_le_of_lt ht hx
    have e : copysign tol1 (1 / 2 * (c - b)) = tol1 / (2 * |1 / 2 * (c - b)|) * (c - b) := by
      rw [copysign, abs_of_nonneg ht]
      split
      · rename_i hneg
        rw [abs_of_neg hneg]
        have : c - b ≠ 0 := fun h0 => by rw [h0] at hneg; simp at hneg
        field_simp
      · rename_i hneg
        rw [abs_of_nonneg (not_lt.mp hneg)] at hpos ⊢
        have : c - b ≠ 0 := fun h0 => by rw [h0] at hpos; simp at hpos
        field_simp
    rw [e]
    refine mem_segment hb hq (by positivity) ?_
    rw [div_le_one (by positivity)]
    linarith

/-- The invariant of Brent's loop: the function changes sign strictly between `a` and `c`. -/
def BrInv (g : ℝ → ℝ) (x1 x2 : ℝ) (s : Br) : Prop :=
  s.a ∈ Set.uIcc x1 x2 ∧ s.b ∈ Set.uIcc x1 x2 ∧ s.c ∈ Set.uIcc x1 x2 ∧ s.fa = g s.a ∧ s.fb = g s.b ∧ s.fc = g s.c ∧
    g s.a * g s.c < 0

/-- After the rearrangements of a round the function changes sign between `b` and `c`, or vanishes at `b`. -/
def BrMid (g : ℝ → ℝ) (x1 x2 : ℝ) (s : Br) : Prop :=
  s.a ∈ Set.uIcc x1 x2 ∧ s.b ∈ Set.uIcc x1 x2 ∧ s.c ∈ Set.uIcc x1 x2 ∧ s.fa = g s.a ∧ s.fb = g s.b ∧ s.fc = g s.c ∧
    (g s.b * g s.c < 0 ∨ g s.b = 0)

theorem brBracket_spec (g : ℝ → ℝ) (x1 x2 : ℝ) (s : Br) (h : BrInv g x1 x2 s) :
    BrMid g x1 x2 (brSwap (brBracket s)) := by
  obtain ⟨h1, h2, h3, h4, h5, h6, h7⟩ := h
  have key : BrMid g x1 x2 (brBracket s) := by
    rw [brBracket]
    split
    · rename_i hs
      refine ⟨h1, h2, h1, h4, h5, h4, Or.inl ?_⟩
      dsimp only
      rw [h5, h6] at hs
      rcases hs with ⟨k1, k2⟩ | ⟨k1, k2⟩
      · have : g s.a < 0 := by nlinarith
        nlinarith
      · have : 0 < g s.a := by nlinarith
        nlinarith
    · rename_i hs
      refine ⟨h1, h2, h3, h4, h5, h6, ?_⟩
      rw [h5, h6] at hs
      by_cases h0 : g s.b = 0
      · exact Or.inr h0
      left
      have hc0 : g s.c ≠ 0 := fun e => by rw [e] at h7; simp at h7
      rcases lt_or_gt_of_ne h0 with k1 | k1 <;> rcases lt_or_gt_of_ne hc0 with k2 | k2
      · exact absurd (Or.inr ⟨k1, k2⟩) hs
      · nlinarith
      · nlinarith
      · exact absurd (Or.inl ⟨k1, k2⟩) hs
  obtain ⟨h1, h2, h3, h4, h5, h6, h7⟩ := key
  rw [brSwap]
  split
  · rename_i hlt
    refine ⟨h2, h3, h2, h5, h6, h5, ?_⟩
    dsimp only
    rcases h7 with h7 | h7
    · left; rw [mul_comm]; exact h7
    · rw [h5, h7, abs_zero] at hlt
      exact absurd hlt (not_lt.mpr (abs_nonneg _))
  · exact ⟨h1, h2, h3, h4, h5, h6, h7⟩

/-- **C68 (Brent).**  For a continuous function with a sign change Brent's method never divides by zero and always
returns a point of the initial bracket.  If it reports convergence, the bracket has a root within twice the reported
accuracy of the returned value, and that accuracy is within the tolerance `2 ε |x| + tol / 2` or the value is itself a
root. -/
theorem brent_spec (f : Fn) (g : ℝ → ℝ) (eps x1 x2 tol : ℝ) (rounds : ℕ) (hg : ContOn f g x1 x2)
    (h : g x1 * g x2 < 0) (heps : 0 ≤ eps) (htol : 0 ≤ tol) (hr : 0 < rounds) :
    ∃ r, brent f eps x1 x2 tol rounds = .ret r ∧ Honest f rounds r ∧ r.root ∈ Set.uIcc x1 x2 ∧
      (r.converged = true → RootWithin g x1 x2 r.root (2 * r.achieved) ∧
        (r.achieved ≤ 2 * eps * |r.root| + 1 / 2 * tol ∨ g r.root = 0)) := by
  have hx1 : x1 ∈ Set.uIcc x1 x2 := Set.left_mem_uIcc
  have hx2 : x2 ∈ Set.uIcc x1 x2 := Set.right_mem_uIcc
  rw [brent, hg.1 x1 hx1, hg.1 x2 hx2]
  dsimp only
  rw [if_neg (not_le.mpr h)]
  have := forExit_rule (fun i s => BrInv g x1 x2 s ∧ (0 < i → s.xm ≠ none))
    (fun o => ∃ r, o = .ret r ∧ Honest f rounds r ∧ r.root ∈ Set.uIcc x1 x2 ∧
      (r.converged = true → RootWithin g x1 x2 r.root (2 * r.achieved) ∧
        (r.achieved ≤ 2 * eps * |r.root| + 1 / 2 * tol ∨ g r.root = 0)))
    (brStep f eps tol) 0 rounds ⟨x1, x2, x2, 0, 0, g x1, g x2, g x2, none⟩
    ⟨⟨hx1, hx2, hx2, rfl, rfl, rfl, h⟩, by simp⟩
    (by
      rintro i s _ hi ⟨hs, -⟩
      rw [brStep]
      have hm := brBracket_spec g x1 x2 s hs
      generalize brSwap (brBracket s) = s at hm
      obtain ⟨h1, h2, h3, h4, h5, h6, h7⟩ := hm
      rw [brTest]
      split
      · rename_i hstop
        refine ⟨_, rfl, ⟨by simp, by simp; omega, fun _ => ?_⟩, h2, fun _ => ⟨?_, ?_⟩⟩
        · dsimp only; rw [hg.1 _ h2, h5]
        · rcases h7 with h7 | h7
          · obtain ⟨z, hz, hz', hz0⟩ : ∃ z ∈ Set.uIcc s.b s.c, z ∈ Set.uIcc x1 x2 ∧ g z = 0 := by
              rcases lt_or_ge (g s.b) 0 with k | k
              · exact root_between hg.2 h2 h3 k.le (by nlinarith)
              · obtain ⟨z, hz, hz'⟩ := root_between hg.2 h3 h2 (by nlinarith) k
                rw [Set.uIcc_comm] at hz
                exact ⟨z, hz, hz'⟩
            refine ⟨z, hz', hz0, ?_⟩
            have := abs_sub_le_of_mem hz (x := s.b) Set.left_mem_uIcc
            dsimp only
            rw [abs_mul, abs_of_pos (by norm_num : (0 : ℝ) < 1 / 2)]
            linarith
          · refine ⟨s.b, h2, h7, ?_⟩
            dsimp only
            rw [sub_self, abs_zero]
            positivity
        · rcases hstop with k | k
          · exact Or.inl k
          · right; dsimp only; rw [← h5]; exact k
      · rename_i hstop
        push Not at hstop
        obtain ⟨hx, hb0⟩ := hstop
        have ht1 : 0 ≤ 2 * eps * |s.b| + 1 / 2 * tol := by positivity
        have hneg : g s.b * g s.c < 0 := by
          rcases h7 with h7 | h7
          · exact h7
          · exact absurd (by rw [h5]; exact h7) hb0
        have hfc : s.fc ≠ 0 := by
          rw [h6]; intro e; rw [e] at hneg; simp at hneg
        have hxm : 1 / 2 * (s.c - s.b) ≠ 0 := by
          intro e; rw [e, abs_zero] at hx; linarith
        rw [brMove]
        obtain ⟨d, e, u, hch, hd, hu0, hu1⟩ := brChoose_spec s (1 / 2 * (s.c - s.b)) (2 * eps * |s.b| + 1 / 2 * tol) hxm hfc
        rw [hch]
        dsimp only
        have hmem := brNext_mem h2 h3 hd hu0 hu1 ht1 hx
        rw [hg.1 _ hmem]
        exact ⟨⟨h2, hmem, h3, h5, rfl, h6, hneg⟩, fun _ => by simp⟩)
  cases hE : forExit (brStep f eps tol) 0 rounds ⟨x1, x2, x2, 0, 0, g x1, g x2, g x2, none⟩ with
  | inr r => rw [hE] at this; exact this
  | inl s =>
    rw [hE] at this
    obtain ⟨⟨h1, h2, h3, h4, h5, h6, h7⟩, h8⟩ := this
    dsimp only
    rw [brEnd]
    cases hxm : s.xm with
    | none => exact absurd hxm (h8 (by omega))
    | some xm => exact ⟨_, rfl, ⟨by simp, by simp, by simp⟩, h2, by simp⟩

/-- **C68 (Brent).**  Without finite values of opposite sign at the ends, Brent's method refuses. -/
theorem brent_refuses (f : Fn) (eps x1 x2 tol : ℝ) (rounds : ℕ)
    (h : ¬ ∃ y1 y2, f x1 = some y1 ∧ f x2 = some y2 ∧ y1 * y2 < 0) :
    ∃ r, brent f eps x1 x2 tol rounds = .ret r ∧ r.converged = false := by
  rw [brent]
  split
  · rename_i y1 y2 h1 h2
    split
    · exact ⟨_, rfl, rfl⟩
    · rename_i h3
      exact absurd ⟨y1, y2, h1, h2, not_le.mp h3⟩ h
  · exact ⟨_, rfl, rfl⟩

/-- `x² - 2` on `[0, 2]` meets the hypotheses. -/
example : ∃ r, brent (fun x => some (x ^ 2 - 2)) (1 / 2 ^ 52) 0 2 (1 / 10 ^ 10) 100 = .ret r ∧ r.root ∈ Set.uIcc 0 2 :=
  have ⟨r, h1, _, h2, _⟩ := brent_spec (fun x => some (x ^ 2 - 2)) (fun x => x ^ 2 - 2) (1 / 2 ^ 52) 0 2 (1 / 10 ^ 10) 100
    ⟨fun _ _ => rfl, by fun_prop⟩ (by norm_num) (by norm_num) (by norm_num) (by norm_num)
  ⟨r, h1, h2⟩

/-- The hypothesis on the number of rounds always holds: the limit the code uses is positive for every configuration, as
its default is. -/
theorem roundLimit_pos (maxIterations dflt : ℤ) (h : 0 < dflt) : 0 < roundLimit maxIterations dflt := by
  rw [roundLimit]
  split <;> omega

example : roundLimit 0 100 = 100 ∧ roundLimit 7 100 = 7 := by decide

/-! ## Ridders -/

theorem copysign_ne {a b : ℝ} (h : copysign a b ≠ a) : (b < 0 ∧ 0 < a) ∨ (0 ≤ b ∧ a < 0) := by
  rw [copysign] at h
  split at h
  · rename_i hb
    refine Or.inl ⟨hb, ?_⟩
    by_contra ha
    exact h (by rw [abs_of_nonpos (not_lt.mp ha), neg_neg])
  · rename_i hb
    refine Or.inr ⟨not_lt.mp hb, ?_⟩
    by_contra ha
    exact h (abs_of_nonneg (not_lt.mp ha))

theorem copysign_eq {a b : ℝ} (h : ¬ copysign a b ≠ a) : (b < 0 ∧ a ≤ 0) ∨ (0 ≤ b ∧ 0 ≤ a) := by
  rw [not_not, copysign] at h
  split at h
  · rename_i hb
    exact Or.inl ⟨hb, by rw [← h]; simp⟩
  · rename_i hb
    exact Or.inr ⟨not_lt.mp hb, by rw [← h]; simp⟩

/-- The invariant of Ridders' loop: a strict sign change between the ends; after the first round the last estimate is one
of the ends. -/
def RidInv (g : ℝ → ℝ) (x1 x2 : ℝ) (i : ℕ) (s : Rid) : Prop :=
  s.x1 ∈ Set.uIcc x1 x2 ∧ s.x2 ∈ Set.uIcc x1 x2 ∧ s.f1 = g s.x1 ∧ s.f2 = g s.x2 ∧ g s.x1 * g s.x2 < 0 ∧
    (s.ans = s.x1 ∨ s.ans = s.x2 ∨ (i = 0 ∧ s.ans = -10 ^ 99))

theorem ridUpdate_spec (g : ℝ → ℝ) (x1 x2 : ℝ) (i : ℕ) (s : Rid) (hs : RidInv g x1 x2 i s) (xm a : ℝ)
    (hxm : xm ∈ Set.uIcc x1 x2) (ha : a ∈ Set.uIcc x1 x2) (h0 : g a ≠ 0) :
    RidInv g x1 x2 (i + 1) (ridUpdate s xm (g xm) a (g a)) ∧ (ridUpdate s xm (g xm) a (g a)).ans = a := by
  obtain ⟨h1, h2, h3, h4, h5, -⟩ := hs
  rw [ridUpdate]
  split
  · rename_i hc
    refine ⟨⟨hxm, ha, rfl, rfl, ?_, Or.inr (Or.inl rfl)⟩, rfl⟩
    rcases copysign_ne hc with ⟨k1, k2⟩ | ⟨k1, k2⟩
    · dsimp only; nlinarith
    · have := lt_of_le_of_ne k1 h0.symm
      dsimp only; nlinarith
  split
  · rename_i hc
    refine ⟨⟨h1, ha, h3, rfl, ?_, Or.inr (Or.inl rfl)⟩, rfl⟩
    rw [h3] at hc
    rcases copysign_ne hc with ⟨k1, k2⟩ | ⟨k1, k2⟩
    · dsimp only; nlinarith
    · have := lt_of_le_of_ne k1 h0.symm
      dsimp only; nlinarith
  · rename_i hc
    refine ⟨⟨ha, h2, rfl, h4, ?_, Or.inl rfl⟩, rfl⟩
    rw [h3] at hc
    rcases copysign_eq hc with ⟨k1, k2⟩ | ⟨k1, k2⟩
    · dsimp only
      have : g s.x1 < 0 := lt_of_le_of_ne k2 (fun e => by rw [e] at h5; simp at h5)
      have : 0 < g s.x2 := by nlinarith
      nlinarith
    · dsimp only
      have := lt_of_le_of_ne k1 h0.symm
      have : 0 < g s.x1 := lt_of_le_of_ne k2 (fun e => by rw [← e] at h5; simp at h5)
      have : g s.x2 < 0 := by nlinarith
      nlinarith

theorem ridNew_mem {g : ℝ → ℝ} {x1 x2 : ℝ} {i : ℕ} {s : Rid} (hs : RidInv g x1 x2 i s) (fm : ℝ) :
    0 < fm * fm - s.f1 * s.f2 ∧
    ridNew s (1 / 2 * (s.x1 + s.x2)) fm (Real.sqrt (fm * fm - s.f1 * s.f2)) ∈ Set.uIcc x1 x2 := by
  obtain ⟨h1, h2, h3, h4, h5, -⟩ := hs
  have hpos : 0 < fm * fm - s.f1 * s.f2 := by rw [h3, h4]; nlinarith
  refine ⟨hpos, ?_⟩
  have hs0 : 0 < Real.sqrt (fm * fm - s.f1 * s.f2) := Real.sqrt_pos.mpr hpos
  have hq : |fm / Real.sqrt (fm * fm - s.f1 * s.f2)| ≤ 1 := by
    rw [abs_div, abs_of_pos hs0, div_le_one hs0]
    apply Real.le_sqrt_of_sq_le
    rw [sq_abs, h3, h4]
    nlinarith
  obtain ⟨v, hv, hv'⟩ : ∃ v, |v| ≤ 1 ∧ (if s.f1 ≥ s.f2 then (1 : ℝ) else -1) * fm / Real.sqrt (fm * fm - s.f1 * s.f2) = v := by
    refine ⟨_, ?_, rfl⟩
    rw [mul_div_assoc, abs_mul]
    split <;> simpa using hq
  rw [ridNew, hv']
  have hq' : s.x1 + (s.x2 - s.x1) ∈ Set.uIcc x1 x2 := by simpa using h2
  rw [abs_le] at hv
  have := mem_segment h1 hq' (t := (1 + v) / 2) (by linarith) (by linarith)
  convert this using 1
  ring

/-- **C68 (Ridders).**  For a continuous function with a sign change and a positive tolerance below the distance to the
start value `-10^99` of the estimate, Ridders' method never takes the root of a negative number; if it reports convergence
the returned value lies in the initial bracket, and there the function is below the tolerance, or a root lies within the
tolerance, or the next estimate would have moved by no more than the reported accuracy, which is within the tolerance. -/
theorem ridders_spec_partial (f : Fn) (g : ℝ → ℝ) (x1 x2 tol : ℝ) (rounds : ℕ) (hg : ContOn f g x1 x2)
    (h : g x1 * g x2 < 0) (htol : 0 < tol) (hfar : ∀ x ∈ Set.uIcc x1 x2, tol < |x - (-10 ^ 99)|) :
    ∃ r, ridders f x1 x2 tol rounds = .ret r ∧ Honest f rounds r ∧
      (r.converged = true → r.root ∈ Set.uIcc x1 x2 ∧ r.functionValue = some (g r.root) ∧
        (|g r.root| < tol ∨ RootWithin g x1 x2 r.root tol ∨
          ∃ x ∈ Set.uIcc x1 x2, |x - r.root| = r.achieved ∧ r.achieved ≤ tol)) := by
  have hx1 : x1 ∈ Set.uIcc x1 x2 := Set.left_mem_uIcc
  have hx2 : x2 ∈ Set.uIcc x1 x2 := Set.right_mem_uIcc
  rw [ridders, hg.1 x1 hx1, hg.1 x2 hx2]
  dsimp only
  rw [if_neg (not_le.mpr h)]
  have := forExit_rule (fun i s => RidInv g x1 x2 i s)
    (fun o => ∃ r, o = .ret r ∧ Honest f rounds r ∧
      (r.converged = true → r.root ∈ Set.uIcc x1 x2 ∧ r.functionValue = some (g r.root) ∧
        (|g r.root| < tol ∨ RootWithin g x1 x2 r.root tol ∨
          ∃ x ∈ Set.uIcc x1 x2, |x - r.root| = r.achieved ∧ r.achieved ≤ tol)))
    (ridStep f tol) 0 rounds ⟨x1, x2, g x1, g x2, -10 ^ 99⟩ ⟨hx1, hx2, rfl, rfl, h, Or.inr (Or.inr ⟨rfl, rfl⟩)⟩
    (by
      intro i s _ hi hs
      have hxm : 1 / 2 * (s.x1 + s.x2) ∈ Set.uIcc x1 x2 := by
        have := mem_segment hs.1 (by simpa using hs.2.1 : s.x1 + (s.x2 - s.x1) ∈ Set.uIcc x1 x2) (t := 1 / 2)
          (by norm_num) (by norm_num)
        convert this using 1
        ring
      obtain ⟨hpos, hmem⟩ := ridNew_mem hs (g (1 / 2 * (s.x1 + s.x2)))
      rw [ridStep, hg.1 _ hxm]
      dsimp only
      rw [ridMid, if_neg (not_lt.mpr hpos.le), if_neg (Real.sqrt_pos.mpr hpos).ne']
      generalize ridNew s (1 / 2 * (s.x1 + s.x2)) (g (1 / 2 * (s.x1 + s.x2)))
        (Real.sqrt (g (1 / 2 * (s.x1 + s.x2)) * g (1 / 2 * (s.x1 + s.x2)) - s.f1 * s.f2)) = m at hmem
      split
      · rename_i hclose
        have hans : s.ans ∈ Set.uIcc x1 x2 := by
          rcases hs.2.2.2.2.2 with e | e | ⟨-, e⟩
          · rw [e]; exact hs.1
          · rw [e]; exact hs.2.1
          · rw [e] at hclose
            exact absurd (hfar m hmem) (not_lt.mpr hclose)
        exact ⟨_, rfl, ⟨by simp, by simp; omega, by simp⟩, fun _ =>
          ⟨hans, hg.1 _ hans, Or.inr (Or.inr ⟨m, hmem, rfl, hclose⟩)⟩⟩
      · rw [hg.1 _ hmem]
        dsimp only
        rw [ridFinish]
        split
        · rename_i hsmall
          exact ⟨_, rfl, ⟨by simp, by simp; omega, fun _ => (hg.1 _ hmem).symm⟩, fun _ => ⟨hmem, rfl, Or.inl hsmall⟩⟩
        · rename_i hsmall
          have h0 : g m ≠ 0 := fun e => hsmall (by rw [e, abs_zero]; exact htol)
          obtain ⟨hu, hu'⟩ := ridUpdate_spec g x1 x2 i s hs (1 / 2 * (s.x1 + s.x2)) m hxm hmem h0
          generalize ridUpdate s (1 / 2 * (s.x1 + s.x2)) (g (1 / 2 * (s.x1 + s.x2))) m (g m) = u at hu hu'
          split
          · rename_i hw
            refine ⟨_, rfl, ⟨by simp, by simp; omega, fun _ => (hg.1 _ hmem).symm⟩, fun _ => ⟨hmem, rfl, Or.inr (Or.inl ?_)⟩⟩
            obtain ⟨k1, k2, -, -, k5, k6⟩ := hu
            obtain ⟨z, hz, hz', hz0⟩ : ∃ z ∈ Set.uIcc u.x1 u.x2, z ∈ Set.uIcc x1 x2 ∧ g z = 0 := by
              rcases lt_or_ge (g u.x1) 0 with k | k
              · exact root_between hg.2 k1 k2 k.le (by nlinarith)
              · obtain ⟨z, hz, hz'⟩ := root_between hg.2 k2 k1 (by nlinarith) k
                rw [Set.uIcc_comm] at hz
                exact ⟨z, hz, hz'⟩
            refine ⟨z, hz', hz0, le_trans (abs_sub_le_of_mem hz ?_) hw⟩
            dsimp only
            rw [← hu']
            rcases k6 with e | e | ⟨e, -⟩
            · rw [e]; exact Set.left_mem_uIcc
            · rw [e]; exact Set.right_mem_uIcc
            · omega
          · exact hu)
  cases hE : forExit (ridStep f tol) 0 rounds ⟨x1, x2, g x1, g x2, -10 ^ 99⟩ with
  | inr r => rw [hE] at this; exact this
  | inl s => exact ⟨_, rfl, ⟨by simp, by simp, by simp⟩, by simp⟩

example : ∃ r, ridders (fun x => some (x ^ 2 - 2)) 0 2 (1 / 10 ^ 10) 50 = .ret r ∧ (r.converged = true → r.root ∈ Set.uIcc 0 2) :=
  have ⟨r, h1, _, h2⟩ := ridders_spec_partial (fun x => some (x ^ 2 - 2)) (fun x => x ^ 2 - 2) 0 2 (1 / 10 ^ 10) 50
    ⟨fun _ _ => rfl, by fun_prop⟩ (by norm_num) (by norm_num) (fun x hx => by
      rw [Set.uIcc_of_le (by norm_num)] at hx
      have := hx.1
      refine lt_of_lt_of_le ?_ (le_abs_self _)
      have : (1 : ℝ) / 10 ^ 10 < 10 ^ 99 := by norm_num
      linarith)
  ⟨r, h1, fun h => (h2 h).1⟩

/-- **C68, disagreement.**  With a tolerance that reaches the start value, Ridders' method reports convergence to a point
outside the bracket. -/
theorem ridders_start_value : ∃ (tol : ℝ) (r : Result), ridders (fun x => some x) (-1) 1 tol 50 = .ret r ∧
    r.converged = true ∧ r.root ∉ Set.uIcc (-1 : ℝ) 1 := by
  refine ⟨10 ^ 100, ⟨-10 ^ 99, some (-10 ^ 99), 1, true, |(0 : ℝ) - (-10 ^ 99)|, ""⟩, ?_, rfl, ?_⟩
  · have e : ridStep (fun x => some x) (10 ^ 100) 0 ⟨-1, 1, -1, 1, -10 ^ 99⟩ =
        .inr (.ret ⟨-10 ^ 99, some (-10 ^ 99), 1, true, |(0 : ℝ) - (-10 ^ 99)|, ""⟩) := by
      rw [ridStep]
      norm_num [ridMid, ridNew]
    simp only [ridders, forExit, e]
    norm_num
  · rw [Set.uIcc_of_le (by norm_num), Set.mem_Icc]
    norm_num

/-! ## Newton -/

/-- **C68 (Newton).**  A converged Newton iteration ends in the initial bracket, one step of less than the tolerance from
a point where the derivative estimate is not below the threshold; the function value and accuracy reported are those of
the last step; an interval without sign change is refused. -/
theorem newton_spec (f der : ℝ → ℝ) (x1 x2 tol thr : ℝ) (rounds : ℕ) :
    Honest (fun x => some (f x)) rounds (newton f der x1 x2 tol thr rounds) ∧
    (0 < f x1 * f x2 → (newton f der x1 x2 tol thr rounds).converged = false) ∧
    ((newton f der x1 x2 tol thr rounds).converged = true →
      (newton f der x1 x2 tol thr rounds).root ∈ Set.uIcc x1 x2 ∧
      ∃ x, (newton f der x1 x2 tol thr rounds).root = x - f x / der x ∧
        (newton f der x1 x2 tol thr rounds).achieved = |f x / der x| ∧ |f x / der x| < tol ∧ thr ≤ |der x|) := by
  by_cases h : f x1 * f x2 > 0
  · rw [newton, if_pos h]
    exact ⟨⟨by simp, by simp, by simp⟩, fun _ => rfl, by simp⟩
  have := forExit_rule (fun _ (_ : ℝ × ℝ) => True)
    (fun r => Honest (fun x => some (f x)) rounds r ∧ (r.converged = true →
      r.root ∈ Set.uIcc x1 x2 ∧ ∃ x, r.root = x - f x / der x ∧ r.achieved = |f x / der x| ∧ |f x / der x| < tol ∧
        thr ≤ |der x|))
    (fun j (s : ℝ × ℝ) => newtonFinish f x1 x2 tol thr j s.1 (f s.1) (der s.1)) 0 rounds (1 / 2 * (x1 + x2), 0) trivial
    (by
      intro i s _ hi _
      rw [newtonFinish]
      split
      · exact ⟨⟨by simp, by simp; omega, by simp⟩, by simp⟩
      rename_i hthr
      split
      · exact ⟨⟨by simp, by simp; omega, by simp⟩, by simp⟩
      rename_i hin
      split
      · rename_i hdx
        refine ⟨⟨by simp, by simp; omega, by simp⟩, fun _ => ⟨?_, s.1, rfl, rfl, hdx, not_lt.mp hthr⟩⟩
        have hin := not_lt.mp hin
        rw [Set.mem_uIcc]
        dsimp only
        rcases mul_nonneg_iff.mp hin with ⟨k1, k2⟩ | ⟨k1, k2⟩
        · right; constructor <;> linarith
        · left; constructor <;> linarith
      · trivial)
  rw [newton, if_neg h]
  refine ⟨?_, fun h' => absurd h' h, ?_⟩
  · cases hE : forExit (fun j (s : ℝ × ℝ) => newtonFinish f x1 x2 tol thr j s.1 (f s.1) (der s.1)) 0 rounds
      (1 / 2 * (x1 + x2), 0) with
    | inr r => rw [hE] at this; exact this.1
    | inl s => exact ⟨by simp, by simp, by simp⟩
  · cases hE : forExit (fun j (s : ℝ × ℝ) => newtonFinish f x1 x2 tol thr j s.1 (f s.1) (der s.1)) 0 rounds
      (1 / 2 * (x1 + x2), 0) with
    | inr r => rw [hE] at this; exact this.2
    | inl s => simp

/-- A linear function converges in two rounds. -/
example : (newton (fun x => 2 * x - 1) (fun _ => 2) 0 2 (1 / 10) (1 / 100) 20).converged = true := by
  norm_num [newton, newtonFinish, forExit]

/-! ## Secant -/

/-- **C68 (secant).**  What the secant method says about its own result, and that an interval without sign change is
refused. -/
theorem secant_honest (f : Fn) (x1 x2 tol : ℝ) (rounds : ℕ) :
    Honest f rounds (secant f x1 x2 tol rounds) ∧
    ((secant f x1 x2 tol rounds).converged = true →
      (∃ y1 y2, f x1 = some y1 ∧ f x2 = some y2 ∧ y1 * y2 ≤ 0) ∧ (secant f x1 x2 tol rounds).achieved < tol) := by
  have loop (a b fa fb : ℝ) : Honest f rounds (secantLoop f tol rounds a b fa fb) ∧
      ((secantLoop f tol rounds a b fa fb).converged = true → (secantLoop f tol rounds a b fa fb).achieved < tol) := by
    have := forExit_rule (fun _ (_ : Sec) => True)
      (fun r => Honest f rounds r ∧ (r.converged = true → r.achieved < tol)) (secantStep f tol) 0 rounds
      ⟨a, b, fa, fb, 0⟩ trivial
      (by
        intro i s _ hi _
        rw [secantStep]
        split
        · exact ⟨⟨by simp, by simp; omega, by simp⟩, by simp⟩
        cases hf : f (s.x2 - (s.x2 - s.x1) * s.f2 / (s.f2 - s.f1)) with
        | none => exact ⟨⟨by simp, by simp; omega, by simp⟩, by simp⟩
        | some y =>
          dsimp only
          split
          · rename_i hlt
            exact ⟨⟨by simp, by simp; omega, fun _ => hf.symm⟩, fun _ => hlt⟩
          · trivial)
    rw [secantLoop]
    cases hE : forExit (secantStep f tol) 0 rounds ⟨a, b, fa, fb, 0⟩ with
    | inr r => rw [hE] at this; exact this
    | inl s => exact ⟨⟨by simp, by simp, by simp⟩, by simp⟩
  rw [secant]
  split
  · rename_i y1 y2 h1 h2
    split
    · exact ⟨⟨by simp, by simp, by simp⟩, by simp⟩
    rename_i h3
    split
    · exact ⟨(loop _ _ _ _).1, fun hc => ⟨⟨y1, y2, h1, h2, not_lt.mp h3⟩, (loop _ _ _ _).2 hc⟩⟩
    · exact ⟨(loop _ _ _ _).1, fun hc => ⟨⟨y1, y2, h1, h2, not_lt.mp h3⟩, (loop _ _ _ _).2 hc⟩⟩
  · exact ⟨⟨by simp, by simp, by simp⟩, by simp⟩

/-- The cubic through `(0, -2)`, `(1, 1)`, `(2/3, 3/4)` and `(-1/3, 0)`. -/
noncomputable def cubic (x : ℝ) : ℝ := -2 - 3 / 8 * x + 27 / 2 * x ^ 2 - 81 / 8 * x ^ 3

/-- **C68, disagreement.**  The secant method can leave the bracket and report convergence outside it, although the
function is continuous and changes sign in the bracket. -/
theorem secant_leaves_bracket : cubic 0 * cubic 1 < 0 ∧
    (secant (fun x => some (cubic x)) 0 1 (1 / 10) 20).converged = true ∧
    (secant (fun x => some (cubic x)) 0 1 (1 / 10) 20).root = -1 / 3 := by
  have e : secant (fun x => some (cubic x)) 0 1 (1 / 10) 20 = ⟨-1 / 3, some 0, 3, true, 0, ""⟩ := by
    norm_num [secant, secantLoop, forExit, secantStep, cubic, abs_of_pos, abs_of_neg]
  rw [e]
  norm_num [cubic]

end Verif.Roots
