import Verif.Optim.Spec
import Mathlib.Analysis.SpecificLimits.Basic
import Mathlib.Topology.Order.Compact
import Mathlib.Tactic

/-! # Helper lemmas for one-dimensional minimisation -/

set_option autoImplicit false

namespace Verif.Optim

open Set

/-! ## Bracketing -/

/-- The invariant of the bracketing loop. -/
structure BInv (f : ℝ → ℝ) (s : Bracket) : Prop where
  fa : s.fa = f s.ax
  fb : s.fb = f s.bx
  fc : s.fc = f s.cx
  left : s.fb ≤ s.fa
  between : (s.ax < s.bx ∧ s.bx < s.cx) ∨ (s.cx < s.bx ∧ s.bx < s.ax)

theorem bracketStart_inv (f : ℝ → ℝ) {a b : ℝ} (h : a ≠ b) : BInv f (bracketStart f a b) := by
  rw [bracketStart]
  split_ifs with hf
  · refine ⟨rfl, rfl, rfl, hf.le, ?_⟩
    show (b < a ∧ a < a + gold * (a - b)) ∨ (a + gold * (a - b) < a ∧ a < b)
    rw [gold]
    rcases lt_or_gt_of_ne h with h | h
    · exact Or.inr ⟨by linarith, h⟩
    · exact Or.inl ⟨h, by linarith⟩
  · refine ⟨rfl, rfl, rfl, not_lt.1 hf, ?_⟩
    show (a < b ∧ b < b + gold * (b - a)) ∨ (b + gold * (b - a) < b ∧ b < a)
    rw [gold]
    rcases lt_or_gt_of_ne h with h | h
    · exact Or.inl ⟨h, by linarith⟩
    · exact Or.inr ⟨by linarith, h⟩

theorem bracketBody_inv {f : ℝ → ℝ} {s : Bracket} (hs : BInv f s) (hlt : s.fb > s.fc) (u : ℝ) :
    (∀ s', bracketBody f s u = .inl s' → BInv f s') ∧
    (∀ r, bracketBody f s u = .inr r → r.valid = true ∧ IsBracket f r) := by
  obtain ⟨h1, h2, h3, h4, h5⟩ := hs
  have hg : BInv f (shift f s (s.cx + gold * (s.cx - s.bx))) := by
    refine ⟨h2, h3, rfl, hlt.le, ?_⟩
    show (s.bx < s.cx ∧ s.cx < s.cx + gold * (s.cx - s.bx)) ∨ (s.cx + gold * (s.cx - s.bx) < s.cx ∧ s.cx < s.bx)
    rw [gold]
    rcases h5 with ⟨h5, h6⟩ | ⟨h5, h6⟩
    · exact Or.inl ⟨h6, by linarith⟩
    · exact Or.inr ⟨by linarith, h5⟩
  rw [bracketBody]
  by_cases c1 : (s.bx - u) * (u - s.cx) > 0
  · rw [if_pos c1]
    have hu : (s.bx < u ∧ u < s.cx) ∨ (s.cx < u ∧ u < s.bx) := by
      rcases (mul_pos_iff.1 c1) with ⟨a1, a2⟩ | ⟨a1, a2⟩
      · exact Or.inr ⟨by linarith, by linarith⟩
      · exact Or.inl ⟨by linarith, by linarith⟩
    by_cases c2 : f u < s.fc
    · rw [if_pos c2]
      refine ⟨fun s' h => by simp at h, fun r h => ?_⟩
      obtain rfl := Sum.inr.inj h
      exact ⟨rfl, h2, rfl, h3, by show f u ≤ f s.bx; rw [← h2]; linarith, by show f u ≤ f s.cx; rw [← h3]; exact c2.le, hu⟩
    · rw [if_neg c2]
      by_cases c3 : f u > s.fb
      · rw [if_pos c3]
        refine ⟨fun s' h => by simp at h, fun r h => ?_⟩
        obtain rfl := Sum.inr.inj h
        refine ⟨rfl, h1, h2, rfl, by rw [← h1, ← h2]; exact h4, by show f s.bx ≤ f u; rw [← h2]; exact c3.le, ?_⟩
        show (s.ax < s.bx ∧ s.bx < u) ∨ (u < s.bx ∧ s.bx < s.ax)
        rcases h5 with ⟨a1, a2⟩ | ⟨a1, a2⟩
        · rcases hu with ⟨a3, a4⟩ | ⟨a3, a4⟩
          · exact Or.inl ⟨a1, a3⟩
          · linarith
        · rcases hu with ⟨a3, a4⟩ | ⟨a3, a4⟩
          · linarith
          · exact Or.inr ⟨a4, a2⟩
      · rw [if_neg c3]
        exact ⟨fun s' h => by rw [← Sum.inl.inj h]; exact hg, fun r h => by simp at h⟩
  · rw [if_neg c1]
    by_cases c2 : (s.cx - u) * (u - (s.bx + 100 * (s.cx - s.bx))) > 0
    · rw [if_pos c2]
      have hu : (s.bx < s.cx ∧ s.cx < u) ∨ (u < s.cx ∧ s.cx < s.bx) := by
        rcases (mul_pos_iff.1 c2) with ⟨a1, a2⟩ | ⟨a1, a2⟩
        · rcases h5 with ⟨a3, a4⟩ | ⟨a3, a4⟩
          · linarith
          · exact Or.inr ⟨by linarith, a3⟩
        · rcases h5 with ⟨a3, a4⟩ | ⟨a3, a4⟩
          · exact Or.inl ⟨a4, by linarith⟩
          · linarith
      by_cases c3 : f u < s.fc
      · rw [if_pos c3]
        refine ⟨fun s' h => ?_, fun r h => by simp at h⟩
        obtain rfl := Sum.inl.inj h
        refine ⟨h3, rfl, rfl, c3.le, ?_⟩
        show (s.cx < u ∧ u < u + gold * (u - s.cx)) ∨ (u + gold * (u - s.cx) < u ∧ u < s.cx)
        rw [gold]
        rcases hu with ⟨a3, a4⟩ | ⟨a3, a4⟩
        · exact Or.inl ⟨a4, by linarith⟩
        · exact Or.inr ⟨by linarith, a3⟩
      · rw [if_neg c3]
        refine ⟨fun s' h => ?_, fun r h => by simp at h⟩
        obtain rfl := Sum.inl.inj h
        exact ⟨h2, h3, rfl, hlt.le, hu.imp id fun h => h⟩
    · rw [if_neg c2]
      split_ifs
      · refine ⟨fun s' h => ?_, fun r h => by simp at h⟩
        obtain rfl := Sum.inl.inj h
        refine ⟨h2, h3, rfl, hlt.le, ?_⟩
        show (s.bx < s.cx ∧ s.cx < s.bx + 100 * (s.cx - s.bx)) ∨ (s.bx + 100 * (s.cx - s.bx) < s.cx ∧ s.cx < s.bx)
        rcases h5 with ⟨a1, a2⟩ | ⟨a1, a2⟩
        · exact Or.inl ⟨a2, by linarith⟩
        · exact Or.inr ⟨by linarith, a1⟩
      · exact ⟨fun s' h => by rw [← Sum.inl.inj h]; exact hg, fun r h => by simp at h⟩

theorem bracketLoop_inv {f : ℝ → ℝ} (k : ℕ) {s : Bracket} (hs : BInv f s) (hv : (bracketLoop f k s).valid = true) :
    IsBracket f (bracketLoop f k s) := by
  have stop : ∀ s, BInv f s → ¬s.fb > s.fc → IsBracket f { s with valid := true } := by
    intro s h hn
    exact ⟨h.fa, h.fb, h.fc, by rw [← h.fa, ← h.fb]; exact h.left, by rw [← h.fb, ← h.fc]; exact not_lt.1 hn, h.between⟩
  induction k generalizing s with
  | zero =>
    rw [bracketLoop] at hv ⊢
    by_cases h : s.fb > s.fc
    · rw [if_pos h] at hv
      simp at hv
    · rw [if_neg h]
      exact stop s hs h
  | succ k ih =>
    rw [bracketLoop] at hv ⊢
    by_cases h : s.fb > s.fc
    · rw [if_pos h] at hv ⊢
      have hb := bracketBody_inv hs h (parabolic s)
      cases hc : bracketBody f s (parabolic s) with
      | inl s' =>
        rw [hc] at hv
        exact ih (hb.1 s' hc) hv
      | inr r => exact (hb.2 r hc).2
    · rw [if_neg h]
      exact stop s hs h

/-! ## Golden section -/

/-- The invariant of the golden section search. -/
structure GInv (f : ℝ → ℝ) (br : Bracket) (s : Gold) : Prop where
  f1 : s.f1 = f s.x1
  f2 : s.f2 = f s.x2
  order : (s.x0 < s.x1 ∧ s.x1 < s.x2 ∧ s.x2 < s.x3) ∨ (s.x3 < s.x2 ∧ s.x2 < s.x1 ∧ s.x1 < s.x0)
  inside : lo br ≤ s.x0 ∧ s.x0 ≤ hi br ∧ lo br ≤ s.x3 ∧ s.x3 ≤ hi br
  left : min (f s.x1) (f s.x2) ≤ f s.x0
  right : min (f s.x1) (f s.x2) ≤ f s.x3
  better : min (f s.x1) (f s.x2) ≤ f br.bx

theorem goldStart_inv {f : ℝ → ℝ} {br : Bracket} (h : IsBracket f br) : GInv f br (goldStart f br) := by
  have hin : lo br ≤ br.ax ∧ br.ax ≤ hi br ∧ lo br ≤ br.cx ∧ br.cx ≤ hi br :=
    ⟨min_le_left _ _, le_max_left _ _, min_le_right _ _, le_max_right _ _⟩
  rw [goldStart]
  split_ifs with hc
  · refine ⟨rfl, rfl, ?_, hin, (min_le_left _ _).trans h.left, (min_le_left _ _).trans h.right, min_le_left _ _⟩
    show (br.ax < br.bx ∧ br.bx < br.bx + goldC * (br.cx - br.bx) ∧ br.bx + goldC * (br.cx - br.bx) < br.cx) ∨
      (br.cx < br.bx + goldC * (br.cx - br.bx) ∧ br.bx + goldC * (br.cx - br.bx) < br.bx ∧ br.bx < br.ax)
    rw [goldC, goldR]
    rcases h.between with ⟨h1, h2⟩ | ⟨h1, h2⟩
    · exact Or.inl ⟨h1, by linarith, by linarith⟩
    · exact Or.inr ⟨by linarith, by linarith, h2⟩
  · refine ⟨rfl, rfl, ?_, hin, (min_le_right _ _).trans h.left, (min_le_right _ _).trans h.right, min_le_right _ _⟩
    show (br.ax < br.bx - goldC * (br.bx - br.ax) ∧ br.bx - goldC * (br.bx - br.ax) < br.bx ∧ br.bx < br.cx) ∨
      (br.cx < br.bx ∧ br.bx < br.bx - goldC * (br.bx - br.ax) ∧ br.bx - goldC * (br.bx - br.ax) < br.ax)
    rw [goldC, goldR]
    rcases h.between with ⟨h1, h2⟩ | ⟨h1, h2⟩
    · exact Or.inl ⟨by linarith, by linarith, h2⟩
    · exact Or.inr ⟨h1, by linarith, by linarith⟩

theorem goldBody_inv {f : ℝ → ℝ} {br : Bracket} {s : Gold} (h : GInv f br s) : GInv f br (goldBody f s) := by
  obtain ⟨h1, h2, h3, ⟨i1, i2, i3, i4⟩, h5, h6, h7⟩ := h
  rw [goldBody]
  rw [h1, h2]
  split_ifs with hc
  · rw [min_eq_right hc.le] at h5 h6 h7
    have hm := min_le_left (f s.x2) (f (goldR * s.x2 + goldC * s.x3))
    refine ⟨rfl, rfl, ?_, ?_, hm.trans hc.le, hm.trans h6, hm.trans h7⟩
    · show (s.x1 < s.x2 ∧ s.x2 < goldR * s.x2 + goldC * s.x3 ∧ goldR * s.x2 + goldC * s.x3 < s.x3) ∨
        (s.x3 < goldR * s.x2 + goldC * s.x3 ∧ goldR * s.x2 + goldC * s.x3 < s.x2 ∧ s.x2 < s.x1)
      rw [goldC, goldR]
      rcases h3 with ⟨a1, a2, a3⟩ | ⟨a1, a2, a3⟩
      · exact Or.inl ⟨a2, by linarith, by linarith⟩
      · exact Or.inr ⟨by linarith, by linarith, a2⟩
    · show lo br ≤ s.x1 ∧ s.x1 ≤ hi br ∧ lo br ≤ s.x3 ∧ s.x3 ≤ hi br
      rcases h3 with ⟨a1, a2, a3⟩ | ⟨a1, a2, a3⟩ <;> exact ⟨by linarith, by linarith, i3, i4⟩
  · rw [min_eq_left (not_lt.1 hc)] at h5 h6 h7
    have hm := min_le_right (f (goldR * s.x1 + goldC * s.x0)) (f s.x1)
    refine ⟨rfl, rfl, ?_, ?_, hm.trans h5, hm.trans (not_lt.1 hc), hm.trans h7⟩
    · show (s.x0 < goldR * s.x1 + goldC * s.x0 ∧ goldR * s.x1 + goldC * s.x0 < s.x1 ∧ s.x1 < s.x2) ∨
        (s.x2 < s.x1 ∧ s.x1 < goldR * s.x1 + goldC * s.x0 ∧ goldR * s.x1 + goldC * s.x0 < s.x0)
      rw [goldC, goldR]
      rcases h3 with ⟨a1, a2, a3⟩ | ⟨a1, a2, a3⟩
      · exact Or.inl ⟨by linarith, by linarith, a2⟩
      · exact Or.inr ⟨a2, by linarith, by linarith⟩
    · show lo br ≤ s.x0 ∧ s.x0 ≤ hi br ∧ lo br ≤ s.x2 ∧ s.x2 ≤ hi br
      rcases h3 with ⟨a1, a2, a3⟩ | ⟨a1, a2, a3⟩ <;> exact ⟨i1, i2, by linarith, by linarith⟩

theorem goldStep_some {f : ℝ → ℝ} {tol : ℝ} {s s' : Gold} (h : goldStep f tol s = some s') : s' = goldBody f s := by
  rw [goldStep] at h
  split_ifs at h
  exact (Option.some.inj h).symm

theorem goldResult_located {f : ℝ → ℝ} {br : Bracket} {tol : ℝ} (h1 : tol < 1) {s : Gold} (h : GInv f br s)
    (hstop : goldStep f tol s = none) : Located f br (2 * tol / (1 - tol) * |(goldResult s).xmin|) (goldResult s) := by
  have hw : |s.x3 - s.x0| ≤ tol * (|s.x1| + |s.x2|) := by
    by_contra hn
    rw [goldStep, if_pos (not_le.1 hn)] at hstop
    simp at hstop
  obtain ⟨e1, e2, ho, ⟨i1, i2, i3, i4⟩, h5, h6, h7⟩ := h
  have hgap : |s.x2 - s.x1| ≤ |s.x3 - s.x0| := by
    rcases ho with ⟨a1, a2, a3⟩ | ⟨a1, a2, a3⟩
    · rw [abs_of_pos (by linarith), abs_of_pos (by linarith)]; linarith
    · rw [abs_of_neg (by linarith), abs_of_neg (by linarith)]; linarith
  have hpos : 0 < |s.x3 - s.x0| := by
    rcases ho with ⟨a1, a2, a3⟩ | ⟨a1, a2, a3⟩
    · exact abs_pos.2 (by linarith)
    · exact abs_pos.2 (by linarith)
  have htol0 : 0 ≤ tol := by
    by_contra hn
    have : tol * (|s.x1| + |s.x2|) ≤ 0 := mul_nonpos_of_nonpos_of_nonneg (not_le.1 hn).le (by positivity)
    linarith
  have key : ∀ x, (x = s.x1 ∨ x = s.x2) → f x = min (f s.x1) (f s.x2) → ∀ r : Result, r.xmin = x → r.fmin = f x →
      Located f br (2 * tol / (1 - tol) * |r.xmin|) r := by
    rintro x hx hfx ⟨rx, rf, ri, rc⟩ h1' h2'
    dsimp only at h1' h2'
    subst h1' h2'
    have hwid : |s.x3 - s.x0| ≤ 2 * tol / (1 - tol) * |rx| := by
      have hsum : |s.x1| + |s.x2| ≤ 2 * |rx| + |s.x3 - s.x0| := by
        rcases hx with rfl | rfl
        · have := abs_add_le s.x1 (s.x2 - s.x1)
          rw [add_sub_cancel] at this
          linarith
        · have := abs_add_le s.x2 (s.x1 - s.x2)
          rw [add_sub_cancel, abs_sub_comm s.x1] at this
          linarith
      rw [div_mul_eq_mul_div, le_div_iff₀ (by linarith)]
      nlinarith
    have hL : f rx ≤ f s.x0 := hfx.trans_le h5
    have hR : f rx ≤ f s.x3 := hfx.trans_le h6
    refine ⟨rfl, hfx.trans_le h7, ?_⟩
    rcases ho with ⟨a1, a2, a3⟩ | ⟨a1, a2, a3⟩
    · have hb : s.x0 < rx ∧ rx < s.x3 := by rcases hx with rfl | rfl <;> constructor <;> linarith
      rw [abs_of_pos (by linarith)] at hwid
      exact ⟨s.x0, s.x3, i1, i4, hb.1, hb.2, by show rx - _ ≤ _; linarith, by show _ - rx ≤ _; linarith, hL, hR⟩
    · have hb : s.x3 < rx ∧ rx < s.x0 := by rcases hx with rfl | rfl <;> constructor <;> linarith
      rw [abs_of_neg (by linarith)] at hwid
      exact ⟨s.x3, s.x0, i3, i2, hb.1, hb.2, by show rx - _ ≤ _; linarith, by show _ - rx ≤ _; linarith, hR, hL⟩
  rw [goldResult]
  by_cases hc : s.f1 < s.f2
  · rw [if_pos hc]
    rw [e1, e2] at hc
    exact key s.x1 (Or.inl rfl) (min_eq_left hc.le).symm _ rfl e1
  · rw [if_neg hc]
    rw [e1, e2] at hc
    exact key s.x2 (Or.inr rfl) (min_eq_right (not_lt.1 hc)).symm _ rfl e2

/-- A bound of the gaps. -/
def Gaps (s : Gold) (B : ℝ) : Prop := |s.x1 - s.x0| ≤ B ∧ 3 / 2 * |s.x2 - s.x1| ≤ B ∧ |s.x3 - s.x2| ≤ B

theorem goldBody_gaps {f : ℝ → ℝ} {s : Gold} {B : ℝ} (h : Gaps s B) : Gaps (goldBody f s) (2 / 3 * B) := by
  obtain ⟨h1, h2, h3⟩ := h
  have hB : 0 ≤ B := (abs_nonneg _).trans h1
  rw [goldBody]
  split_ifs
  · refine ⟨by show |s.x2 - s.x1| ≤ _; linarith, ?_, ?_⟩
    · show 3 / 2 * |goldR * s.x2 + goldC * s.x3 - s.x2| ≤ _
      rw [show goldR * s.x2 + goldC * s.x3 - s.x2 = 38196601 / 100000000 * (s.x3 - s.x2) by rw [goldC, goldR]; ring, abs_mul,
        abs_of_pos (by norm_num)]
      linarith
    · show |s.x3 - (goldR * s.x2 + goldC * s.x3)| ≤ _
      rw [show s.x3 - (goldR * s.x2 + goldC * s.x3) = 61803399 / 100000000 * (s.x3 - s.x2) by rw [goldC, goldR]; ring, abs_mul,
        abs_of_pos (by norm_num)]
      linarith
  · refine ⟨?_, ?_, by show |s.x2 - s.x1| ≤ _; linarith⟩
    · show |goldR * s.x1 + goldC * s.x0 - s.x0| ≤ _
      rw [show goldR * s.x1 + goldC * s.x0 - s.x0 = 61803399 / 100000000 * (s.x1 - s.x0) by rw [goldC, goldR]; ring, abs_mul,
        abs_of_pos (by norm_num)]
      linarith
    · show 3 / 2 * |s.x1 - (goldR * s.x1 + goldC * s.x0)| ≤ _
      rw [show s.x1 - (goldR * s.x1 + goldC * s.x0) = 38196601 / 100000000 * (s.x1 - s.x0) by rw [goldC, goldR]; ring, abs_mul,
        abs_of_pos (by norm_num)]
      linarith

/-- The loop ends if the points around which the interval shrinks are away from zero. -/
theorem gold_ends {f : ℝ → ℝ} {tol c : ℝ} (htol : 0 < tol) (hc : 0 < c) (J : Gold → Prop)
    (hJ : ∀ s, J s → J (goldBody f s)) (hJm : ∀ s, J s → ∃ m, c ≤ |m| ∧ |s.x1 - m| ≤ |s.x3 - s.x0| ∧ |s.x2 - m| ≤ |s.x3 - s.x0|)
    {s : Gold} (hs : J s) : ∃ t, whileLoop (goldStep f tol) s = .ret t := by
  obtain ⟨T, hT0, hT⟩ : ∃ T, 0 < T ∧ 3 * T * (1 + 2 * tol) ≤ 2 * tol * c :=
    ⟨2 * tol * c / (3 * (1 + 2 * tol)), by positivity, by field_simp; exact le_rfl⟩
  have key : ∀ k s, J s → Gaps s (T * (3 / 2) ^ k) → ∃ t, whileFuel (goldStep f tol) (k + 1) s = some t := by
    intro k
    induction k with
    | zero =>
      intro s hs hg
      rw [pow_zero, mul_one] at hg
      refine ⟨s, ?_⟩
      rw [whileFuel, goldStep, if_neg]
      obtain ⟨m, hm, h1, h2⟩ := hJm s hs
      have hw : |s.x3 - s.x0| ≤ 3 * T := by
        have e : s.x3 - s.x0 = (s.x1 - s.x0) + (s.x2 - s.x1) + (s.x3 - s.x2) := by ring
        rw [e]
        have := abs_add_le ((s.x1 - s.x0) + (s.x2 - s.x1)) (s.x3 - s.x2)
        have := abs_add_le (s.x1 - s.x0) (s.x2 - s.x1)
        have := abs_nonneg (s.x2 - s.x1)
        linarith [hg.1, hg.2.1, hg.2.2]
      have g1 := abs_sub_abs_le_abs_sub m s.x1
      have g2 := abs_sub_abs_le_abs_sub m s.x2
      rw [abs_sub_comm] at g1 g2
      have : 2 * tol * (c - 3 * T) ≤ tol * (|s.x1| + |s.x2|) := by nlinarith
      have : 3 * T ≤ 2 * tol * (c - 3 * T) := by nlinarith
      rw [not_lt]
      linarith
    | succ k ih =>
      intro s hs hg
      rw [whileFuel]
      cases h : goldStep f tol s with
      | none => exact ⟨s, rfl⟩
      | some s' =>
        obtain rfl := goldStep_some h
        refine ih _ (hJ s hs) ?_
        have := goldBody_gaps (f := f) hg
        rwa [show 2 / 3 * (T * (3 / 2) ^ (k + 1)) = T * (3 / 2 : ℝ) ^ k by rw [pow_succ]; ring] at this
  obtain ⟨k, hk⟩ := pow_unbounded_of_one_lt ((|s.x1 - s.x0| + 3 / 2 * |s.x2 - s.x1| + |s.x3 - s.x2|) / T)
    (show (1 : ℝ) < 3 / 2 by norm_num)
  rw [div_lt_iff₀ hT0, mul_comm] at hk
  have n1 := abs_nonneg (s.x1 - s.x0)
  have n2 := abs_nonneg (s.x2 - s.x1)
  have n3 := abs_nonneg (s.x3 - s.x2)
  obtain ⟨t, ht⟩ := key k s hs ⟨by linarith, by linarith, by linarith⟩
  exact ⟨t, whileLoop_eq ht⟩

/-- The interval keeps the minimum of a unimodal function. -/
theorem gold_keeps {f : ℝ → ℝ} {br : Bracket} {m : ℝ} (hu : Unimodal f (lo br) (hi br) m) {s : Gold} (h : GInv f br s)
    (hm : (s.x0 ≤ m ∧ m ≤ s.x3) ∨ (s.x3 ≤ m ∧ m ≤ s.x0)) :
    ((goldBody f s).x0 ≤ m ∧ m ≤ (goldBody f s).x3) ∨ ((goldBody f s).x3 ≤ m ∧ m ≤ (goldBody f s).x0) := by
  obtain ⟨e1, e2, ho, ⟨i1, i2, i3, i4⟩, -, -, -⟩ := h
  rw [goldBody, e1, e2]
  have hlt : ∀ p q, lo br ≤ p → p < q → q ≤ hi br → f q ≤ f p → p ≤ m := by
    intro p q h1 h2 h3 h4
    by_contra hn
    have := hu.rises ⟨(not_le.1 hn).le, by linarith⟩ ⟨by linarith, h3⟩ h2
    linarith
  have hgt : ∀ p q, lo br ≤ p → p < q → q ≤ hi br → f p ≤ f q → m ≤ q := by
    intro p q h1 h2 h3 h4
    by_contra hn
    have := hu.falls ⟨h1, by linarith⟩ ⟨by linarith, (not_le.1 hn).le⟩ h2
    linarith
  split_ifs with hc
  · show (s.x1 ≤ m ∧ m ≤ s.x3) ∨ (s.x3 ≤ m ∧ m ≤ s.x1)
    rcases ho with ⟨a1, a2, a3⟩ | ⟨a1, a2, a3⟩
    · exact Or.inl ⟨hlt s.x1 s.x2 (by linarith) a2 (by linarith) hc.le, by rcases hm with h | h <;> linarith⟩
    · exact Or.inr ⟨by rcases hm with h | h <;> linarith, hgt s.x2 s.x1 (by linarith) a2 (by linarith) hc.le⟩
  · have hc := not_lt.1 hc
    show (s.x0 ≤ m ∧ m ≤ s.x2) ∨ (s.x2 ≤ m ∧ m ≤ s.x0)
    rcases ho with ⟨a1, a2, a3⟩ | ⟨a1, a2, a3⟩
    · exact Or.inl ⟨by rcases hm with h | h <;> linarith, hgt s.x1 s.x2 (by linarith) a2 (by linarith) hc⟩
    · exact Or.inr ⟨hlt s.x2 s.x1 (by linarith) a2 (by linarith) hc, by rcases hm with h | h <;> linarith⟩

theorem goldStart_keeps {f : ℝ → ℝ} {br : Bracket} {m : ℝ} (hu : Unimodal f (lo br) (hi br) m) :
    ((goldStart f br).x0 ≤ m ∧ m ≤ (goldStart f br).x3) ∨ ((goldStart f br).x3 ≤ m ∧ m ≤ (goldStart f br).x0) := by
  have e : (goldStart f br).x0 = br.ax ∧ (goldStart f br).x3 = br.cx := by rw [goldStart]; split_ifs <;> exact ⟨rfl, rfl⟩
  rw [e.1, e.2]
  have h1 := hu.lower
  have h2 := hu.upper
  rw [lo] at h1
  rw [hi] at h2
  rcases le_total br.ax br.cx with h | h
  · rw [min_eq_left h] at h1; rw [max_eq_right h] at h2; exact Or.inl ⟨h1, h2⟩
  · rw [min_eq_right h] at h1; rw [max_eq_left h] at h2; exact Or.inr ⟨h1, h2⟩

theorem GInv.near {f : ℝ → ℝ} {br : Bracket} {s : Gold} (h : GInv f br s) {m : ℝ}
    (hm : (s.x0 ≤ m ∧ m ≤ s.x3) ∨ (s.x3 ≤ m ∧ m ≤ s.x0)) : |s.x1 - m| ≤ |s.x3 - s.x0| ∧ |s.x2 - m| ≤ |s.x3 - s.x0| := by
  rcases h.order with ⟨a1, a2, a3⟩ | ⟨a1, a2, a3⟩
  · rw [abs_of_pos (show 0 < s.x3 - s.x0 by linarith)]
    constructor <;> rw [abs_le] <;> constructor <;> rcases hm with hm | hm <;> linarith
  · rw [abs_of_neg (show s.x3 - s.x0 < 0 by linarith)]
    constructor <;> rw [abs_le] <;> constructor <;> rcases hm with hm | hm <;> linarith

/-! ## Brent's method -/

/-- The invariant of Brent's method. -/
structure TInv (f : ℝ → ℝ) (br : Bracket) (δ : ℝ) (s : Brent) : Prop where
  value : s.fx = f s.x
  left : f s.x ≤ f s.a
  right : f s.x ≤ f s.b
  better : f s.x ≤ f br.bx
  la : lo br ≤ s.a
  bh : s.b ≤ hi br
  ax : δ ≤ s.x - s.a
  xb : δ ≤ s.b - s.x

theorem brentStart_inv {f : ℝ → ℝ} {br : Bracket} (h : IsBracket f br) :
    ∃ δ, 0 < δ ∧ ∀ δ', δ' ≤ δ → TInv f br δ' (brentStart f br) := by
  rcases h.between with ⟨h1, h2⟩ | ⟨h1, h2⟩
  · refine ⟨min (br.bx - br.ax) (br.cx - br.bx), lt_min (by linarith) (by linarith), fun δ' hδ => ?_⟩
    have e : brentStart f br = ⟨br.ax, br.cx, 0, 0, br.bx, br.bx, br.bx, f br.bx, f br.bx, f br.bx⟩ := by
      rw [brentStart, if_pos (by linarith), if_neg (by linarith)]
    rw [e]
    exact ⟨rfl, h.left, h.right, le_rfl, min_le_left _ _, le_max_right _ _, hδ.trans (min_le_left _ _), hδ.trans (min_le_right _ _)⟩
  · refine ⟨min (br.bx - br.cx) (br.ax - br.bx), lt_min (by linarith) (by linarith), fun δ' hδ => ?_⟩
    have e : brentStart f br = ⟨br.cx, br.ax, 0, 0, br.bx, br.bx, br.bx, f br.bx, f br.bx, f br.bx⟩ := by
      rw [brentStart, if_neg (by linarith), if_pos (by linarith)]
    rw [e]
    exact ⟨rfl, h.right, h.left, le_rfl, min_le_right _ _, le_max_left _ _, hδ.trans (min_le_left _ _), hδ.trans (min_le_right _ _)⟩

theorem not_done {tol zeps a b x : ℝ} (h : ¬brentDone tol zeps a b x) :
    (1 / 2 * (a + b) ≤ x → 2 * tol1 tol zeps x < x - a) ∧ (x ≤ 1 / 2 * (a + b) → 2 * tol1 tol zeps x < b - x) := by
  rw [brentDone, not_le] at h
  constructor
  · intro hx
    rw [abs_of_nonneg (by linarith)] at h
    linarith
  · intro hx
    rw [abs_of_nonpos (by linarith)] at h
    linarith

/-- The new point is away from the old one and from the ends. -/
theorem section_point {t1 : ℝ} (ht : 0 < t1) {s : Brent} (hax : 0 < s.x - s.a) (hxb : 0 < s.b - s.x)
    (h1 : 1 / 2 * (s.a + s.b) ≤ s.x → 2 * t1 < s.x - s.a) (h2 : s.x ≤ 1 / 2 * (s.a + s.b) → 2 * t1 < s.b - s.x) :
    t1 ≤ |brentPoint t1 s.x (sectionStep s).2 - s.x| ∧ t1 ≤ brentPoint t1 s.x (sectionStep s).2 - s.a ∧
      t1 ≤ s.b - brentPoint t1 s.x (sectionStep s).2 := by
  rw [sectionStep]
  by_cases hc : s.x ≥ 1 / 2 * (s.a + s.b)
  · rw [if_pos hc]
    have := h1 hc
    dsimp only
    rw [brentPoint]
    split_ifs with hd
    · rw [add_sub_cancel_left]
      exact ⟨hd, by linarith, by rw [abs_of_neg (by linarith)] at hd; linarith⟩
    · rw [copySign, if_pos (by linarith), add_sub_cancel_left, abs_neg, abs_of_pos ht]
      exact ⟨le_rfl, by linarith, by linarith⟩
  · rw [if_neg hc]
    have := h2 (not_le.1 hc).le
    dsimp only
    rw [brentPoint]
    split_ifs with hd
    · rw [add_sub_cancel_left]
      exact ⟨hd, by rw [abs_of_pos (by linarith)] at hd; linarith, by linarith⟩
    · rw [copySign, if_neg (by linarith), add_sub_cancel_left, abs_of_pos ht]
      exact ⟨le_rfl, by linarith, by linarith⟩

theorem mid_point {t1 a b x : ℝ} (ht : 0 < t1) (hax : 0 < x - a) (hxb : 0 < b - x)
    (h1 : 1 / 2 * (a + b) ≤ x → 2 * t1 < x - a) (h2 : x ≤ 1 / 2 * (a + b) → 2 * t1 < b - x) :
    t1 ≤ |brentPoint t1 x (copySign t1 (1 / 2 * (a + b) - x)) - x| ∧ t1 ≤ brentPoint t1 x (copySign t1 (1 / 2 * (a + b) - x)) - a ∧
      t1 ≤ b - brentPoint t1 x (copySign t1 (1 / 2 * (a + b) - x)) := by
  rw [copySign]
  split_ifs with hc
  · rw [brentPoint, abs_neg, abs_of_pos ht, if_pos le_rfl, add_sub_cancel_left, abs_neg, abs_of_pos ht]
    have := h1 (by linarith)
    exact ⟨le_rfl, by linarith, by linarith⟩
  · rw [brentPoint, abs_of_pos ht, if_pos le_rfl, add_sub_cancel_left, abs_of_pos ht]
    have := h2 (by linarith)
    exact ⟨le_rfl, by linarith, by linarith⟩

theorem inner_point {t1 a b x d : ℝ} (ht : 0 < t1) (hax : 0 < x - a) (hxb : 0 < b - x) (h1 : 2 * t1 ≤ x + d - a)
    (h2 : 2 * t1 ≤ b - (x + d)) : t1 ≤ |brentPoint t1 x d - x| ∧ t1 ≤ brentPoint t1 x d - a ∧ t1 ≤ b - brentPoint t1 x d := by
  rw [brentPoint]
  split_ifs with hd
  · rw [add_sub_cancel_left]
    exact ⟨hd, by linarith, by linarith⟩
  · rw [copySign]
    split_ifs with hn
    · rw [add_sub_cancel_left, abs_neg, abs_of_pos ht]
      exact ⟨le_rfl, by linarith, by linarith⟩
    · rw [add_sub_cancel_left, abs_of_pos ht]
      exact ⟨le_rfl, by linarith, by linarith⟩

theorem brent_point {t1 : ℝ} (ht : 0 < t1) {s : Brent} (hax : 0 < s.x - s.a) (hxb : 0 < s.b - s.x)
    (h1 : 1 / 2 * (s.a + s.b) ≤ s.x → 2 * t1 < s.x - s.a) (h2 : s.x ≤ 1 / 2 * (s.a + s.b) → 2 * t1 < s.b - s.x) :
    t1 ≤ |brentPoint t1 s.x (brentChoose t1 s).2 - s.x| ∧ t1 ≤ brentPoint t1 s.x (brentChoose t1 s).2 - s.a ∧
      t1 ≤ s.b - brentPoint t1 s.x (brentChoose t1 s).2 := by
  rw [brentChoose]
  split_ifs with c1 c2
  · exact section_point ht hax hxb h1 h2
  · rw [parabolaStep]
    split_ifs with c3
    · exact mid_point ht hax hxb h1 h2
    · push Not at c3
      exact inner_point ht hax hxb c3.1 c3.2
  · exact section_point ht hax hxb h1 h2

theorem brentUpdate_eq (s : Brent) (u fu : ℝ) :
    (fu ≤ s.fx → s.x ≤ u → (brentUpdate s u fu).a = s.x ∧ (brentUpdate s u fu).b = s.b ∧ (brentUpdate s u fu).x = u ∧
      (brentUpdate s u fu).fx = fu) ∧
    (fu ≤ s.fx → u < s.x → (brentUpdate s u fu).a = s.a ∧ (brentUpdate s u fu).b = s.x ∧ (brentUpdate s u fu).x = u ∧
      (brentUpdate s u fu).fx = fu) ∧
    (s.fx < fu → u < s.x → (brentUpdate s u fu).a = u ∧ (brentUpdate s u fu).b = s.b ∧ (brentUpdate s u fu).x = s.x ∧
      (brentUpdate s u fu).fx = s.fx) ∧
    (s.fx < fu → s.x ≤ u → (brentUpdate s u fu).a = s.a ∧ (brentUpdate s u fu).b = u ∧ (brentUpdate s u fu).x = s.x ∧
      (brentUpdate s u fu).fx = s.fx) := by
  refine ⟨fun h1 h2 => ?_, fun h1 h2 => ?_, fun h1 h2 => ?_, fun h1 h2 => ?_⟩
  · rw [brentUpdate, if_pos h1]
    exact ⟨if_pos h2, if_pos h2, rfl, rfl⟩
  · rw [brentUpdate, if_pos h1]
    exact ⟨if_neg (not_le.2 h2), if_neg (not_le.2 h2), rfl, rfl⟩
  · rw [brentUpdate, if_neg (not_le.2 h1)]
    dsimp only
    split_ifs <;> exact ⟨rfl, rfl, rfl, rfl⟩
  · rw [brentUpdate, if_neg (not_le.2 h1)]
    have h3 := not_lt.2 h2
    dsimp only
    split_ifs <;> exact ⟨rfl, rfl, rfl, rfl⟩

theorem brentIter_inv {f : ℝ → ℝ} {tol zeps : ℝ} (htol : 0 < tol) {br : Bracket} {δ : ℝ} (hδ : 0 < δ) (hz : δ ≤ zeps) {s : Brent}
    (h : TInv f br δ s) (hd : ¬brentDone tol zeps s.a s.b s.x) :
    TInv f br δ (brentIter f tol zeps s) ∧ (brentIter f tol zeps s).b - (brentIter f tol zeps s).a ≤ s.b - s.a - δ := by
  have ht : δ ≤ tol1 tol zeps s.x := by
    have := mul_nonneg htol.le (abs_nonneg s.x)
    rw [tol1]; linarith
  obtain ⟨g1, g2⟩ := not_done hd
  have p := brent_point (lt_of_lt_of_le hδ ht) (lt_of_lt_of_le hδ h.ax) (lt_of_lt_of_le hδ h.xb) g1 g2
  obtain ⟨q1, q2, q3⟩ := p
  rw [brentIter]
  set t1 := tol1 tol zeps s.x
  set ed := brentChoose t1 s
  set u := brentPoint t1 s.x ed.2
  have hax := h.ax
  have hxb := h.xb
  have hla := h.la
  have hbh := h.bh
  obtain ⟨U1, U2, U3, U4⟩ := brentUpdate_eq { s with e := ed.1, d := ed.2 } u (f u)
  dsimp only at U1 U2 U3 U4
  rcases le_or_gt (f u) s.fx with c | c
  · rcases le_or_gt s.x u with c' | c'
    · obtain ⟨e1, e2, e3, e4⟩ := U1 c c'
      rw [abs_of_nonneg (by linarith)] at q1
      rw [h.value] at c
      refine ⟨⟨by rw [e4, e3], by rw [e3, e1]; exact c, by rw [e3, e2]; exact c.trans h.right, by rw [e3]; exact c.trans h.better,
        by rw [e1]; linarith, by rw [e2]; exact h.bh, by rw [e3, e1]; linarith, by rw [e3, e2]; linarith⟩, by rw [e1, e2]; linarith⟩
    · obtain ⟨e1, e2, e3, e4⟩ := U2 c c'
      rw [abs_of_neg (by linarith)] at q1
      rw [h.value] at c
      refine ⟨⟨by rw [e4, e3], by rw [e3, e1]; exact c.trans h.left, by rw [e3, e2]; exact c, by rw [e3]; exact c.trans h.better,
        by rw [e1]; exact h.la, by rw [e2]; linarith, by rw [e3, e1]; linarith, by rw [e3, e2]; linarith⟩, by rw [e1, e2]; linarith⟩
  · rcases le_or_gt s.x u with c' | c'
    · obtain ⟨e1, e2, e3, e4⟩ := U4 c c'
      rw [abs_of_nonneg (by linarith)] at q1
      rw [h.value] at c
      refine ⟨⟨by rw [e4, e3, h.value], by rw [e3, e1]; exact h.left, by rw [e3, e2]; exact c.le, by rw [e3]; exact h.better,
        by rw [e1]; exact h.la, by rw [e2]; linarith, by rw [e3, e1]; linarith, by rw [e3, e2]; linarith⟩, by rw [e1, e2]; linarith⟩
    · obtain ⟨e1, e2, e3, e4⟩ := U3 c c'
      rw [abs_of_neg (by linarith)] at q1
      rw [h.value] at c
      refine ⟨⟨by rw [e4, e3, h.value], by rw [e3, e1]; exact c.le, by rw [e3, e2]; exact h.right, by rw [e3]; exact h.better,
        by rw [e1]; linarith, by rw [e2]; exact h.bh, by rw [e3, e1]; linarith, by rw [e3, e2]; linarith⟩, by rw [e1, e2]; linarith⟩

/-- The answers of the loop. -/
theorem brentLoop_spec {f : ℝ → ℝ} {tol zeps : ℝ} (htol : 0 < tol) {br : Bracket} {δ : ℝ} (hδ : 0 < δ) (hz : δ ≤ zeps) (k iter : ℕ)
    {s : Brent} (h : TInv f br δ s) :
    (brentLoop f tol zeps k iter s = .exn (.mml "OptimizationError") ∨ ∃ r, brentLoop f tol zeps k iter s = .ret r ∧
      r.converged = true ∧ iter + 1 ≤ r.iterations ∧ r.iterations ≤ iter + k ∧ Located f br (2 * (tol * |r.xmin| + zeps)) r) ∧
    (1 ≤ k → s.b - s.a ≤ (k + 1) * δ → ∃ r, brentLoop f tol zeps k iter s = .ret r) := by
  induction k generalizing iter s with
  | zero => exact ⟨Or.inl rfl, fun h => by omega⟩
  | succ k ih =>
    rw [brentLoop]
    by_cases hd : brentDone tol zeps s.a s.b s.x
    · rw [if_pos hd]
      refine ⟨Or.inr ⟨_, rfl, rfl, le_rfl, by show iter + 1 ≤ _; omega, h.value, h.better, s.a, s.b, h.la, h.bh, ?_, ?_, ?_, ?_, h.left, h.right⟩,
        fun _ _ => ⟨_, rfl⟩⟩
      · show s.a < s.x; linarith [h.ax]
      · show s.x < s.b; linarith [h.xb]
      · rw [brentDone, tol1, abs_le] at hd
        show s.x - s.a ≤ 2 * (tol * |s.x| + zeps)
        linarith [hd.2]
      · rw [brentDone, tol1, abs_le] at hd
        show s.b - s.x ≤ 2 * (tol * |s.x| + zeps)
        linarith [hd.1]
    · rw [if_neg hd]
      obtain ⟨h1, h2⟩ := brentIter_inv htol hδ hz h hd
      obtain ⟨i1, i2⟩ := ih (iter + 1) h1
      refine ⟨?_, fun _ hw => ?_⟩
      · rcases i1 with i1 | ⟨r, r1, r2, r3, r4, r5⟩
        · exact Or.inl i1
        · exact Or.inr ⟨r, r1, r2, by omega, by omega, r5⟩
      · have hk : 1 ≤ k := by
          by_contra hk
          obtain rfl : k = 0 := by omega
          norm_num at hw
          linarith [h1.ax, h1.xb]
        refine i2 hk ?_
        push_cast at hw
        linarith

end Verif.Optim
