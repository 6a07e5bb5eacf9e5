import Verif.CompGeo.HullConvex
import Mathlib.Tactic.FieldSimp

/-!
# The two chains together
-/

set_option autoImplicit false

namespace Verif.CompGeo

open Verif

theorem cr_parallel {u x y : ℝ × ℝ} (hu : u ≠ 0) (hx : cr u x = 0) (hy : cr u y = 0) : cr x y = 0 := by
  have h1 : u.1 * cr x y = 0 := by
    have : u.1 * cr x y = x.1 * cr u y - y.1 * cr u x := by simp only [cr]; ring
    rw [this, hx, hy]; ring
  have h2 : u.2 * cr x y = 0 := by
    have : u.2 * cr x y = x.2 * cr u y - y.2 * cr u x := by simp only [cr]; ring
    rw [this, hx, hy]; ring
  rcases mul_eq_zero.mp h1 with h1 | h1
  · rcases mul_eq_zero.mp h2 with h2 | h2
    · exact absurd (Prod.ext h1 h2) hu
    · exact h2
  · exact h1

theorem LexPos.ne {u : ℝ × ℝ} (h : LexPos u) : u ≠ 0 := by
  rintro rfl
  rcases h with h | ⟨-, h⟩ <;> simp at h

/-- Parallel vectors pointing the same way. -/
theorem LexPos.scale {u w : ℝ × ℝ} (hu : LexPos u) (hw : LexPos w) (h : cr u w = 0) : ∃ k : ℝ, 0 < k ∧ w = k • u := by
  simp only [cr] at h
  rcases hu with hu | ⟨hu, hu2⟩
  · have hw1 : 0 < w.1 := by
      rcases hw with hw | ⟨hw, hw2⟩
      · exact hw
      · rw [hw] at h
        have := mul_pos hu hw2
        linarith
    refine ⟨w.1 / u.1, by positivity, Prod.ext ?_ ?_⟩
    · simp only [Prod.smul_fst, smul_eq_mul]
      field_simp
    · simp only [Prod.smul_snd, smul_eq_mul]
      field_simp
      linarith
  · rw [hu] at h
    have hw1 : w.1 = 0 := by
      have : u.2 * w.1 = 0 := by linarith
      exact (mul_eq_zero.mp this).resolve_left hu2.ne'
    have hw2 : 0 < w.2 := by
      rcases hw with hw | ⟨-, hw2⟩
      · linarith
      · exact hw2
    refine ⟨w.2 / u.2, by positivity, Prod.ext ?_ ?_⟩
    · simp only [Prod.smul_fst, smul_eq_mul, hw1, hu, mul_zero]
    · simp only [Prod.smul_snd, smul_eq_mul]
      field_simp

theorem cross_cr {σ : ℝ} (h : Dir σ) (a v q : ℝ × ℝ) :
    cross a v q = cr (σ * (v.1 - a.1), σ * (v.2 - a.2)) (σ * (q.1 - v.1), σ * (q.2 - v.2)) := by
  rw [cr_dir h]
  simp only [cross]
  ring

/-- At the first or the last point, a turn of zero means that all points are on a line. -/
theorem flat {σ : ℝ} (h : Dir σ) {a v c q : ℝ × ℝ} (ha : Lt σ a v) (hc : Lt σ c v) (h0 : cross a v c = 0)
    (h1 : 0 ≤ cross a v q) (h2 : 0 ≤ cross v c q) : cross a v q = 0 := by
  have e0 : cr (σ * (v.1 - a.1), σ * (v.2 - a.2)) (σ * (v.1 - c.1), σ * (v.2 - c.2)) = 0 := by
    rw [cr_dir h]
    simp only [cross] at h0
    linarith
  obtain ⟨k, hk, e⟩ := LexPos.scale ha hc e0
  have e1 : σ * (v.1 - c.1) = k * (σ * (v.1 - a.1)) := by simpa using congrArg Prod.fst e
  have e2 : σ * (v.2 - c.2) = k * (σ * (v.2 - a.2)) := by simpa using congrArg Prod.snd e
  have hs := h.sq
  have e1' : v.1 - c.1 = k * (v.1 - a.1) := by
    have : σ * (σ * (v.1 - c.1)) = σ * (k * (σ * (v.1 - a.1))) := by rw [e1]
    linear_combination this - (v.1 - c.1) * hs + k * (v.1 - a.1) * hs
  have e2' : v.2 - c.2 = k * (v.2 - a.2) := by
    have : σ * (σ * (v.2 - c.2)) = σ * (k * (σ * (v.2 - a.2))) := by rw [e2]
    linear_combination this - (v.2 - c.2) * hs + k * (v.2 - a.2) * hs
  have e3 : cross v c q = -(k * cross a v q) := by
    simp only [cross]
    linear_combination (v.2 - q.2) * e1' - (v.1 - q.1) * e2'
  have h3 : cross a v q ≤ 0 := by
    by_contra hn
    have := mul_pos hk (not_le.mp hn)
    linarith
  exact le_antisymm h3 h1

theorem collinear_all {a v x y : ℝ × ℝ} (hne : a ≠ v) (hx : cross a v x = 0) (hy : cross a v y = 0) : cross v x y = 0 := by
  have hu : ((v.1 - a.1, v.2 - a.2) : ℝ × ℝ) ≠ 0 := by
    intro h
    apply hne
    have h1 := congrArg Prod.fst h
    have h2 := congrArg Prod.snd h
    simp only [Prod.fst_zero, Prod.snd_zero] at h1 h2
    exact Prod.ext (by linarith) (by linarith)
  have := cr_parallel (x := (x.1 - v.1, x.2 - v.2)) (y := (y.1 - v.1, y.2 - v.2)) hu
    (by simp only [cross] at hx; simp only [cr]; linarith) (by simp only [cross] at hy; simp only [cr]; linarith)
  simpa [cr, cross] using this

theorem collinear_any {a v x y z : ℝ × ℝ} (hne : a ≠ v) (hx : cross a v x = 0) (hy : cross a v y = 0) (hz : cross a v z = 0) :
    cross x y z = 0 := by
  have hu : ((v.1 - a.1, v.2 - a.2) : ℝ × ℝ) ≠ 0 := by
    intro h
    apply hne
    have h1 := congrArg Prod.fst h
    have h2 := congrArg Prod.snd h
    simp only [Prod.fst_zero, Prod.snd_zero] at h1 h2
    exact Prod.ext (by linarith) (by linarith)
  have := cr_parallel (x := (y.1 - x.1, y.2 - x.2)) (y := (z.1 - x.1, z.2 - x.2)) hu
    (by simp only [cross] at hx hy; simp only [cr]; linarith) (by simp only [cross] at hx hz; simp only [cr]; linarith)
  simpa [cr, cross] using this

/-- A vertex of the lower chain with a left turn has no edge of the upper chain ending in it. -/
theorem not_both {n v p n' : ℝ × ℝ} (h1 : Lt 1 n v) (h2 : Lt 1 v p) (h3 : Lt 1 v n') (ht : 0 < cross n v p)
    (hn : 0 ≤ cross n' v n) (hp : 0 ≤ cross n' v p) : False := by
  have hd : Dir 1 := Or.inl rfl
  have h4 := cr_weak h2 h3 h1 (by rw [cr_dir hd]; simp only [cross] at hp; nlinarith)
    (by rw [cr_dir hd]; simp only [cross] at hn; nlinarith)
  rw [cr_dir hd] at h4
  simp only [cross] at ht
  nlinarith

section lists

variable {α : Type}

theorem exists_triple (x : α) (l : List α) (v : α) (hv : v ∈ l) :
    l.getLast? = some v ∨ ∃ p n, [p, v, n] <:+: x :: l := by
  induction l generalizing x with
  | nil => simp at hv
  | cons y l ih =>
    cases l with
    | nil =>
      left
      simpa using (List.mem_singleton.mp hv).symm
    | cons z l =>
      rcases List.mem_cons.mp hv with rfl | hv
      · right
        exact ⟨x, z, (List.prefix_append [x, v, z] l).isInfix⟩
      · rcases ih y hv with h | ⟨p, n, h⟩
        · left
          rw [List.getLast?_cons_cons]
          exact h
        · right
          exact ⟨p, n, h.trans (List.suffix_cons _ _).isInfix⟩

theorem chain_infix {R : α → α → Prop} {l : List α} (h : l.IsChain R) {a b : α} (hab : [a, b] <:+: l) : R a b := by
  have := h.infix hab
  simpa using this

theorem mem_triple {p v n : α} {l : List α} (h : [p, v, n] <:+: l) :
    [p, v] <:+: l ∧ [v, n] <:+: l ∧ p ∈ l ∧ v ∈ l ∧ n ∈ l := by
  refine ⟨List.IsInfix.trans (List.prefix_append [p, v] [n]).isInfix h, List.IsInfix.trans (List.suffix_cons p [v, n]).isInfix h,
    h.subset (by simp), h.subset (by simp), h.subset (by simp)⟩

end lists

theorem turns_infix {s : List (ℝ × ℝ)} (h : Turns s) {c b a : ℝ × ℝ} (hi : [c, b, a] <:+: s) : 0 < cross a b c := by
  induction s with
  | nil => simp at hi
  | cons x s ih =>
    rw [List.infix_cons_iff] at hi
    rcases hi with hi | hi
    · obtain ⟨t, ht⟩ := hi
      simp only [List.cons_append, List.nil_append] at ht
      rw [← ht] at h
      exact h.1
    · exact ih h.tail hi

theorem turns_append {r : ℝ × ℝ} (u base : List (ℝ × ℝ)) (hu : Turns u) (hb : Turns (r :: base)) (hr : u.getLast? = some r)
    (hj : ∀ c a, [c, r] <:+ u → base.head? = some a → 0 < cross a r c) : Turns (u ++ base) := by
  induction u with
  | nil => simp at hr
  | cons d u ih =>
    cases u with
    | nil =>
      simp only [List.getLast?_singleton, Option.some.injEq] at hr
      subst hr
      exact hb
    | cons c u =>
      rw [List.getLast?_cons_cons] at hr
      have hi := ih hu.tail hr fun x y hx => hj x y (hx.trans (List.suffix_cons _ _))
      cases u with
      | nil =>
        simp only [List.getLast?_singleton, Option.some.injEq] at hr
        subst hr
        cases base with
        | nil => trivial
        | cons a base => exact ⟨hj d a List.suffix_rfl rfl, hi⟩
      | cons b u => exact ⟨hu.1, hi⟩

end Verif.CompGeo
