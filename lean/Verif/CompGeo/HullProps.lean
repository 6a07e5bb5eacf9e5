import Verif.CompGeo.HullMain

/-!
# The planar convex hull (C49)

The code removes a point when the turn at it is at most 1e-10, so its answer is the convex hull only for inputs whose triangles
have either no area or more than that, and whose different points are not within 1e-10 in both coordinates.  Every list of points
with integer coordinates is of this kind.  The failures outside it are stated as theorems.
-/

set_option autoImplicit false

namespace Verif.CompGeo

open Verif

/-- Triangles spanned by the points are flat or of more than half the tolerance, different points are not within the tolerance. -/
structure Separated (pts : List (ℝ × ℝ)) : Prop where
  triangles : ∀ a ∈ pts, ∀ b ∈ pts, ∀ c ∈ pts, |area2 a b c| ≤ 1 / 10 ^ 10 → area2 a b c = 0
  points : ∀ a ∈ pts, ∀ b ∈ pts, |a.1 - b.1| < 1 / 10 ^ 10 → |a.2 - b.2| < 1 / 10 ^ 10 → a = b

theorem Separated.sharp {pts : List (ℝ × ℝ)} (h : Separated pts) : Sharp pts := by
  intro a ha b hb c hc hle
  by_contra hn
  rw [not_le] at hn
  rw [cross_eq] at hle hn
  have := h.triangles a ha b hb c hc (by rw [abs_of_pos hn]; exact hle)
  linarith

theorem lexLe_total (a b : ℝ × ℝ) : lexLe a b ∨ lexLe b a := by
  rcases lt_trichotomy a.1 b.1 with h | h | h
  · exact Or.inl (Or.inl h)
  · rcases le_total a.2 b.2 with h2 | h2
    · exact Or.inl (Or.inr ⟨h, h2⟩)
    · exact Or.inr (Or.inr ⟨h.symm, h2⟩)
  · exact Or.inr (Or.inl h)

theorem lexLe_trans {a b c : ℝ × ℝ} (h1 : lexLe a b) (h2 : lexLe b c) : lexLe a c := by
  rcases h1 with h1 | ⟨h1, h1'⟩ <;> rcases h2 with h2 | ⟨h2, h2'⟩
  · exact Or.inl (h1.trans h2)
  · exact Or.inl (by linarith)
  · exact Or.inl (by linarith)
  · exact Or.inr ⟨h1.trans h2, h1'.trans h2'⟩

theorem lt_of_lexLe {a b : ℝ × ℝ} (h : lexLe a b) (hne : a ≠ b) : Lt 1 a b := by
  rcases h with h | ⟨h, h'⟩
  · exact Or.inl (by simpa using h)
  · refine Or.inr ⟨by simp [h], ?_⟩
    have : a.2 ≠ b.2 := fun h2 => hne (Prod.ext h h2)
    have := lt_of_le_of_ne h' this
    simpa using this

open Classical in
theorem sort_pairwise (pts : List (ℝ × ℝ)) : (pts.insertionSort lexLe).Pairwise lexLe := by
  haveI : Std.Total lexLe := ⟨lexLe_total⟩
  haveI : IsTrans (ℝ × ℝ) lexLe := ⟨fun _ _ _ => lexLe_trans⟩
  exact List.pairwise_insertionSort lexLe pts

theorem unique_sub (l : List (ℝ × ℝ)) : ∀ x ∈ unique l, x ∈ l := by
  induction l using unique.induct with
  | case1 => simp [unique]
  | case2 => simp [unique]
  | case3 a b l h ih =>
    intro x hx
    rw [unique, if_pos h] at hx
    have := ih x hx
    simp only [List.mem_cons] at this ⊢
    tauto
  | case4 a b l h ih =>
    intro x hx
    rw [unique, if_neg h] at hx
    rcases List.mem_cons.mp hx with rfl | hx
    · simp
    · exact List.mem_cons_of_mem _ (ih x hx)

theorem unique_sorted (l : List (ℝ × ℝ)) (hs : l.Pairwise lexLe) (hn : ∀ a ∈ l, ∀ b ∈ l, near a b → a = b) :
    (unique l).Pairwise (Lt 1) ∧ ∀ x, x ∈ unique l ↔ x ∈ l := by
  induction l using unique.induct with
  | case1 => simp [unique]
  | case2 => simp [unique]
  | case3 a b l h ih =>
    have hab := hn a (by simp) b (by simp) h
    subst hab
    obtain ⟨i1, i2⟩ := ih hs.tail (fun x hx y hy => hn x (List.mem_cons_of_mem _ hx) y (List.mem_cons_of_mem _ hy))
    rw [unique, if_pos h]
    exact ⟨i1, fun x => by rw [i2]; simp⟩
  | case4 a b l h ih =>
    obtain ⟨i1, i2⟩ := ih hs.tail (fun x hx y hy => hn x (List.mem_cons_of_mem _ hx) y (List.mem_cons_of_mem _ hy))
    have hs' := List.pairwise_cons.mp hs
    rw [unique, if_neg h]
    refine ⟨List.pairwise_cons.mpr ⟨fun x hx => ?_, i1⟩, fun x => ?_⟩
    · have hx' := (i2 x).mp hx
      have hne : a ≠ b := by
        rintro rfl
        apply h
        simp [near, geomEps]
      have hab := lt_of_lexLe (hs'.1 b (by simp)) hne
      rcases List.mem_cons.mp hx' with rfl | hx'
      · exact hab
      · by_cases hbx : b = x
        · exact hbx ▸ hab
        · exact hab.trans (lt_of_lexLe ((List.pairwise_cons.mp hs'.2).1 x hx') hbx)
    · simp [i2]

/-- C49: for separated points the result is the convex hull: its corners, each once, counter-clockwise.  With fewer than three
points the input is returned as it is, so that its points have to be different. -/
theorem hull_correct_partial (pts : List (ℝ × ℝ)) (hsep : Separated pts) (hlen : 3 ≤ pts.length ∨ pts.Nodup) :
    ∃ h, hull pts = .ret h ∧ IsHull pts h := by
  classical
  rw [hull]
  split
  · rename_i h3
    exact ⟨pts, rfl, isHull_small pts (hlen.resolve_left (by omega)) h3⟩
  · have hmem : ∀ x, x ∈ pts.insertionSort lexLe ↔ x ∈ pts := fun x => List.mem_insertionSort lexLe
    obtain ⟨u1, u2⟩ := unique_sorted (pts.insertionSort lexLe) (sort_pairwise pts) fun a ha b hb hab =>
      hsep.points a ((hmem a).mp ha) b ((hmem b).mp hb) hab.1 hab.2
    have hmem' : ∀ x, x ∈ unique (pts.insertionSort lexLe) ↔ x ∈ pts := fun x => (u2 x).trans (hmem x)
    split
    · rename_i h3
      exact ⟨_, rfl, (isHull_small _ (u1.imp fun h => h.ne) h3).congr hmem'⟩
    · rename_i h3
      obtain ⟨h, e1, e2⟩ := monotoneChain_isHull _ u1
        (fun a ha b hb c hc => hsep.sharp a ((hmem' a).mp ha) b ((hmem' b).mp hb) c ((hmem' c).mp hc)) (by omega)
      exact ⟨h, e1, e2.congr hmem'⟩

/-- Points with integer coordinates are separated. -/
theorem separated_of_int (l : List (ℤ × ℤ)) : Separated (l.map fun p => ((p.1 : ℝ), (p.2 : ℝ))) where
  triangles := by
    intro a ha b hb c hc h
    obtain ⟨a', -, rfl⟩ := List.mem_map.mp ha
    obtain ⟨b', -, rfl⟩ := List.mem_map.mp hb
    obtain ⟨c', -, rfl⟩ := List.mem_map.mp hc
    have e : area2 ((a'.1 : ℝ), (a'.2 : ℝ)) ((b'.1 : ℝ), (b'.2 : ℝ)) ((c'.1 : ℝ), (c'.2 : ℝ)) =
        ((a'.1 * (b'.2 - c'.2) + b'.1 * (c'.2 - a'.2) + c'.1 * (a'.2 - b'.2) : ℤ) : ℝ) := by
      simp [area2]
    rw [e] at h ⊢
    have h1 : |((a'.1 * (b'.2 - c'.2) + b'.1 * (c'.2 - a'.2) + c'.1 * (a'.2 - b'.2) : ℤ) : ℝ)| < 1 :=
      lt_of_le_of_lt h (by norm_num)
    rw [← Int.cast_abs] at h1
    have h2 : |a'.1 * (b'.2 - c'.2) + b'.1 * (c'.2 - a'.2) + c'.1 * (a'.2 - b'.2)| < 1 := by exact_mod_cast h1
    rw [Int.abs_lt_one_iff.mp h2]
    simp
  points := by
    intro a ha b hb h1 h2
    obtain ⟨a', -, rfl⟩ := List.mem_map.mp ha
    obtain ⟨b', -, rfl⟩ := List.mem_map.mp hb
    have k : ∀ x y : ℤ, |(x : ℝ) - (y : ℝ)| < 1 / 10 ^ 10 → x = y := by
      intro x y h
      have h1 : |((x - y : ℤ) : ℝ)| < 1 := by
        push_cast
        exact h.trans (by norm_num)
      rw [← Int.cast_abs] at h1
      have h2 : |x - y| < 1 := by exact_mod_cast h1
      have := Int.abs_lt_one_iff.mp h2
      omega
    rw [k _ _ h1, k _ _ h2]

/-- Non-vacuity: a square with its centre, a point on an edge and a repeated corner. -/
example : ∃ h, hull [(0, 0), (2, 2), (1, 1), (2, 0), (0, 2), (1, 0), (2, 2)] = .ret h ∧
    IsHull [(0, 0), (2, 2), (1, 1), (2, 0), (0, 2), (1, 0), (2, 2)] h := by
  have := hull_correct_partial _ (separated_of_int [(0, 0), (2, 2), (1, 1), (2, 0), (0, 2), (1, 0), (2, 2)]) (Or.inl (by simp))
  simpa using this

theorem pop_sub (m : ℕ) (p : ℝ × ℝ) (s : List (ℝ × ℝ)) : ∀ x ∈ pop m p s, x ∈ s := by
  induction s with
  | nil => simp [pop]
  | cons b s ih =>
    cases s with
    | nil => simp [pop]
    | cons a t =>
      intro x hx
      rw [pop] at hx
      split at hx
      · exact List.mem_cons_of_mem _ (ih x hx)
      · exact hx

theorem chain_sub (n m : ℕ) (ps s : List (ℝ × ℝ)) (hn : s.length + ps.length ≤ n) :
    ∃ s', chain n m ps s = .ret s' ∧ s'.length ≤ s.length + ps.length ∧ ∀ x ∈ s', x ∈ s ∨ x ∈ ps := by
  induction ps generalizing s with
  | nil => exact ⟨s, rfl, by simp, by simp⟩
  | cons p ps ih =>
    have hl := pop_length m p s
    simp only [List.length_cons] at hn
    obtain ⟨s', e1, e2, e3⟩ := ih (p :: pop m p s) (by simp; omega)
    refine ⟨s', ?_, ?_, fun x hx => ?_⟩
    · rw [chain, push, if_pos (by omega)]
      exact e1
    · simp only [List.length_cons] at e2 ⊢
      omega
    · rcases e3 x hx with h | h
      · rcases List.mem_cons.mp h with rfl | h
        · simp
        · exact Or.inl (pop_sub m p s x h)
      · exact Or.inr (List.mem_cons_of_mem _ h)

/-- C49: for every input the call returns, without writing outside its array, and every vertex is one of the input points. -/
theorem hull_returns_partial (pts : List (ℝ × ℝ)) : ∃ h, hull pts = .ret h ∧ ∀ v ∈ h, v ∈ pts := by
  classical
  have hu : ∀ x ∈ unique (pts.insertionSort lexLe), x ∈ pts := fun x hx =>
    (List.mem_insertionSort lexLe).mp (unique_sub _ x hx)
  rw [hull]
  split
  · exact ⟨pts, rfl, fun v hv => hv⟩
  · split
    · exact ⟨_, rfl, hu⟩
    · generalize unique (pts.insertionSort lexLe) = ps at hu
      obtain ⟨low, k1, k2, k3⟩ := chain_sub (2 * ps.length) 2 ps [] (by simp; omega)
      obtain ⟨s, l1, l2, l3⟩ := chain_sub (2 * ps.length) (low.length + 1) ps.reverse.tail low (by simp at k2 ⊢; omega)
      refine ⟨s.tail.reverse, ?_, fun v hv => hu v ?_⟩
      · rw [monotoneChain, k1]
        simp only [Outcome.bind_ret]
        rw [l1]
        simp only [Outcome.bind_ret]
      · have hv' := List.mem_of_mem_tail (List.mem_reverse.mp hv)
        rcases l3 v hv' with h | h
        · simpa using k3 v h
        · exact List.mem_reverse.mp (List.mem_of_mem_tail h)

theorem monotoneChain_flat {a b c : ℝ × ℝ} (h0 : cross a b c ≤ geomEps) (h1 : cross c b a ≤ geomEps) :
    monotoneChain [a, b, c] = .ret [a, c] := by
  simp [monotoneChain, chain, pop, push, h0, h1]

/-- The points of a small right triangle. -/
noncomputable def tiny : List (ℝ × ℝ) := [(0, 0), (1 / 10 ^ 6, 0), (0, 1 / 10 ^ 6)]

theorem hull_tiny : hull tiny = .ret [(0, 0), (1 / 10 ^ 6, 0)] := by
  classical
  have hs : tiny.insertionSort lexLe = [(0, 0), (0, 1 / 10 ^ 6), (1 / 10 ^ 6, 0)] := by
    have l1 : ¬ lexLe ((1 : ℝ) / 10 ^ 6, 0) (0, 1 / 10 ^ 6) := by
      simp only [lexLe]
      norm_num
    have l2 : lexLe (0, 0) ((0 : ℝ), (1 : ℝ) / 10 ^ 6) := by
      simp only [lexLe]
      norm_num
    rw [tiny, List.insertionSort, List.foldr, List.foldr, List.foldr, List.foldr]
    simp only [List.orderedInsert, if_neg l1, if_pos l2]
  have hu : unique [((0 : ℝ), (0 : ℝ)), (0, 1 / 10 ^ 6), (1 / 10 ^ 6, 0)] = [(0, 0), (0, 1 / 10 ^ 6), (1 / 10 ^ 6, 0)] := by
    rw [unique, if_neg, unique, if_neg, unique]
    · simp only [near, geomEps]
      norm_num
    · simp only [near, geomEps]
      norm_num [abs_of_pos]
  rw [hull, if_neg (by simp [tiny]), hs, hu, if_neg (by simp)]
  refine monotoneChain_flat ?_ ?_
  · simp only [cross, geomEps]
    norm_num
  · simp only [cross, geomEps]
    norm_num

/-- C49, the other direction: a right triangle with legs of 1e-6, whose sides are ten thousand times the tolerance, is returned
as a segment, and the third point is outside it. -/
theorem hull_fails_tiny : ∃ h, hull tiny = .ret h ∧ ¬ IsHull tiny h := by
  refine ⟨_, hull_tiny, fun hh => ?_⟩
  have := hh.left (0, 0) (1 / 10 ^ 6, 0) ⟨[], [(0, 0)], rfl⟩
  have h2 := hh.left (1 / 10 ^ 6, 0) (0, 0) ⟨[(0, 0)], [], rfl⟩ (0, 1 / 10 ^ 6) (by simp [tiny])
  simp only [area2] at h2
  norm_num at h2

/-- C49, the other direction: with fewer than three points repeated ones are kept. -/
theorem hull_fails_repeated (p : ℝ × ℝ) : hull [p, p] = .ret [p, p] ∧ ¬ IsHull [p, p] [p, p] := by
  refine ⟨by simp [hull], fun hh => ?_⟩
  have := hh.nodup
  simp at this

end Verif.CompGeo
