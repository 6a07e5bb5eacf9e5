import Verif.Intervals.Props

/-!
# More on intervals: counterexamples to C23, and properties C24, C53, C54, C55, C56
-/

set_option autoImplicit false

namespace Verif.Intervals

/-! ## C23: the hypotheses are met, and where the code differs -/

theorem one_lt_dblMax : (10 ^ 20 : ℝ) < dblMax := by
  have h : (2 : ℝ) ^ 100 ≤ 2 ^ 1023 := pow_le_pow_right₀ (by norm_num) (by norm_num)
  have h2 : (10 : ℝ) ^ 20 < 2 ^ 100 := by norm_num
  have h3 : (1 : ℝ) ≤ 2 - 1 / 2 ^ 52 := by norm_num
  unfold dblMax
  exact lt_of_lt_of_le (lt_of_lt_of_le h2 h) (le_mul_of_one_le_left (by positivity) h3)

/-- `[0,2] ∩ (1,∞)` contains 2 and not 1. -/
example : Interval.contains (intersection (.closed 0 2) (.openToInf 1)) 2 ∧
    ¬ Interval.contains (intersection (.closed 0 2) (.openToInf 1)) 1 := by
  have h := one_lt_dblMax
  constructor
  · rw [intersection_mem (.closed 0 2) (.openToInf 1) trivial trivial (by simp [BI.lower]; linarith) (by simp [BI.upper]; linarith)
      (by simp [BI.lower]; linarith) (by simp [BI.upper]) _ (by linarith) (by linarith)]
    simp [BI.toSet]
  · rw [intersection_mem (.closed 0 2) (.openToInf 1) trivial trivial (by simp [BI.lower]; linarith) (by simp [BI.upper]; linarith)
      (by simp [BI.lower]; linarith) (by simp [BI.upper]) _ (by linarith) (by linarith)]
    simp [BI.toSet]

/-- `[0,1) ∪ [1,2]` contains 1. -/
example : Interval.contains (union (.closedOpen 0 1) (.closed 1 2)) 1 := by
  have h := one_lt_dblMax
  rw [union_mem_partial (.closedOpen 0 1) (.closed 1 2) trivial trivial ⟨by simp [BI.lower, BI.upper], by simp [BI.lower]; linarith,
      by simp [BI.upper]; linarith⟩ ⟨by simp [BI.lower, BI.upper], by simp [BI.lower]; linarith,
      by simp [BI.upper]; linarith⟩ (Or.inl ⟨0, by simp [BI.toSet]⟩) _ (by linarith) (by linarith)
      (Or.inl ⟨trivial, trivial⟩)]
  simp [BI.toSet]

/-- `[0,3] \ (1,2)` contains 1. -/
example : Interval.contains (difference (.closed 0 3) (.open_ 1 2)) 1 := by
  have h := one_lt_dblMax
  rw [difference_mem_partial (.closed 0 3) (.open_ 1 2) trivial trivial ⟨by simp [BI.lower, BI.upper], by simp [BI.lower]; linarith,
      by simp [BI.upper]; linarith⟩ ⟨by simp [BI.lower, BI.upper], by simp [BI.lower]; linarith,
      by simp [BI.upper]; linarith⟩ _ (by linarith) (by linarith)
      (Or.inl ⟨trivial, trivial, by norm_num [BI.lower, BI.upper]⟩)]
  simp [BI.toSet]

example : Interval.contains (complement (.closedOpen 0 1)) 1 := by
  rw [complement_mem (.closedOpen 0 1) trivial]; simp [BI.toSet]

/-- The code's `[0,1] \ [1,2]` keeps the point 1. -/
theorem difference_keeps_point :
    Interval.contains (difference (.closed 0 1) (.closed 1 2)) 1 ∧
      (1 : ℝ) ∉ (BI.closed 0 1).toSet \ (BI.closed 1 2).toSet := by
  refine ⟨?_, by simp [BI.toSet]⟩
  simp [difference, BI.lower, BI.upper, Interval.contains, mkInterval, BI.lowerType, BI.upperType, BI.contains]

/-- The code's `[0,1] \ (0,1)` is empty although it should keep 0 and 1. -/
theorem difference_loses_point :
    difference (.closed 0 1) (.open_ 0 1) = [] ∧
      (0 : ℝ) ∈ (BI.closed 0 1).toSet \ (BI.open_ 0 1).toSet := by
  refine ⟨?_, by simp [BI.toSet]⟩
  simp [difference, BI.lower, BI.upper]

/-- The code's `(-∞,5] ∪ [3,4]` does not contain 5. -/
theorem union_loses_closed_end :
    ¬ Interval.contains (union (.negInfToClosed 5) (.closed 3 4)) 5 ∧
      (5 : ℝ) ∈ (BI.negInfToClosed 5).toSet ∪ (BI.closed 3 4).toSet := by
  have h := one_lt_dblMax
  refine ⟨?_, by simp [BI.toSet]⟩
  have hov : overlapsOrAdjacent (.negInfToClosed 5) (.closed 3 4) := by
    unfold overlapsOrAdjacent
    rw [if_pos ⟨by norm_num [BI.lower, BI.upper], by simp only [BI.lower, BI.upper]; linarith⟩]; trivial
  have e1 : min (-dblMax) 3 = -dblMax := min_eq_left (by linarith)
  have e2 : max (5 : ℝ) 4 = 5 := by norm_num
  simp only [union, hov, if_true, BI.lower, BI.upper, e1, e2, BI.lowerType, BI.upperType]
  have e3 : ¬ (-dblMax = 3) := by linarith
  simp [Interval.contains, mk_contains, e3]

/-- The union of the two empty intervals `(1,1]` and `[1,1)` contains 1 in the code. -/
theorem union_of_empty_intervals :
    Interval.contains (union (.openClosed 1 1) (.closedOpen 1 1)) 1 ∧
      (BI.openClosed 1 1).toSet ∪ (BI.closedOpen 1 1).toSet = ∅ := by
  refine ⟨?_, by simp [BI.toSet]⟩
  have hov : overlapsOrAdjacent (.openClosed 1 1) (.closedOpen 1 1) := by
    simp [overlapsOrAdjacent, BI.lower, BI.upper, BI.upperType]
  simp [union, hov, BI.lower, BI.upper, BI.lowerType, BI.upperType, Interval.contains, mk_contains]

/-- Intersection forgets point holes: 0 is a hole of the first interval but belongs to the result. -/
theorem intersection_forgets_holes :
    Interval.contains (intersection (.closedHoles 0 1 0 1) (.closed 0 1)) 0 ∧
      (0 : ℝ) ∉ (BI.closedHoles 0 1 0 1).toSet ∩ (BI.closed 0 1).toSet := by
  constructor
  · simp [intersection, BI.lower, BI.upper, BI.lowerType, BI.upperType, Interval.contains, mk_contains]
  · simp [BI.toSet, BI.nearHole, holeEps]

/-- The largest `double` belongs to the whole line but not to its intersection with itself. -/
theorem intersection_dblMax :
    ¬ Interval.contains (intersection .completeR .completeR) dblMax ∧
      dblMax ∈ BI.completeR.toSet ∩ BI.completeR.toSet := by
  have h := dblMax_pos
  refine ⟨?_, by simp [BI.toSet]⟩
  simp only [intersection, BI.lower, BI.upper, BI.lowerType, BI.upperType, max_self, min_self]
  rw [if_neg (by linarith)]
  simp [Interval.contains, mk_contains]

/-! ## C24: the equidistant covering of one interval -/

/-- Position of the `i`-th point in units of the spacing. -/
theorem coverPoint_eq (a : BI) (n i : ℕ) (hi : i < n) (hn : 2 ≤ n) :
    ∃ e : ℝ, a.coverPoint n i = a.effLower + (i + e) * ((a.effUpper - a.effLower) / ((n : ℝ) - 1)) ∧
      (i = 0 → e = if a.lowerType = .OPEN then 1 / 1000 else 0) ∧
      (i = n - 1 → e = if a.upperType = .OPEN then -1 / 1000 else 0) ∧
      (i ≠ 0 → i ≠ n - 1 → e = 0) := by
  by_cases h0 : i = 0
  · have h1 : i ≠ n - 1 := by omega
    refine ⟨if a.lowerType = .OPEN then 1 / 1000 else 0, ?_, fun _ => rfl, fun h => absurd h h1, fun h => absurd h0 h⟩
    have h1' : (0 : ℕ) ≠ n - 1 := by omega
    unfold BI.coverPoint
    by_cases ht : a.lowerType = .OPEN <;> simp only [h0, h1', ht, and_true, and_false, false_and, if_true, if_false] <;> ring
  · by_cases h1 : i = n - 1
    · refine ⟨if a.upperType = .OPEN then -1 / 1000 else 0, ?_, fun h => absurd h h0, fun _ => rfl, fun _ h => absurd h1 h⟩
      have h0' : n - 1 ≠ 0 := by omega
      unfold BI.coverPoint
      by_cases ht : a.upperType = .OPEN <;> simp only [h1, h0', ht, and_true, and_false, false_and, if_true, if_false] <;> ring
    · refine ⟨0, ?_, fun h => absurd h h0, fun h => absurd h h1, fun _ _ => rfl⟩
      unfold BI.coverPoint
      simp only [h0, h1, false_and, if_false]; ring

theorem eff_contains {a : BI} (sa : a.Simple) {x : ℝ} (hl : a.effLower ≤ x) (hu : x ≤ a.effUpper)
    (hl' : a.lowerType = .OPEN → a.effLower < x) (hu' : a.upperType = .OPEN → x < a.effUpper) : a.contains x := by
  cases a <;> simp_all [BI.contains, BI.lowerType, BI.upperType, BI.effLower, BI.effUpper, BI.lower, BI.upper,
    BI.Simple]

/-- C24: on an interval whose ends (infinite ones counting as ±10^10) are in strict order, the covering by
`n ≥ 0` points has `n` points, all inside the interval and strictly increasing; the `i`-th of at least two is
`lower + i * (upper - lower) / (n - 1)`, moved inwards by a thousandth of the spacing at an open first or last
end, and a single point is the middle. -/
theorem covering_correct (a : BI) (sa : a.Simple) (hlt : a.effLower < a.effUpper) (n : ℕ) :
    (a.covering n).length = n ∧ (∀ x ∈ a.covering n, x ∈ a.toSet) ∧ (a.covering n).Pairwise (· < ·) ∧
    (n = 1 → a.covering n = [(a.effLower + a.effUpper) / 2]) ∧
    (2 ≤ n → ∀ i < n, (a.covering n)[i]? = some (a.effLower + i * ((a.effUpper - a.effLower) / ((n : ℝ) - 1)) +
      (if i = 0 ∧ a.lowerType = .OPEN then (a.effUpper - a.effLower) / ((n : ℝ) - 1) / 1000 else 0) -
      (if i = n - 1 ∧ a.upperType = .OPEN then (a.effUpper - a.effLower) / ((n : ℝ) - 1) / 1000 else 0))) := by
  rcases Nat.lt_or_ge n 2 with hn | hn
  · have : n = 0 ∨ n = 1 := by omega
    rcases this with rfl | rfl
    · simp [BI.covering]
    · have e : a.covering ((1 : ℕ) : ℤ) = [(a.effLower + a.effUpper) / 2] := by simp [BI.covering]
      rw [e]
      refine ⟨rfl, ?_, List.pairwise_singleton _ _, fun _ => rfl, fun h => by omega⟩
      intro x hx
      rw [List.mem_singleton] at hx
      subst hx
      rw [← contains_iff_mem]
      exact eff_contains sa (by linarith) (by linarith) (fun _ => by linarith) (fun _ => by linarith)
  · have e : a.covering (n : ℤ) = (List.range n).map (a.coverPoint n) := by
      rw [BI.covering, if_neg (by omega), if_neg (by omega), Int.toNat_natCast]
    have hn1 : (0 : ℝ) < (n : ℝ) - 1 := by
      have : (2 : ℝ) ≤ n := by exact_mod_cast hn
      linarith
    have hd : 0 < (a.effUpper - a.effLower) / ((n : ℝ) - 1) := div_pos (by linarith) hn1
    have hU : a.effUpper = a.effLower + ((n : ℝ) - 1) * ((a.effUpper - a.effLower) / ((n : ℝ) - 1)) := by
      field_simp; ring
    rw [e]
    refine ⟨by simp, ?_, ?_, fun h => by omega, ?_⟩
    · intro x hx
      obtain ⟨i, hi, rfl⟩ := List.mem_map.1 hx
      rw [List.mem_range] at hi
      obtain ⟨t, ht, h0, h1, h2⟩ := coverPoint_eq a n i hi hn
      rw [← contains_iff_mem]
      have hin : (i : ℝ) + 1 ≤ n := by exact_mod_cast hi
      have hi0 : (0 : ℝ) ≤ i := Nat.cast_nonneg i
      have key : 0 ≤ i + t ∧ i + t ≤ (n : ℝ) - 1 ∧ (a.lowerType = .OPEN → 0 < i + t) ∧
          (a.upperType = .OPEN → i + t < (n : ℝ) - 1) := by
        by_cases c0 : i = 0
        · rw [h0 c0, c0]
          have : (2 : ℝ) ≤ n := by exact_mod_cast hn
          split <;> refine ⟨by norm_num, by norm_num; linarith, ?_, fun _ => by norm_num; linarith⟩
          · intro _; norm_num
          · next h => intro h'; exact absurd h' h
        · have c0' : (1 : ℝ) ≤ i := by exact_mod_cast Nat.one_le_iff_ne_zero.2 c0
          by_cases c1 : i = n - 1
          · rw [h1 c1]
            split <;> refine ⟨by linarith, by linarith, fun _ => by linarith, ?_⟩
            · intro _; linarith
            · next h => intro h'; exact absurd h' h
          · rw [h2 c0 c1]
            have : (i : ℝ) + 2 ≤ n := by exact_mod_cast (by omega : i + 2 ≤ n)
            exact ⟨by linarith, by linarith, fun _ => by linarith, fun _ => by linarith⟩
      obtain ⟨k1, k2, k3, k4⟩ := key
      refine eff_contains sa ?_ ?_ ?_ ?_
      · rw [ht]; have := mul_nonneg k1 hd.le; linarith
      · rw [ht, hU]; have := mul_le_mul_of_nonneg_right k2 hd.le
        rw [← hU]; linarith
      · intro h; rw [ht]; have := mul_pos (k3 h) hd; linarith
      · intro h; rw [ht]; have := mul_lt_mul_of_pos_right (k4 h) hd
        linarith
    · rw [List.pairwise_map]
      refine List.Pairwise.imp_of_mem ?_ List.pairwise_lt_range
      intro i j hi hj hij
      rw [List.mem_range] at hi hj
      obtain ⟨t, ht, h0, h1, h2⟩ := coverPoint_eq a n i hi hn
      obtain ⟨s, hs, g0, g1, g2⟩ := coverPoint_eq a n j hj hn
      have ht' : t ≤ 1 / 1000 := by
        by_cases c0 : i = 0
        · rw [h0 c0]; split <;> norm_num
        · rw [h2 c0 (by omega)]; norm_num
      have hs' : -1 / 1000 ≤ s := by
        by_cases c0 : j = n - 1
        · rw [g1 c0]; split <;> norm_num
        · rw [g2 (by omega) c0]; norm_num
      have hij' : (i : ℝ) + 1 ≤ j := by exact_mod_cast hij
      rw [ht, hs]
      have := mul_lt_mul_of_pos_right (show (i : ℝ) + t < j + s by linarith) hd
      linarith
    · intro _ i hi
      rw [List.getElem?_map, List.getElem?_range hi, Option.map_some]
      congr 1
      unfold BI.coverPoint
      by_cases c0 : i = 0 ∧ a.lowerType = .OPEN <;> by_cases c1 : i = n - 1 ∧ a.upperType = .OPEN
      · simp only [if_pos c0, if_pos c1]; ring
      · simp only [if_pos c0, if_neg c1]; ring
      · simp only [if_neg c0, if_pos c1]; ring
      · simp only [if_neg c0, if_neg c1]; ring

/-- For a bounded interval the effective ends are its bounds. -/
theorem finite_eff {a : BI} (h : a.Finite) : a.effLower = a.lower ∧ a.effUpper = a.upper := by
  cases a <;> simp_all [BI.Finite, BI.effLower, BI.effUpper, BI.lowerType, BI.upperType]

/-- `(0,1]` covered by three points. -/
example : (BI.openClosed 0 1).covering 3 = [1 / 2000, 1 / 2, 1] := by
  have e : (BI.openClosed 0 1).covering 3 = [(BI.openClosed 0 1).coverPoint 3 0, (BI.openClosed 0 1).coverPoint 3 1,
    (BI.openClosed 0 1).coverPoint 3 2] := rfl
  rw [e]
  simp [BI.coverPoint, BI.effLower, BI.effUpper, BI.lowerType, BI.upperType, BI.lower, BI.upper]
  norm_num

example : ∀ x ∈ (BI.openClosed 0 1).covering (3 : ℕ), x ∈ (BI.openClosed 0 1).toSet :=
  (covering_correct (.openClosed 0 1) trivial (by simp [BI.effLower, BI.effUpper, BI.lowerType, BI.upperType,
    BI.lower, BI.upper]) 3).2.1

/-- The covering of `(-∞, -2·10^10)` is not inside it: the stand-in -10^10 for the infinite end lies above the
bound. -/
theorem covering_outside : ∃ x ∈ (BI.negInfToOpen (-(2 * 10 ^ 10))).covering 2,
    x ∉ (BI.negInfToOpen (-(2 * 10 ^ 10))).toSet := by
  refine ⟨(BI.negInfToOpen (-(2 * 10 ^ 10))).coverPoint 2 0, ?_, ?_⟩
  · simp only [BI.covering]
    rw [if_neg (by norm_num), if_neg (by norm_num)]
    exact List.mem_map.2 ⟨0, by simp, rfl⟩
  · simp [BI.coverPoint, BI.toSet, BI.effLower, BI.effUpper, BI.lowerType, BI.upperType, BI.lower, BI.upper]
    try norm_num

/-! ## C53: `contains(interval)` and C54: `intersects` -/

theorem simple_convex {a : BI} (h : a.Simple) {x y z : ℝ} (hx : a.contains x) (hy : a.contains y) (h1 : x ≤ z)
    (h2 : z ≤ y) : a.contains z := by
  cases a <;> simp only [BI.contains, BI.Simple] at * <;> first | trivial | (constructor <;> linarith [hx.1, hx.2, hy.1, hy.2]) | linarith

/-- C53: when `contains(other)` answers true, every point of `other` (within the range of `double`) belongs to
the composite, whose components have no holes. -/
theorem containsInterval_sound (s : Interval) (hs : ∀ i ∈ s, BI.Simple i) (other : BI) (h : Interval.containsInterval s other)
    (x : ℝ) (hx : -dblMax ≤ x) (hx' : x ≤ dblMax) (hm : x ∈ other.toSet) : Interval.contains s x := by
  obtain ⟨i, hi, h1, h2⟩ := h
  refine ⟨i, hi, simple_convex (hs i hi) h1 h2 ?_ ?_⟩
  · cases other <;> simp only [BI.toSet, BI.lower, Set.mem_Ioo, Set.mem_Ioc, Set.mem_Icc, Set.mem_Ico, Set.mem_Iio,
      Set.mem_Iic, Set.mem_Ioi, Set.mem_Ici, Set.mem_setOf_eq, Set.mem_univ] at hm ⊢ <;>
      first | exact hx | exact hm.le | exact hm | exact hm.1.le | exact hm.1 | exact hm.1.1
  · cases other <;> simp only [BI.toSet, BI.upper, Set.mem_Ioo, Set.mem_Ioc, Set.mem_Icc, Set.mem_Ico, Set.mem_Iio,
      Set.mem_Iic, Set.mem_Ioi, Set.mem_Ici, Set.mem_setOf_eq, Set.mem_univ] at hm ⊢ <;>
      first | exact hx' | exact hm.le | exact hm | exact hm.2.le | exact hm.2 | exact hm.1.2

/-- C53: the converse fails: `(0,1)` is inside `(0,1)`, but the answer is false. -/
theorem containsInterval_incomplete :
    ¬ Interval.containsInterval [.open_ 0 1] (.open_ 0 1) ∧
      ∀ x ∈ (BI.open_ 0 1).toSet, Interval.contains [.open_ 0 1] x := by
  constructor
  · simp [Interval.containsInterval, BI.contains, BI.lower]
  · intro x hx
    exact ⟨_, List.mem_singleton.2 rfl, (contains_iff_mem _ _).2 hx⟩

example : Interval.containsInterval [.closed 0 2] (.open_ 0 1) := by
  simp [Interval.containsInterval, BI.contains, BI.lower, BI.upper]

theorem toSet_bounds {a : BI} {x : ℝ} (hx : -dblMax ≤ x) (hx' : x ≤ dblMax) (hm : x ∈ a.toSet) :
    a.lower ≤ x ∧ x ≤ a.upper := by
  constructor
  · cases a <;> simp only [BI.toSet, BI.lower, Set.mem_Ioo, Set.mem_Ioc, Set.mem_Icc, Set.mem_Ico, Set.mem_Iio,
      Set.mem_Iic, Set.mem_Ioi, Set.mem_Ici, Set.mem_setOf_eq, Set.mem_univ] at hm ⊢ <;>
      first | exact hx | exact hm.le | exact hm | exact hm.1.le | exact hm.1 | exact hm.1.1
  · cases a <;> simp only [BI.toSet, BI.upper, Set.mem_Ioo, Set.mem_Ioc, Set.mem_Icc, Set.mem_Ico, Set.mem_Iio,
      Set.mem_Iic, Set.mem_Ioi, Set.mem_Ici, Set.mem_setOf_eq, Set.mem_univ] at hm ⊢ <;>
      first | exact hx' | exact hm.le | exact hm | exact hm.2.le | exact hm.2 | exact hm.1.2

/-- C54: whenever the composite and `other` share a point (within the range of `double`), `intersects` answers
true: it never misses an intersection. -/
theorem intersects_complete (s : Interval) (other : BI) (x : ℝ) (hx : -dblMax ≤ x) (hx' : x ≤ dblMax)
    (h1 : Interval.contains s x) (h2 : x ∈ other.toSet) : Interval.intersects s other := by
  obtain ⟨i, hi, hc⟩ := h1
  have hb := toSet_bounds hx hx' ((contains_iff_mem _ _).1 hc)
  have ho := toSet_bounds hx hx' h2
  exact ⟨i, hi, hb.1.trans ho.2, ho.1.trans hb.2⟩

/-- C54: for proper bounded closed intervals the answer is also never wrong the other way. -/
theorem intersects_closed (l u l' u' : ℝ) (h : l ≤ u) (h' : l' ≤ u') :
    Interval.intersects [.closed l u] (.closed l' u') ↔ ∃ x, x ∈ (BI.closed l u).toSet ∩ (BI.closed l' u').toSet := by
  simp only [Interval.intersects, List.mem_singleton, exists_eq_left, BI.lower, BI.upper, BI.toSet, Set.mem_inter_iff,
    Set.mem_Icc]
  constructor
  · rintro ⟨h1, h2⟩
    rcases le_total l l' with h3 | h3
    · exact ⟨l', ⟨h3, h2⟩, le_rfl, h'⟩
    · exact ⟨l, ⟨le_rfl, h⟩, h3, h1⟩
  · rintro ⟨x, ⟨h1, h2⟩, h3, h4⟩
    exact ⟨h1.trans h4, h3.trans h2⟩

/-- C54: open ends are ignored: `[0,1)` and `[1,2]` are said to intersect. -/
theorem intersects_wrong :
    Interval.intersects [.closedOpen 0 1] (.closed 1 2) ∧
      (BI.closedOpen 0 1).toSet ∩ (BI.closed 1 2).toSet = ∅ := by
  constructor
  · simp [Interval.intersects, BI.lower, BI.upper]
  · ext x
    simp only [BI.toSet, Set.mem_inter_iff, Set.mem_Ico, Set.mem_Icc, Set.mem_empty_iff_false, iff_false]
    intro h; linarith [h.1.2, h.2.1]

/-! ## C55: the covering of a composite interval -/

/-- C55: every point of the covering of a composite of bounded intervals with `lower < upper` belongs to the
composite. -/
theorem composite_covering_inside (s : Interval) (hs : ∀ i ∈ s, BI.Finite i ∧ i.lower < i.upper) (n : ℤ) :
    ∀ x ∈ Interval.covering s n, Interval.contains s x := by
  intro x hx
  unfold Interval.covering at hx
  split at hx
  · simp at hx
  · split at hx
    · simp at hx
    · obtain ⟨i, hi, hx⟩ := List.mem_flatMap.1 hx
      obtain ⟨hf, hlt⟩ := hs i hi
      obtain ⟨k, hk⟩ := Int.eq_ofNat_of_zero_le (show 0 ≤ max 1 (Interval.toInt (n * i.getLength / Interval.getLength s)) by
        exact le_trans (by norm_num) (le_max_left _ _))
      rw [hk] at hx
      have he := finite_eff hf
      have := (covering_correct i (finite_types hf).2.2 (by rw [he.1, he.2]; exact hlt) k).2.1 x hx
      exact ⟨i, hi, (contains_iff_mem _ _).2 this⟩

/-- C55: the number of points is not the requested one: ten points asked for on `[0,1] ∪ [9,10]`, two given. -/
theorem composite_covering_count :
    (Interval.covering [.closed 0 1, .closed 9 10] 10).length = 2 := by
  have hl : Interval.getLength [.closed 0 1, .closed 9 10] = 10 := by
    norm_num [Interval.getLength, Interval.getUpperBound, Interval.getLowerBound, BI.lower, BI.upper]
  have hz : Interval.toInt 1 = 1 := by norm_num [Interval.toInt]
  have hc : ∀ a : BI, (BI.covering a 1).length = 1 := by intro a; simp [BI.covering]
  unfold Interval.covering
  rw [if_neg (by simp), if_neg (by rw [hl]; norm_num), hl]
  norm_num [BI.getLength, BI.lower, BI.upper, hz, hc]

/-! ## C56: measures -/

theorem mk_length (lt ut : EndpointType) (l u : ℝ) : (mkInterval lt ut l u).getLength = u - l := by
  unfold mkInterval
  repeat' split
  all_goals simp [BI.getLength, BI.lower, BI.upper]

theorem measure_one (lt ut : EndpointType) (l u : ℝ) : Interval.getMeasure [mkInterval lt ut l u] = u - l := by
  simp only [Interval.getMeasure, List.foldl_cons, List.foldl_nil, mk_length, zero_add]

theorem measure_two (lt ut lt' ut' : EndpointType) (l u l' u' : ℝ) :
    Interval.getMeasure [mkInterval lt ut l u, mkInterval lt' ut' l' u'] = (u - l) + (u' - l') := by
  simp only [Interval.getMeasure, List.foldl_cons, List.foldl_nil, mk_length, zero_add]

theorem measure_inter (a b : BI) : Interval.getMeasure (intersection a b) =
    if max a.lower b.lower > min a.upper b.upper then 0 else min a.upper b.upper - max a.lower b.lower := by
  unfold intersection
  dsimp only
  split
  · rfl
  · exact measure_one _ _ _ _

theorem measure_diff (a b : BI) : Interval.getMeasure (difference a b) =
    if b.upper ≤ a.lower ∨ b.lower ≥ a.upper then a.upper - a.lower
    else if b.lower ≤ a.lower ∧ b.upper ≥ a.upper then 0
    else if b.lower ≤ a.lower ∧ b.upper < a.upper then a.upper - b.upper
    else if b.lower > a.lower ∧ b.upper ≥ a.upper then b.lower - a.lower
    else (b.lower - a.lower) + (a.upper - b.upper) := by
  unfold difference
  split
  · exact measure_one _ _ _ _
  · split
    · rfl
    · split
      · exact measure_one _ _ _ _
      · split
        · exact measure_one _ _ _ _
        · exact measure_two _ _ _ _ _ _ _ _

/-- C56: the measures of `a ∩ b` and `a \ b` add up to the length of `a`. -/
theorem measure_difference (a b : BI) (ha : a.lower ≤ a.upper) (hb : b.lower ≤ b.upper) :
    Interval.getMeasure (intersection a b) + Interval.getMeasure (difference a b) = a.getLength := by
  rw [measure_inter, measure_diff, BI.getLength]
  generalize a.lower = al at *
  generalize a.upper = au at *
  generalize b.lower = bl at *
  generalize b.upper = bu at *
  rw [max_def, min_def]
  grind

theorem measure_un (a b : BI) : Interval.getMeasure (union a b) =
    open Classical in if overlapsOrAdjacent a b then max a.upper b.upper - min a.lower b.lower
    else a.getLength + b.getLength := by
  unfold union
  split
  · exact measure_one _ _ _ _
  · dsimp only
    rw [measure_two]
    split <;> simp only [BI.getLength] <;> ring

/-- C56: inclusion-exclusion: the measures of `a ∪ b` and `a ∩ b` add up to the two lengths. -/
theorem measure_union (a b : BI) (ha : a.lower ≤ a.upper) (hb : b.lower ≤ b.upper) :
    Interval.getMeasure (union a b) + Interval.getMeasure (intersection a b) = a.getLength + b.getLength := by
  rw [measure_un, measure_inter]
  by_cases hov : overlapsOrAdjacent a b
  · rw [if_pos hov]
    have hle : b.lower ≤ a.upper ∧ a.lower ≤ b.upper := by
      unfold overlapsOrAdjacent at hov
      split at hov
      · next h => exact ⟨h.1.le, h.2.le⟩
      · split at hov
        · next h => constructor <;> linarith
        · split at hov
          · next h => constructor <;> linarith
          · exact hov.elim
    have hno : ¬ max a.lower b.lower > min a.upper b.upper := by
      rw [gt_iff_lt, not_lt]; exact max_le (le_min ha hle.2) (le_min hle.1 hb)
    rw [if_neg hno]
    simp only [BI.getLength]
    linarith [max_add_min a.upper b.upper, max_add_min a.lower b.lower]
  · rw [if_neg hov]
    have hd : a.upper ≤ b.lower ∨ b.upper ≤ a.lower := by
      by_contra hc
      push Not at hc
      apply hov
      unfold overlapsOrAdjacent
      rw [if_pos ⟨hc.1, hc.2⟩]; trivial
    split
    · ring
    · next h =>
      have := not_lt.1 h
      rcases hd with hd | hd
      · have h1 := le_max_right a.lower b.lower
        have h2 := min_le_left a.upper b.upper
        linarith
      · have h1 := le_max_left a.lower b.lower
        have h2 := min_le_right a.upper b.upper
        linarith

example : Interval.getMeasure (intersection (.closed 0 2) (.open_ 1 5)) + Interval.getMeasure (difference (.closed 0 2) (.open_ 1 5)) = 2 := by
  rw [measure_difference _ _ (by simp [BI.lower, BI.upper]) (by norm_num [BI.lower, BI.upper])]
  simp [BI.getLength, BI.lower, BI.upper]

end Verif.Intervals
