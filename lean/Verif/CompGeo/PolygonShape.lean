import Verif.CompGeo.PolygonProps

/-!
# C112: bounding box, perimeter, the tests for simple and convex polygons
-/

set_option autoImplicit false

namespace Verif.CompGeo.Poly

/-- **C112.**  `Vertex` and `Edge` give the vertices and the sides, and refuse every other index. -/
theorem vertex_spec (v : List Pt) (i : ℤ) :
    (∀ k : ℕ, i = k → k < v.length → ∃ p, vertex v i = .ret p ∧ v[k]? = some p) ∧
    (∀ k : ℕ, i = k → k < v.length → ∃ e, edge v i = .ret e ∧ (sides v)[k]? = some e) ∧
    (i < 0 ∨ (v.length : ℤ) ≤ i → vertex v i = .exn (.mml "VectorAccessBoundsError") ∧ edge v i = .exn (.mml "VectorAccessBoundsError")) := by
  obtain ⟨n, f, rfl⟩ := exists_tab v ((0, 0) : Pt)
  refine ⟨?_, ?_, fun h => ⟨by rw [vertex, if_pos h], by rw [edge, if_pos h]⟩⟩
  · rintro k rfl hk
    rw [length_tab] at hk
    refine ⟨f k, ?_, by rw [getElem?_tab, if_pos hk]⟩
    rw [vertex, if_neg (by simp; omega), Int.toNat_natCast, index_tab _ hk]
  · rintro k rfl hk
    rw [length_tab] at hk
    refine ⟨(f k, f ((k + 1) % n)), ?_, by rw [sides_tab, getElem?_tab, if_pos hk]⟩
    rw [edge, if_neg (by simp; omega), Int.toNat_natCast, index_tab _ hk, Outcome.bind_ret, length_tab, index_tab _ (Nat.mod_lt _ (by omega)),
      Outcome.bind_ret]

/-- **C112.**  The perimeter is the sum of the lengths of the sides. -/
theorem perimeter_spec (v : List Pt) : perimeter v = .ret ((sides v).map fun e => euclid e.1 e.2).sum := by
  rw [perimeter]
  by_cases h : v.length < 2
  · rw [if_pos h]
    rcases short_cases (v := v) (by omega) with rfl | ⟨a, rfl⟩ | ⟨a, b, rfl⟩
    · rfl
    · have : sides [a] = [(a, a)] := by simp [sides]
      rw [this]
      simp [euclid]
    · simp at h
  · rw [if_neg h, forRange_sides v 0 (perimeterStep v) (fun p q => euclid p q), zero_add]
    intro i p q s h1 h2
    rw [perimeterStep, h1, Outcome.bind_ret, h2, Outcome.bind_ret, dist2_eq]

/-- **C112.**  The bounding box is the smallest one: it contains all vertices, and each of its four sides touches one. -/
theorem boundingBox_spec (v : List Pt) : (v = [] → boundingBox v = .exn (.mml "GeometryError")) ∧
    (v ≠ [] → ∃ b, boundingBox v = .ret b ∧ IsLeast {x | ∃ p ∈ v, p.1 = x} b.minX ∧ IsGreatest {x | ∃ p ∈ v, p.1 = x} b.maxX ∧
      IsLeast {y | ∃ p ∈ v, p.2 = y} b.minY ∧ IsGreatest {y | ∃ p ∈ v, p.2 = y} b.maxY) := by
  constructor
  · rintro rfl; rfl
  · intro hv
    obtain ⟨n, f, rfl⟩ := exists_tab v ((0, 0) : Pt)
    have hn : 0 < n := by
      rcases Nat.eq_zero_or_pos n with rfl | h
      · exact absurd rfl hv
      · exact h
    have hmem : ∀ p, p ∈ tab n f ↔ ∃ i < n, f i = p := by
      intro p
      simp [tab]
    simp only [hmem]
    rw [boundingBox, length_tab, if_neg (by omega), index_tab _ hn, Outcome.bind_ret]
    obtain ⟨b, h1, h2⟩ := forFromTo_rule (fun k (b : Box) =>
        (∃ i < k, (f i).1 = b.minX) ∧ (∀ i < k, b.minX ≤ (f i).1) ∧ (∃ i < k, (f i).1 = b.maxX) ∧ (∀ i < k, (f i).1 ≤ b.maxX) ∧
        (∃ i < k, (f i).2 = b.minY) ∧ (∀ i < k, b.minY ≤ (f i).2) ∧ (∃ i < k, (f i).2 = b.maxY) ∧ (∀ i < k, (f i).2 ≤ b.maxY))
      1 n (by omega) ⟨(f 0).1, (f 0).1, (f 0).2, (f 0).2⟩ (boxStep (tab n f)) (by
        refine ⟨⟨0, by omega, rfl⟩, ?_, ⟨0, by omega, rfl⟩, ?_, ⟨0, by omega, rfl⟩, ?_, ⟨0, by omega, rfl⟩, ?_⟩ <;>
        · intro i hi
          obtain rfl : i = 0 := by omega
          exact le_rfl) (by
        rintro k b hk1 hk ⟨e1, e2, e3, e4, e5, e6, e7, e8⟩
        rw [boxStep, index_tab _ hk, Outcome.bind_ret]
        have hmin : ∀ (g : ℕ → ℝ) (m : ℝ), (∃ i < k, g i = m) → (∀ i < k, m ≤ g i) → (∃ i < k + 1, g i = min m (g k)) ∧ ∀ i < k + 1, min m (g k) ≤ g i := by
          rintro g m ⟨i, hi, hg⟩ h
          constructor
          · rcases le_total m (g k) with h' | h'
            · exact ⟨i, by omega, by rw [min_eq_left h', hg]⟩
            · exact ⟨k, by omega, by rw [min_eq_right h']⟩
          · intro j hj
            rcases Nat.lt_succ_iff_lt_or_eq.1 hj with hj | rfl
            · exact (min_le_left _ _).trans (h j hj)
            · exact min_le_right _ _
        have hmax : ∀ (g : ℕ → ℝ) (m : ℝ), (∃ i < k, g i = m) → (∀ i < k, g i ≤ m) → (∃ i < k + 1, g i = max m (g k)) ∧ ∀ i < k + 1, g i ≤ max m (g k) := by
          rintro g m ⟨i, hi, hg⟩ h
          constructor
          · rcases le_total m (g k) with h' | h'
            · exact ⟨k, by omega, by rw [max_eq_right h']⟩
            · exact ⟨i, by omega, by rw [max_eq_left h', hg]⟩
          · intro j hj
            rcases Nat.lt_succ_iff_lt_or_eq.1 hj with hj | rfl
            · exact (h j hj).trans (le_max_left _ _)
            · exact le_max_right _ _
        obtain ⟨a1, a2⟩ := hmin (fun i => (f i).1) _ e1 e2
        obtain ⟨a3, a4⟩ := hmax (fun i => (f i).1) _ e3 e4
        obtain ⟨a5, a6⟩ := hmin (fun i => (f i).2) _ e5 e6
        obtain ⟨a7, a8⟩ := hmax (fun i => (f i).2) _ e7 e8
        exact ⟨_, rfl, a1, a2, a3, a4, a5, a6, a7, a8⟩)
    obtain ⟨⟨i1, d1, e1⟩, e2, ⟨i3, d3, e3⟩, e4, ⟨i5, d5, e5⟩, e6, ⟨i7, d7, e7⟩, e8⟩ := h2
    refine ⟨b, h1, ⟨⟨_, ⟨i1, d1, rfl⟩, e1⟩, ?_⟩, ⟨⟨_, ⟨i3, d3, rfl⟩, e3⟩, ?_⟩, ⟨⟨_, ⟨i5, d5, rfl⟩, e5⟩, ?_⟩, ⟨⟨_, ⟨i7, d7, rfl⟩, e7⟩, ?_⟩⟩
    · rintro x ⟨p, ⟨i, hi, rfl⟩, rfl⟩; exact e2 i hi
    · rintro x ⟨p, ⟨i, hi, rfl⟩, rfl⟩; exact e4 i hi
    · rintro x ⟨p, ⟨i, hi, rfl⟩, rfl⟩; exact e6 i hi
    · rintro x ⟨p, ⟨i, hi, rfl⟩, rfl⟩; exact e8 i hi

/-! ## Simple polygons -/

/-- The segments `a b` and `c d` cross: they are not parallel and have a point in common that is an end of neither. -/
def Crosses (e e' : Pt × Pt) : Prop := ∃ s t : ℝ, 0 < s ∧ s < 1 ∧ 0 < t ∧ t < 1 ∧
  e.1 + s • (e.2 - e.1) = e'.1 + t • (e'.2 - e'.1) ∧ (e.2.1 - e.1.1) * (e'.2.2 - e'.1.2) - (e.2.2 - e.1.2) * (e'.2.1 - e'.1.1) ≠ 0

theorem sgn_mul (x y : ℝ) : sgn x * sgn y < 0 ↔ x * y < 0 := by
  rw [mul_neg_iff, sgn, sgn]
  rcases lt_trichotomy x 0 with hx | hx | hx <;> rcases lt_trichotomy y 0 with hy | hy | hy <;>
    simp [hx, hy, hx.le, hy.le, not_lt.2 hx.le, not_lt.2 hy.le] <;> nlinarith

theorem segmentsIntersect_iff (a b c d : Pt) : segmentsIntersect a b c d = true ↔ Crosses (a, b) (c, d) := by
  rw [segmentsIntersect, Bool.and_eq_true, decide_eq_true_eq, decide_eq_true_eq, sgn_mul, sgn_mul]
  set D := (b.1 - a.1) * (d.2 - c.2) - (b.2 - a.2) * (d.1 - c.1) with hD
  have e1 : turn a b c - turn a b d = D := by rw [turn, turn, hD]; ring
  have e2 : turn c d a - turn c d b = -D := by rw [turn, turn, hD]; ring
  constructor
  · rintro ⟨h1, h2⟩
    have hne : D ≠ 0 := by
      intro h
      have : turn a b c = turn a b d := by linarith
      rw [this] at h1
      nlinarith [mul_self_nonneg (turn a b d)]
    have unit : ∀ x y : ℝ, x * y < 0 → 0 < x / (x - y) ∧ x / (x - y) < 1 := by
      intro x y h
      rcases mul_neg_iff.1 h with ⟨hx, hy⟩ | ⟨hx, hy⟩
      · exact ⟨div_pos hx (by linarith), (div_lt_one (by linarith)).2 (by linarith)⟩
      · exact ⟨div_pos_of_neg_of_neg hx (by linarith), (div_lt_one_of_neg (by linarith)).2 (by linarith)⟩
    obtain ⟨t0, t1⟩ := unit _ _ h1
    obtain ⟨s0, s1⟩ := unit _ _ h2
    rw [e1] at t0 t1
    rw [e2] at s0 s1
    refine ⟨_, _, s0, s1, t0, t1, ?_, hne⟩
    ext
    · simp only [Prod.fst_add, Prod.smul_fst, Prod.fst_sub, smul_eq_mul]
      field_simp
      rw [turn, turn, hD]; ring
    · simp only [Prod.snd_add, Prod.smul_snd, Prod.snd_sub, smul_eq_mul]
      field_simp
      rw [turn, turn, hD]; ring
  · rintro ⟨s, t, s0, s1, t0, t1, hx, hne⟩
    change D ≠ 0 at hne
    have hx1 := congrArg Prod.fst hx
    have hx2 := congrArg Prod.snd hx
    simp only [Prod.fst_add, Prod.smul_fst, Prod.fst_sub, Prod.snd_add, Prod.smul_snd, Prod.snd_sub, smul_eq_mul] at hx1 hx2
    have f1 : turn a b c = t * D := by rw [turn, hD]; linear_combination (-(b.2 - a.2)) * hx1 + (b.1 - a.1) * hx2
    have f2 : turn a b d = -((1 - t) * D) := by linarith
    have f3 : turn c d a = -(s * D) := by rw [turn, hD]; linear_combination (d.2 - c.2) * hx1 - (d.1 - c.1) * hx2
    have f4 : turn c d b = (1 - s) * D := by linarith
    have hDD : 0 < D * D := mul_self_pos.2 hne
    rw [f1, f2, f3, f4]
    constructor
    · have : 0 < t * (1 - t) * (D * D) := mul_pos (mul_pos t0 (by linarith)) hDD
      linarith [this, (by ring : t * D * -((1 - t) * D) = -(t * (1 - t) * (D * D)))]
    · have : 0 < s * (1 - s) * (D * D) := mul_pos (mul_pos s0 (by linarith)) hDD
      linarith [this, (by ring : -(s * D) * ((1 - s) * D) = -(s * (1 - s) * (D * D)))]

theorem Crosses.symm {e e' : Pt × Pt} (h : Crosses e e') : Crosses e' e := by
  obtain ⟨s, t, s0, s1, t0, t1, hx, hne⟩ := h
  refine ⟨t, s, t0, t1, s0, s1, hx.symm, fun h => hne ?_⟩
  linarith

theorem not_crosses_self (e : Pt × Pt) : ¬Crosses e e := by
  rintro ⟨s, t, -, -, -, -, -, hne⟩
  exact hne (by ring)

/-- Sides with a common end do not cross. -/
theorem not_crosses_adjacent (a b c : Pt) : ¬Crosses (a, b) (b, c) := by
  intro h
  have := (segmentsIntersect_iff a b b c).2 h
  rw [segmentsIntersect, Bool.and_eq_true, decide_eq_true_eq, sgn_mul] at this
  have h0 : turn a b b = 0 := by rw [turn]; ring
  rw [h0, zero_mul] at this
  exact lt_irrefl _ this.1

theorem simple_inner (n : ℕ) (f : ℕ → Pt) (i : ℕ) (hi : i < n) : ∃ r, forFromTo (i + 2) n none (simplePair (tab n f) i (f i) (f ((i + 1) % n))) = .ret r ∧
    ((r = none ∧ ∀ j, i + 2 ≤ j → j < n → j ≠ (i + n - 1) % n → ¬Crosses (f i, f ((i + 1) % n)) (f j, f ((j + 1) % n))) ∨
      (r = some false ∧ ∃ j, i + 2 ≤ j ∧ j < n ∧ Crosses (f i, f ((i + 1) % n)) (f j, f ((j + 1) % n)))) := by
  rcases Nat.lt_or_ge n (i + 2) with h | h
  · refine ⟨none, ?_, .inl ⟨rfl, fun j h1 h2 => by omega⟩⟩
    rw [forFromTo, show n - (i + 2) = 0 by omega]; rfl
  · refine forFromTo_rule (fun k (r : Option Bool) => (r = none ∧ ∀ j, i + 2 ≤ j → j < k → j ≠ (i + n - 1) % n → ¬Crosses (f i, f ((i + 1) % n)) (f j, f ((j + 1) % n))) ∨
      (r = some false ∧ ∃ j, i + 2 ≤ j ∧ j < n ∧ Crosses (f i, f ((i + 1) % n)) (f j, f ((j + 1) % n)))) (i + 2) n h none
      (simplePair (tab n f) i (f i) (f ((i + 1) % n))) (.inl ⟨rfl, fun j h1 h2 => by omega⟩) ?_
    rintro k r hk1 hk (⟨rfl, h1⟩ | ⟨rfl, h1⟩)
    · rw [simplePair, if_neg (by simp), length_tab]
      by_cases hs : k = (i + n - 1) % n
      · rw [if_pos hs]
        refine ⟨none, rfl, .inl ⟨rfl, fun j g1 g2 g3 => ?_⟩⟩
        exact h1 j g1 (by omega) g3
      · rw [if_neg hs, index_tab _ hk, Outcome.bind_ret, index_tab _ (Nat.mod_lt _ (by omega)), Outcome.bind_ret]
        refine ⟨_, rfl, ?_⟩
        by_cases hc : segmentsIntersect (f i) (f ((i + 1) % n)) (f k) (f ((k + 1) % n)) = true
        · rw [if_pos hc]
          exact .inr ⟨rfl, k, hk1, hk, (segmentsIntersect_iff _ _ _ _).1 hc⟩
        · rw [if_neg hc]
          refine .inl ⟨rfl, fun j g1 g2 g3 => ?_⟩
          rcases Nat.lt_succ_iff_lt_or_eq.1 g2 with g2 | rfl
          · exact h1 j g1 g2 g3
          · rwa [← segmentsIntersect_iff]
    · rw [simplePair, if_pos (by simp)]
      exact ⟨_, rfl, .inr ⟨rfl, h1⟩⟩

/-- **C112.**  `IsSimple` tells whether there are three or more vertices and no two sides cross. -/
theorem isSimple_spec (v : List Pt) : ∃ b, isSimple v = .ret b ∧ (b = true ↔ 3 ≤ v.length ∧ ∀ e ∈ sides v, ∀ e' ∈ sides v, ¬Crosses e e') := by
  obtain ⟨n, f, rfl⟩ := exists_tab v ((0, 0) : Pt)
  rw [isSimple, length_tab]
  by_cases h3 : n < 3
  · rw [if_pos h3]
    exact ⟨false, rfl, by simp; omega⟩
  rw [if_neg h3]
  obtain ⟨r, h1, h2⟩ := forRange_rule (fun k (r : Option Bool) =>
      (r = none ∧ ∀ i < k, ∀ j, i + 2 ≤ j → j < n → j ≠ (i + n - 1) % n → ¬Crosses (f i, f ((i + 1) % n)) (f j, f ((j + 1) % n))) ∨
      (r = some false ∧ ∃ i j, i < n ∧ j < n ∧ Crosses (f i, f ((i + 1) % n)) (f j, f ((j + 1) % n))))
    n none (simpleEdge (tab n f)) (.inl ⟨rfl, fun i hi => by omega⟩) (by
      rintro k r hk (⟨rfl, g⟩ | ⟨rfl, g⟩)
      · obtain ⟨r, e1, e2⟩ := simple_inner n f k hk
        rw [simpleEdge, if_neg (by simp), index_tab _ hk, Outcome.bind_ret, length_tab, index_tab _ (Nat.mod_lt _ (by omega)), Outcome.bind_ret]
        refine ⟨r, e1, ?_⟩
        rcases e2 with ⟨rfl, e2⟩ | ⟨rfl, j, -, hj, e2⟩
        · refine .inl ⟨rfl, fun i hi => ?_⟩
          rcases Nat.lt_succ_iff_lt_or_eq.1 hi with hi | rfl
          · exact g i hi
          · exact e2
        · exact .inr ⟨rfl, k, j, hk, hj, e2⟩
      · rw [simpleEdge, if_pos (by simp)]
        exact ⟨_, rfl, .inr ⟨rfl, g⟩⟩)
  rw [h1, Outcome.bind_ret]
  refine ⟨_, rfl, ?_⟩
  have hmem : ∀ e, e ∈ sides (tab n f) ↔ ∃ i < n, e = (f i, f ((i + 1) % n)) := by
    intro e
    rw [sides_tab]
    simp [tab, eq_comm]
  simp only [hmem]
  rcases h2 with ⟨rfl, g⟩ | ⟨rfl, i, j, hi, hj, g⟩
  · refine ⟨fun _ => ⟨by omega, ?_⟩, fun _ => rfl⟩
    have key : ∀ i j, i < j → j < n → ¬Crosses (f i, f ((i + 1) % n)) (f j, f ((j + 1) % n)) := by
      intro i j hij hj
      by_cases h : j = i + 1
      · subst h
        rw [Nat.mod_eq_of_lt hj]
        exact not_crosses_adjacent _ _ _
      by_cases h' : j = (i + n - 1) % n
      · have hi0 : i = 0 := by
          by_contra h0
          have : i + n - 1 = (i - 1) + n := by omega
          rw [this, Nat.add_mod_right, Nat.mod_eq_of_lt (by omega)] at h'
          omega
        subst hi0
        rw [Nat.zero_add, Nat.mod_eq_of_lt (by omega)] at h'
        intro hc
        have e : (j + 1) % n = 0 := by rw [h', show n - 1 + 1 = n by omega, Nat.mod_self]
        rw [e] at hc
        exact not_crosses_adjacent _ _ _ hc.symm
      · exact g i (by omega) j (by omega) hj h'
    rintro e ⟨i, hi, rfl⟩ e' ⟨j, hj, rfl⟩ hc
    rcases lt_trichotomy i j with h | rfl | h
    · exact key i j h hj hc
    · exact not_crosses_self _ hc
    · exact key j i h hi hc.symm
  · constructor
    · intro h; cases h
    · rintro ⟨-, h⟩
      exact absurd g (h _ ⟨i, hi, rfl⟩ _ ⟨j, hj, rfl⟩)

/-! ## The test for convexity -/

/-- The corners of the polygon: three vertices in succession. -/
def corners (v : List Pt) : List (Pt × Pt × Pt) := v.zip ((v.rotate 1).zip (v.rotate 2))

theorem corners_tab (n : ℕ) (f : ℕ → Pt) : corners (tab n f) = tab n (fun i => (f i, f ((i + 1) % n), f ((i + 2) % n))) := by
  have h2 : (tab n f).rotate 2 = tab n (fun i => f ((i + 2) % n)) := by
    apply List.ext_getElem?
    intro k
    rw [getElem?_tab]
    by_cases h : k < n
    · rw [List.getElem?_rotate (by simpa using h), length_tab, getElem?_tab, if_pos (Nat.mod_lt _ (by omega)), if_pos h]
    · rw [if_neg h, List.getElem?_eq_none]
      simpa using h
  rw [corners, rotate_tab, h2]
  apply List.ext_getElem?
  intro k
  rw [getElem?_tab]
  by_cases h : k < n
  · rw [if_pos h]
    exact List.getElem?_zip_eq_some.2 ⟨by rw [getElem?_tab, if_pos h], List.getElem?_zip_eq_some.2 ⟨by rw [getElem?_tab, if_pos h], by rw [getElem?_tab, if_pos h]⟩⟩
  · rw [if_neg h, List.getElem?_eq_none]
    simpa using h

/-- **C112.**  `IsConvex` tells whether there are three or more vertices and all corners turn to the same side, up to the tolerance. -/
theorem isConvex_spec (v : List Pt) : ∃ b, isConvex v = .ret b ∧ (b = true ↔ 3 ≤ v.length ∧
    ((∀ c ∈ corners v, area2 c.1 c.2.1 c.2.2 ≤ 1 / 10 ^ 10) ∨ ∀ c ∈ corners v, -(1 / 10 ^ 10) ≤ area2 c.1 c.2.1 c.2.2)) := by
  obtain ⟨n, f, rfl⟩ := exists_tab v ((0, 0) : Pt)
  rw [isConvex, length_tab]
  by_cases h3 : n < 3
  · rw [if_pos h3]
    exact ⟨false, rfl, by simp; omega⟩
  rw [if_neg h3]
  set T : ℕ → ℝ := fun i => area2 (f i) (f ((i + 1) % n)) (f ((i + 2) % n)) with hT
  have hmem : ∀ e, e ∈ corners (tab n f) ↔ ∃ i < n, (f i, f ((i + 1) % n), f ((i + 2) % n)) = e := by
    intro e
    rw [corners_tab]
    simp [tab]
  obtain ⟨s, h1, h2⟩ := forRange_rule (fun k (s : Turns) =>
      (s.result = none ∧ (s.pos = true ↔ ∃ i < k, geomEps < T i) ∧ (s.neg = true ↔ ∃ i < k, T i < -geomEps) ∧ ¬(s.pos = true ∧ s.neg = true)) ∨
      (s.result = some false ∧ (∃ i < n, geomEps < T i) ∧ ∃ i < n, T i < -geomEps))
    n ⟨false, false, none⟩ (convexStep (tab n f)) (.inl ⟨rfl, by simp, by simp, by simp⟩) (by
      rintro k s hk (⟨e1, e2, e3, e4⟩ | g)
      · rw [convexStep, e1, if_neg (by simp), index_tab _ hk, Outcome.bind_ret, length_tab, index_tab _ (Nat.mod_lt _ (by omega)), Outcome.bind_ret,
          index_tab _ (Nat.mod_lt _ (by omega)), Outcome.bind_ret]
        refine ⟨_, rfl, ?_⟩
        have ht : ((f ((k + 1) % n)).1 - (f k).1) * ((f ((k + 2) % n)).2 - (f ((k + 1) % n)).2) -
            ((f ((k + 1) % n)).2 - (f k).2) * ((f ((k + 2) % n)).1 - (f ((k + 1) % n)).1) = T k := by rw [hT]; simp only [area2]; ring
        rw [ht]
        have hp : (s.pos || decide (geomEps < T k)) = true ↔ ∃ i < k + 1, geomEps < T i := by
          rw [Bool.or_eq_true, e2, decide_eq_true_eq]
          constructor
          · rintro (⟨i, hi, h⟩ | h)
            · exact ⟨i, by omega, h⟩
            · exact ⟨k, by omega, h⟩
          · rintro ⟨i, hi, h⟩
            rcases Nat.lt_succ_iff_lt_or_eq.1 hi with hi | rfl
            · exact .inl ⟨i, hi, h⟩
            · exact .inr h
        have hn : (s.neg || decide (T k < -geomEps)) = true ↔ ∃ i < k + 1, T i < -geomEps := by
          rw [Bool.or_eq_true, e3, decide_eq_true_eq]
          constructor
          · rintro (⟨i, hi, h⟩ | h)
            · exact ⟨i, by omega, h⟩
            · exact ⟨k, by omega, h⟩
          · rintro ⟨i, hi, h⟩
            rcases Nat.lt_succ_iff_lt_or_eq.1 hi with hi | rfl
            · exact .inl ⟨i, hi, h⟩
            · exact .inr h
        rw [convexTurn]
        by_cases hb : ((s.pos || decide (geomEps < T k)) && (s.neg || decide (T k < -geomEps))) = true
        · rw [if_pos hb]
          rw [Bool.and_eq_true] at hb
          obtain ⟨i, hi, hi'⟩ := hp.1 hb.1
          obtain ⟨j, hj, hj'⟩ := hn.1 hb.2
          exact .inr ⟨rfl, ⟨i, by omega, hi'⟩, ⟨j, by omega, hj'⟩⟩
        · rw [if_neg hb]
          rw [Bool.and_eq_true] at hb
          exact .inl ⟨rfl, hp, hn, hb⟩
      · rw [convexStep, g.1, if_pos (by simp)]
        exact ⟨_, rfl, .inr g⟩)
  rw [h1, Outcome.bind_ret]
  refine ⟨_, rfl, ?_⟩
  have hall : ((∀ c ∈ corners (tab n f), area2 c.1 c.2.1 c.2.2 ≤ 1 / 10 ^ 10) ∨ ∀ c ∈ corners (tab n f), -(1 / 10 ^ 10) ≤ area2 c.1 c.2.1 c.2.2) ↔
      ¬((∃ i < n, geomEps < T i) ∧ ∃ i < n, T i < -geomEps) := by
    simp only [hmem, geomEps]
    constructor
    · rintro (h | h) ⟨⟨i, hi, g⟩, ⟨j, hj, g'⟩⟩
      · have := h _ ⟨i, hi, rfl⟩; exact absurd g (not_lt.2 this)
      · have := h _ ⟨j, hj, rfl⟩; exact absurd g' (not_lt.2 this)
    · intro h
      rw [not_and_or] at h
      push Not at h
      rcases h with h | h
      · left; rintro c ⟨i, hi, rfl⟩; exact h i hi
      · right; rintro c ⟨i, hi, rfl⟩; exact h i hi
  rw [hall]
  rcases h2 with ⟨e1, e2, e3, e4⟩ | ⟨e1, e2, e3⟩
  · rw [e1]
    rw [← e2, ← e3]
    exact ⟨fun _ => ⟨by omega, e4⟩, fun _ => rfl⟩
  · rw [e1]
    constructor
    · intro h; cases h
    · rintro ⟨-, h⟩; exact absurd ⟨e2, e3⟩ h

/-- **C112.**  Convex polygons pass the test. -/
theorem isConvex_of_convex (v : List Pt) (hv : Convex v) (h3 : 3 ≤ v.length) : isConvex v = .ret true := by
  obtain ⟨b, h1, h2⟩ := isConvex_spec v
  rw [h1]
  congr 1
  rw [h2]
  refine ⟨h3, .inr ?_⟩
  obtain ⟨n, f, rfl⟩ := exists_tab v ((0, 0) : Pt)
  rw [length_tab] at h3
  rw [corners_tab]
  intro c hc
  obtain ⟨i, hi, rfl⟩ : ∃ i < n, (f i, f ((i + 1) % n), f ((i + 2) % n)) = c := by simpa [tab] using hc
  have hinj : ∀ i j, i < n → j < n → f i = f j → i = j := by
    intro i j hi hj h
    have := hv.nodup
    rw [tab, List.nodup_map_iff_inj_on List.nodup_range] at this
    exact this i (List.mem_range.2 hi) j (List.mem_range.2 hj) h
  have hm : ∀ k, (i + k) % n < n := fun k => Nat.mod_lt _ (by omega)
  have hmem : ∀ k, k < n → f k ∈ tab n f := fun k hk => List.mem_iff_getElem?.2 ⟨k, by rw [getElem?_tab, if_pos hk]⟩
  have hne : ∀ d, d = 1 ∨ d = 2 → ∀ k, k < n → (k + d) % n ≠ k := by
    intro d hd k hk h
    rcases Nat.lt_or_ge (k + d) n with h' | h'
    · rw [Nat.mod_eq_of_lt h'] at h; omega
    · rw [Nat.mod_eq_sub_mod h', Nat.mod_eq_of_lt (by omega)] at h; omega
  have hpos := hv.left (f i, f ((i + 1) % n)) (by
      rw [sides_tab]
      exact List.mem_iff_getElem?.2 ⟨i, by rw [getElem?_tab, if_pos hi]⟩) (f ((i + 2) % n)) (hmem _ (hm 2))
    (fun h => hne 2 (.inr rfl) i hi (hinj _ _ (hm 2) hi h))
    (fun h => by
      have := hinj _ _ (hm 2) (hm 1) h
      refine hne 1 (.inl rfl) _ (hm 1) ?_
      rw [Nat.mod_add_mod]
      exact this)
  have : (0 : ℝ) ≤ 1 / 10 ^ 10 := by positivity
  simp only at hpos ⊢
  linarith

/-! ## What the tests do not tell -/

/-- **C112.**  `IsSimple` accepts a polygon two of whose sides overlap. -/
theorem isSimple_wrong : isSimple [(0, 0), (4, 0), (2, 0), (2, 2)] = .ret true ∧ ((3, 0) : Pt) ∈ segment ℝ (0, 0) (4, 0) ∧
    ((3, 0) : Pt) ∈ segment ℝ (4, 0) (2, 0) := by
  refine ⟨?_, ⟨1 / 4, 3 / 4, by norm_num, by norm_num, by norm_num, by ext <;> norm_num⟩, ⟨1 / 2, 1 / 2, by norm_num, by norm_num, by norm_num, by ext <;> norm_num⟩⟩
  obtain ⟨b, h1, h2⟩ := isSimple_spec [(0, 0), (4, 0), (2, 0), (2, 2)]
  rw [h1]
  congr 1
  rw [h2]
  refine ⟨by simp, ?_⟩
  have : sides [((0, 0) : Pt), (4, 0), (2, 0), (2, 2)] = [((0, 0), (4, 0)), ((4, 0), (2, 0)), ((2, 0), (2, 2)), ((2, 2), (0, 0))] := rfl
  rw [this]
  intro e he e' he' hc
  have := (segmentsIntersect_iff e.1 e.2 e'.1 e'.2).2 hc
  rw [segmentsIntersect, Bool.and_eq_true, decide_eq_true_eq, decide_eq_true_eq, sgn_mul, sgn_mul] at this
  simp only [List.mem_cons, List.not_mem_nil, or_false] at he he'
  rcases he with rfl | rfl | rfl | rfl <;> rcases he' with rfl | rfl | rfl | rfl <;> norm_num [turn] at this

/-- **C112.**  `IsConvex` accepts a pentagram, whose sides cross and which winds twice around its centre. -/
theorem isConvex_wrong : isConvex [(2, 0), (-1, 2), (0, -2), (1, 2), (-2, 0)] = .ret true ∧
    isSimple [(2, 0), (-1, 2), (0, -2), (1, 2), (-2, 0)] = .ret false ∧
    windingNumber [(2, 0), (-1, 2), (0, -2), (1, 2), (-2, 0)] (0, 1 / 2) = .ret 2 ∧
    contains [(2, 0), (-1, 2), (0, -2), (1, 2), (-2, 0)] (0, 1 / 2) = .ret false := by
  have hw : windingNumber [(2, 0), (-1, 2), (0, -2), (1, 2), (-2, 0)] (0, 1 / 2) = .ret 2 := by
    rw [windingNumber_eq, wind]
    have : sides [((2, 0) : Pt), (-1, 2), (0, -2), (1, 2), (-2, 0)] =
      [((2, 0), (-1, 2)), ((-1, 2), (0, -2)), ((0, -2), (1, 2)), ((1, 2), (-2, 0)), ((-2, 0), (2, 0))] := rfl
    rw [this]
    norm_num [winds, side]
  refine ⟨?_, ?_, hw, ?_⟩
  · obtain ⟨b, h1, h2⟩ := isConvex_spec [(2, 0), (-1, 2), (0, -2), (1, 2), (-2, 0)]
    rw [h1]
    congr 1
    rw [h2]
    refine ⟨by simp, .inr ?_⟩
    have : corners [((2, 0) : Pt), (-1, 2), (0, -2), (1, 2), (-2, 0)] =
      [((2, 0), (-1, 2), (0, -2)), ((-1, 2), (0, -2), (1, 2)), ((0, -2), (1, 2), (-2, 0)), ((1, 2), (-2, 0), (2, 0)), ((-2, 0), (2, 0), (-1, 2))] := rfl
    rw [this]
    intro c hc
    simp only [List.mem_cons, List.not_mem_nil, or_false] at hc
    rcases hc with rfl | rfl | rfl | rfl | rfl <;> norm_num [area2]
  · obtain ⟨b, h1, h2⟩ := isSimple_spec [(2, 0), (-1, 2), (0, -2), (1, 2), (-2, 0)]
    rw [h1]
    congr 1
    rw [← Bool.not_eq_true, h2]
    rintro ⟨-, h⟩
    have h := h ((2, 0), (-1, 2)) (by simp [sides]) ((0, -2), (1, 2)) (by simp [sides])
    rw [← segmentsIntersect_iff, segmentsIntersect, Bool.and_eq_true, decide_eq_true_eq, decide_eq_true_eq, sgn_mul, sgn_mul] at h
    norm_num [turn] at h
  · obtain ⟨b, w, e1, e2, e3⟩ := contains_spec [(2, 0), (-1, 2), (0, -2), (1, 2), (-2, 0)] (0, 1 / 2)
    rw [hw, Outcome.ret.injEq] at e2
    rw [e1]
    congr 1
    rw [← Bool.not_eq_true, e3, ← e2]
    decide

/-! ## Examples -/

/-- The unit square. -/
def square : List Pt := [(0, 0), (1, 0), (1, 1), (0, 1)]

theorem square_sides : sides square = [((0, 0), (1, 0)), ((1, 0), (1, 1)), ((1, 1), (0, 1)), ((0, 1), (0, 0))] := rfl

theorem square_convex : Convex square := by
  refine ⟨by simp [square], ?_⟩
  rw [square_sides]
  intro e he p hp
  simp only [square, List.mem_cons, List.not_mem_nil, or_false] at he hp
  rcases he with rfl | rfl | rfl | rfl <;> rcases hp with rfl | rfl | rfl | rfl <;> norm_num [area2]

example : windingNumber square (1 / 3, 1 / 2) = .ret 1 ∧ contains square (1 / 3, 1 / 2) = .ret true := by
  refine convex_inside square square_convex (by simp [square]) _ ?_
  rw [square_sides]
  intro e he
  simp only [List.mem_cons, List.not_mem_nil, or_false] at he
  rcases he with rfl | rfl | rfl | rfl <;> norm_num [area2]

example : ((sides square).map fun e => angle (1 / 3, 1 / 2) e.1 e.2).sum = 2 * Real.pi := by
  have h : ∀ e ∈ sides square, 0 < area2 e.1 e.2 (1 / 3, 1 / 2) := by
    rw [square_sides]
    intro e he
    simp only [List.mem_cons, List.not_mem_nil, or_false] at he
    rcases he with rfl | rfl | rfl | rfl <;> norm_num [area2]
  obtain ⟨w, h1, h2⟩ := windingNumber_angle square (1 / 3, 1 / 2) fun e he => off_of_side (by rw [side_area2]; exact (h e he).ne')
  have h3 := (convex_inside square square_convex (by simp [square]) (1 / 3, 1 / 2) h).1
  rw [h1, Outcome.ret.injEq] at h3
  rw [h2, h3]
  simp

example : contains square (3, 1 / 2) = .ret false :=
  (convex_outside square square_convex _ ((1, 0), (1, 1)) (by rw [square_sides]; simp) (by norm_num [area2])).2

example : isConvex square = .ret true := isConvex_of_convex square square_convex (by simp [square])

theorem square_area : signedArea square = .ret 1 := by
  rw [signedArea_eq, square_sides]
  norm_num

-- the integral of the winding number of the square is 1, the integrals of the coordinates weighted by it are 1/2
example (w : Pt → ℤ) (hw : ∀ p, windingNumber square p = .ret (w p)) : MeasureTheory.integral MeasureTheory.volume (fun p => (w p : ℝ)) = 1 := by
  have := (signedArea_integral square w hw).2.1
  rw [square_area, Outcome.ret.injEq] at this
  exact this.symm

example (w : Pt → ℤ) (hw : ∀ p, windingNumber square p = .ret (w p)) : ∃ c, centroid square = .ret c := by
  obtain ⟨c, h, -⟩ := (centroid_spec square (by simp [square]) w hw 1 square_area).2 (by norm_num)
  exact ⟨c, h⟩

example : ∃ b, boundingBox square = .ret b ∧ b.maxX = 1 := by
  obtain ⟨b, h1, -, h2, -⟩ := (boundingBox_spec square).2 (by simp [square])
  refine ⟨b, h1, le_antisymm ?_ ?_⟩
  · obtain ⟨p, hp, h⟩ := h2.1
    simp only [square, List.mem_cons, List.not_mem_nil, or_false] at hp
    rcases hp with rfl | rfl | rfl | rfl <;> simp at h <;> linarith
  · exact h2.2 ⟨(1, 0), by simp [square], rfl⟩

example : ∃ l, triangularization square = .ret l ∧ l.length = 2 := by
  obtain ⟨l, h1, h2, -⟩ := triangularization_spec square (by simp [square])
  exact ⟨l, h1, h2⟩

end Verif.CompGeo.Poly
