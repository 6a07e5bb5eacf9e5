import Verif.CompGeo.LinesProps
import Verif.CompGeo.HullConvex

/-!
# C113: the intersection of two segments
-/

set_option autoImplicit false

namespace Verif.CompGeo.Lines

/-- The corners of two segments. -/
def corners (s o : Seg) : List Pt := [s.p, s.q, o.p, o.q]

/-- Two segments of positive length whose corners are in a position that the tolerance does not blur: coordinates that differ, and areas that are not
zero, are larger than `10⁻¹⁰`.  Corners with integer coordinates, for instance. -/
structure Sharp (s o : Seg) : Prop where
  first : s.p ≠ s.q
  second : o.p ≠ o.q
  xs : ∀ a ∈ corners s o, ∀ b ∈ corners s o, |a.1 - b.1| ≤ 1 / 10 ^ 10 → a.1 = b.1
  ys : ∀ a ∈ corners s o, ∀ b ∈ corners s o, |a.2 - b.2| ≤ 1 / 10 ^ 10 → a.2 = b.2
  areas : ∀ a ∈ corners s o, ∀ b ∈ corners s o, ∀ c ∈ corners s o, |area2 a b c| ≤ 1 / 10 ^ 10 → area2 a b c = 0

/-! ## The parameter along a segment -/

/-- The point at parameter `t` on the line through the ends. -/
def par (s : Seg) (t : ℝ) : Pt := (s.p.1 + t * (s.q.1 - s.p.1), s.p.2 + t * (s.q.2 - s.p.2))

theorem par_zero (s : Seg) : par s 0 = s.p := by simp [par]

theorem par_one (s : Seg) : par s 1 = s.q := by simp [par]

theorem differ {s : Seg} (h : s.p ≠ s.q) : s.q.1 - s.p.1 ≠ 0 ∨ s.q.2 - s.p.2 ≠ 0 := by
  by_contra hc
  push Not at hc
  exact h (Prod.ext (by linarith [hc.1]) (by linarith [hc.2]))

theorem par_inj {s : Seg} (h : s.p ≠ s.q) {a b : ℝ} (hab : par s a = par s b) : a = b := by
  have e1 := congrArg Prod.fst hab
  have e2 := congrArg Prod.snd hab
  simp only [par] at e1 e2
  rcases differ h with hd | hd
  · exact mul_right_cancel₀ hd (by linarith)
  · exact mul_right_cancel₀ hd (by linarith)

theorem exists_par {s : Seg} (h : s.p ≠ s.q) {x : Pt} (hx : cross s.p s.q x = 0) : ∃ t, x = par s t := by
  rw [cross] at hx
  rcases differ h with hd | hd
  · refine ⟨(x.1 - s.p.1) / (s.q.1 - s.p.1), ?_⟩
    ext
    · simp only [par]; field_simp; ring
    · simp only [par]; field_simp; linarith
  · refine ⟨(x.2 - s.p.2) / (s.q.2 - s.p.2), ?_⟩
    ext
    · simp only [par]; field_simp; linarith
    · simp only [par]; field_simp; ring

theorem cross_par (s : Seg) (t : ℝ) : cross s.p s.q (par s t) = 0 := by
  simp only [cross, par]; ring

theorem mem_seg (s : Seg) (x : Pt) : x ∈ segment ℝ s.p s.q ↔ ∃ t : ℝ, 0 ≤ t ∧ t ≤ 1 ∧ x = par s t := mem_segment s x

theorem mem_seg_par (s : Seg) (a b : ℝ) (hab : a ≤ b) (x : Pt) : x ∈ segment ℝ (par s a) (par s b) ↔ ∃ t : ℝ, a ≤ t ∧ t ≤ b ∧ x = par s t := by
  have := mem_segment ⟨par s a, par s b⟩ x
  rw [this]
  constructor
  · rintro ⟨t, h0, h1, rfl⟩
    refine ⟨a + t * (b - a), by nlinarith, by nlinarith, ?_⟩
    ext <;> simp only [par] <;> ring
  · rintro ⟨t, h0, h1, rfl⟩
    rcases eq_or_lt_of_le hab with h | h
    · have : t = a := by linarith
      subst this; subst h
      refine ⟨0, le_rfl, by norm_num, ?_⟩
      ext <;> simp [par]
    · have hd : b - a ≠ 0 := by linarith
      refine ⟨(t - a) / (b - a), div_nonneg (by linarith) (by linarith), (div_le_one (by linarith)).2 (by linarith), ?_⟩
      ext <;> simp only [par] <;> field_simp <;> ring

/-- Between, on the line. -/
theorem box_par {s : Seg} (h : s.p ≠ s.q) (a b c : ℝ) :
    ((par s b).1 ≤ max (par s a).1 (par s c).1 ∧ min (par s a).1 (par s c).1 ≤ (par s b).1 ∧ (par s b).2 ≤ max (par s a).2 (par s c).2 ∧
      min (par s a).2 (par s c).2 ≤ (par s b).2) ↔ min a c ≤ b ∧ b ≤ max a c := by
  have key : ∀ x d : ℝ, (min a c ≤ b ∧ b ≤ max a c) → x + b * d ≤ max (x + a * d) (x + c * d) ∧ min (x + a * d) (x + c * d) ≤ x + b * d := by
    rintro x d ⟨h1, h2⟩
    rcases le_total a c with hac | hac
    · rw [min_eq_left hac] at h1
      rw [max_eq_right hac] at h2
      rcases le_total 0 d with hd | hd
      · exact ⟨le_max_of_le_right (by nlinarith), min_le_of_left_le (by nlinarith)⟩
      · exact ⟨le_max_of_le_left (by nlinarith), min_le_of_right_le (by nlinarith)⟩
    · rw [min_eq_right hac] at h1
      rw [max_eq_left hac] at h2
      rcases le_total 0 d with hd | hd
      · exact ⟨le_max_of_le_left (by nlinarith), min_le_of_right_le (by nlinarith)⟩
      · exact ⟨le_max_of_le_right (by nlinarith), min_le_of_left_le (by nlinarith)⟩
  have back : ∀ x d : ℝ, d ≠ 0 → x + b * d ≤ max (x + a * d) (x + c * d) → min (x + a * d) (x + c * d) ≤ x + b * d → min a c ≤ b ∧ b ≤ max a c := by
    intro x d hd h1 h2
    rw [le_max_iff] at h1
    rw [min_le_iff] at h2
    have cancel : ∀ u v : ℝ, 0 < d → x + u * d ≤ x + v * d → u ≤ v := fun u v hp hle => le_of_mul_le_mul_right (by linarith) hp
    have cancel' : ∀ u v : ℝ, d < 0 → x + u * d ≤ x + v * d → v ≤ u := fun u v hp hle => by nlinarith
    rw [min_le_iff, le_max_iff]
    rcases lt_or_gt_of_ne hd with hp | hp
    · exact ⟨h1.imp (cancel' _ _ hp) (cancel' _ _ hp), h2.imp (cancel' _ _ hp) (cancel' _ _ hp)⟩
    · exact ⟨h2.imp (cancel _ _ hp) (cancel _ _ hp), h1.imp (cancel _ _ hp) (cancel _ _ hp)⟩
  constructor
  · rintro ⟨h1, h2, h3, h4⟩
    rcases differ h with hd | hd
    · exact back _ _ hd h1 h2
    · exact back _ _ hd h3 h4
  · intro hb
    exact ⟨(key _ _ hb).1, (key _ _ hb).2, (key _ _ hb).1, (key _ _ hb).2⟩

/-! ## The tolerance does not matter -/

theorem blur (u v : ℝ) (h : |u - v| ≤ 1 / 10 ^ 10 → u = v) : u ≤ v + geomEps ↔ u ≤ v := by
  have hpos : (0 : ℝ) < 1 / 10 ^ 10 := by norm_num
  rw [geomEps]
  constructor
  · intro h1
    by_contra hc
    push Not at hc
    have := h (by rw [abs_of_pos (by linarith)]; linarith)
    linarith
  · intro h1
    linarith

theorem onSegment_iff {s o : Seg} (hS : Sharp s o) {a b c : Pt} (ha : a ∈ corners s o) (hb : b ∈ corners s o) (hc : c ∈ corners s o) :
    onSegment a b c = true ↔ b.1 ≤ max a.1 c.1 ∧ min a.1 c.1 ≤ b.1 ∧ b.2 ≤ max a.2 c.2 ∧ min a.2 c.2 ≤ b.2 := by
  have hX := hS.xs
  have hY := hS.ys
  simp only [onSegment, Bool.and_eq_true, decide_eq_true_eq, sub_le_iff_le_add, and_assoc]
  rw [blur b.1, blur (min a.1 c.1), blur b.2, blur (min a.2 c.2)]
  · rcases min_choice a.2 c.2 with h | h <;> rw [h] <;> first | exact hY _ ha _ hb | exact hY _ hc _ hb
  · rcases max_choice a.2 c.2 with h | h <;> rw [h] <;> first | exact hY _ hb _ ha | exact hY _ hb _ hc
  · rcases min_choice a.1 c.1 with h | h <;> rw [h] <;> first | exact hX _ ha _ hb | exact hX _ hc _ hb
  · rcases max_choice a.1 c.1 with h | h <;> rw [h] <;> first | exact hX _ hb _ ha | exact hX _ hb _ hc

theorem eps_area {s o : Seg} (hS : Sharp s o) {a b c : Pt} (ha : a ∈ corners s o) (hb : b ∈ corners s o) (hc : c ∈ corners s o) :
    (|cross a b c| ≤ geomEps ↔ cross a b c = 0) ∧ (geomEps < cross a b c ↔ 0 < cross a b c) ∧ (cross a b c < -geomEps ↔ cross a b c < 0) := by
  have h := hS.areas a ha b hb c hc
  rw [← cross_eq] at h
  have hpos : (0 : ℝ) < 1 / 10 ^ 10 := by norm_num
  rw [geomEps]
  refine ⟨⟨h, fun h0 => by rw [h0, abs_zero]; exact hpos.le⟩, ⟨fun h1 => by linarith, fun h1 => ?_⟩, ⟨fun h1 => by linarith, fun h1 => ?_⟩⟩
  · by_contra hc
    push Not at hc
    have := h (by rw [abs_of_pos h1]; exact hc)
    linarith
  · by_contra hc
    push Not at hc
    have := h (by rw [abs_of_neg h1]; linarith)
    linarith

theorem near_eq {s o : Seg} (hS : Sharp s o) {a b : Pt} (ha : a ∈ corners s o) (hb : b ∈ corners s o) : dist2 a b < geomEps ↔ a = b := by
  rw [dist2_eq]
  constructor
  · intro h
    have h1 : |a.1 - b.1| ≤ euclid a b := Real.abs_le_sqrt (by nlinarith [sq_nonneg (a.2 - b.2)])
    have h2 : |a.2 - b.2| ≤ euclid a b := Real.abs_le_sqrt (by nlinarith [sq_nonneg (a.1 - b.1)])
    rw [geomEps] at h
    exact Prod.ext (hS.xs _ ha _ hb (by linarith)) (hS.ys _ ha _ hb (by linarith))
  · rintro rfl
    rw [euclid]; simp [geomEps]

/-! ## Sorting along the segment -/

theorem sortAlong_spec {s o : Seg} (hS : Sharp s o) (l : List Pt) (hl : ∀ x ∈ l, ∃ t, x = par s t) : ∃ l', sortAlong s l = .ret l' ∧ l'.Perm l ∧
    l'.Pairwise fun a b => ∀ u v, a = par s u → b = par s v → u ≤ v := by
  classical
  have mem1 : s.p ∈ corners s o := by simp [corners]
  have mem2 : s.q ∈ corners s o := by simp [corners]
  rw [sortAlong]
  by_cases h : geomEps < |s.q.1 - s.p.1|
  · have hd : s.q.1 - s.p.1 ≠ 0 := by
      intro h0; rw [h0, abs_zero, geomEps] at h; norm_num at h
    rw [if_pos h]
    refine ⟨_, rfl, List.perm_insertionSort _ _, ?_⟩
    haveI : Std.Total fun a b : Pt => (a.1 - s.p.1) / (s.q.1 - s.p.1) ≤ (b.1 - s.p.1) / (s.q.1 - s.p.1) := ⟨fun a b => le_total _ _⟩
    haveI : IsTrans Pt fun a b : Pt => (a.1 - s.p.1) / (s.q.1 - s.p.1) ≤ (b.1 - s.p.1) / (s.q.1 - s.p.1) := ⟨fun a b c h1 h2 => le_trans h1 h2⟩
    refine (List.pairwise_insertionSort _ l).imp ?_
    rintro a b hab u v rfl rfl
    simpa [par, hd] using hab
  · have hx : s.q.1 = s.p.1 := hS.xs _ mem2 _ mem1 (by rw [geomEps] at h; linarith)
    have hd : s.q.2 - s.p.2 ≠ 0 := by
      rcases differ hS.first with h' | h'
      · exact absurd (by rw [hx, sub_self]) h'
      · exact h'
    rw [if_neg h, if_neg hd]
    refine ⟨_, rfl, List.perm_insertionSort _ _, ?_⟩
    haveI : Std.Total fun a b : Pt => (a.2 - s.p.2) / (s.q.2 - s.p.2) ≤ (b.2 - s.p.2) / (s.q.2 - s.p.2) := ⟨fun a b => le_total _ _⟩
    haveI : IsTrans Pt fun a b : Pt => (a.2 - s.p.2) / (s.q.2 - s.p.2) ≤ (b.2 - s.p.2) / (s.q.2 - s.p.2) := ⟨fun a b c h1 h2 => le_trans h1 h2⟩
    refine (List.pairwise_insertionSort _ l).imp ?_
    rintro a b hab u v rfl rfl
    simpa [par, hd] using hab

/-! ## The collinear case -/

/-- What the result says about the two sets of points. -/
def Says (s o : Seg) : Meet → Prop
  | .none => segment ℝ s.p s.q ∩ segment ℝ o.p o.q = ∅ ∧ ¬(area2 o.p o.q s.p = 0 ∧ area2 o.p o.q s.q = 0)
  | .collinear => segment ℝ s.p s.q ∩ segment ℝ o.p o.q = ∅ ∧ area2 o.p o.q s.p = 0 ∧ area2 o.p o.q s.q = 0
  | .point x => segment ℝ s.p s.q ∩ segment ℝ o.p o.q = {x}
  | .overlap a b => segment ℝ s.p s.q ∩ segment ℝ o.p o.q = segment ℝ a b ∧ a ≠ b

theorem mem_candidates (s o : Seg) (x : Pt) : x ∈ candidates s o ↔ onSegment s.p o.p s.q = true ∧ x = o.p ∨ onSegment s.p o.q s.q = true ∧ x = o.q ∨
    onSegment o.p s.p o.q = true ∧ x = s.p ∨ onSegment o.p s.q o.q = true ∧ x = s.q := by
  simp only [candidates, List.mem_append]
  constructor
  · rintro (((h | h) | h) | h) <;> split_ifs at h with hc <;> simp_all
  · rintro (⟨h, rfl⟩ | ⟨h, rfl⟩ | ⟨h, rfl⟩ | ⟨h, rfl⟩) <;> simp [h]

theorem collinearCase_spec {s o : Seg} (hS : Sharp s o) (h1 : cross o.p o.q s.p = 0) (h2 : cross o.p o.q s.q = 0) :
    ∃ r, collinearCase s o = .ret r ∧ Says s o r := by
  have m1 : s.p ∈ corners s o := by simp [corners]
  have m2 : s.q ∈ corners s o := by simp [corners]
  have m3 : o.p ∈ corners s o := by simp [corners]
  have m4 : o.q ∈ corners s o := by simp [corners]
  have hs := hS.first
  obtain ⟨a, ha⟩ := exists_par hS.second h1
  obtain ⟨b, hb⟩ := exists_par hS.second h2
  have h3 : cross s.p s.q o.p = 0 := by rw [ha, hb]; simp only [cross, par]; ring
  have h4 : cross s.p s.q o.q = 0 := by rw [ha, hb]; simp only [cross, par]; ring
  obtain ⟨α, hα⟩ := exists_par hs h3
  obtain ⟨β, hβ⟩ := exists_par hs h4
  have hne : α ≠ β := by rintro rfl; exact hS.second (hα.trans hβ.symm)
  clear ha hb a b
  -- which corners are within the other segment
  have b1 : onSegment s.p o.p s.q = true ↔ 0 ≤ α ∧ α ≤ 1 := by
    rw [onSegment_iff hS m1 m3 m2]
    have := box_par hs 0 α 1
    rw [par_zero, par_one, ← hα] at this
    rw [this]; norm_num
  have b2 : onSegment s.p o.q s.q = true ↔ 0 ≤ β ∧ β ≤ 1 := by
    rw [onSegment_iff hS m1 m4 m2]
    have := box_par hs 0 β 1
    rw [par_zero, par_one, ← hβ] at this
    rw [this]; norm_num
  have b3 : onSegment o.p s.p o.q = true ↔ min α β ≤ 0 ∧ 0 ≤ max α β := by
    rw [onSegment_iff hS m3 m1 m4]
    have := box_par hs α 0 β
    rw [par_zero, ← hα, ← hβ] at this
    exact this
  have b4 : onSegment o.p s.q o.q = true ↔ min α β ≤ 1 ∧ 1 ≤ max α β := by
    rw [onSegment_iff hS m3 m2 m4]
    have := box_par hs α 1 β
    rw [par_one, ← hα, ← hβ] at this
    exact this
  set lo := max 0 (min α β) with hlo
  set hi := min 1 (max α β) with hhi
  -- the common points
  have hoseg : ∀ x, x ∈ segment ℝ o.p o.q ↔ ∃ t, min α β ≤ t ∧ t ≤ max α β ∧ x = par s t := by
    intro x
    rcases le_total α β with h | h
    · rw [min_eq_left h, max_eq_right h, hα, hβ, mem_seg_par s _ _ h]
    · rw [min_eq_right h, max_eq_left h, segment_symm, hα, hβ, mem_seg_par s _ _ h]
  have hcommon : ∀ x, x ∈ segment ℝ s.p s.q ∩ segment ℝ o.p o.q ↔ ∃ t, lo ≤ t ∧ t ≤ hi ∧ x = par s t := by
    intro x
    rw [Set.mem_inter_iff, mem_seg, hoseg]
    constructor
    · rintro ⟨⟨t, t0, t1, rfl⟩, u, u0, u1, hu⟩
      obtain rfl := par_inj hs hu
      exact ⟨t, max_le t0 u0, le_min t1 u1, rfl⟩
    · rintro ⟨t, t0, t1, rfl⟩
      exact ⟨⟨t, (le_max_left _ _).trans t0, t1.trans (min_le_left _ _), rfl⟩, t, (le_max_right _ _).trans t0, t1.trans (min_le_right _ _), rfl⟩
  -- the candidates
  have hcand : ∀ x ∈ candidates s o, x ∈ corners s o ∧ ∃ t, lo ≤ t ∧ t ≤ hi ∧ x = par s t := by
    intro x hx
    rw [mem_candidates, b1, b2, b3, b4] at hx
    rcases hx with ⟨hx, rfl⟩ | ⟨hx, rfl⟩ | ⟨hx, rfl⟩ | ⟨hx, rfl⟩
    · exact ⟨m3, α, max_le hx.1 (min_le_left _ _), le_min hx.2 (le_max_left _ _), hα⟩
    · exact ⟨m4, β, max_le hx.1 (min_le_right _ _), le_min hx.2 (le_max_right _ _), hβ⟩
    · exact ⟨m1, 0, max_le le_rfl hx.1, le_min (by norm_num) hx.2, (par_zero s).symm⟩
    · exact ⟨m2, 1, max_le (by norm_num) hx.1, le_min le_rfl hx.2, (par_one s).symm⟩
  by_cases hle : lo ≤ hi
  · have hlos : par s lo ∈ candidates s o ∧ par s hi ∈ candidates s o ∧ 2 ≤ (candidates s o).length := by
      have g1 : min α β ≤ 1 := (le_max_right _ _).trans (hle.trans (min_le_left _ _))
      have g2 : 0 ≤ max α β := (le_max_left _ _).trans (hle.trans (min_le_right _ _))
      rw [mem_candidates, mem_candidates]
      rcases le_or_gt 0 (min α β) with e | e <;> rcases le_or_gt (max α β) 1 with e' | e'
      · have l1 : lo = min α β := by rw [hlo, max_eq_right e]
        have l2 : hi = max α β := by rw [hhi, min_eq_right e']
        have o1 := b1.2 ⟨e.trans (min_le_left _ _), (le_max_left _ _).trans e'⟩
        have o2 := b2.2 ⟨e.trans (min_le_right _ _), (le_max_right _ _).trans e'⟩
        refine ⟨?_, ?_, by simp [candidates, o1, o2]⟩
        · rw [l1]
          rcases min_choice α β with h | h <;> rw [h]
          · exact Or.inl ⟨o1, hα.symm⟩
          · exact Or.inr (Or.inl ⟨o2, hβ.symm⟩)
        · rw [l2]
          rcases max_choice α β with h | h <;> rw [h]
          · exact Or.inl ⟨o1, hα.symm⟩
          · exact Or.inr (Or.inl ⟨o2, hβ.symm⟩)
      · have l1 : lo = min α β := by rw [hlo, max_eq_right e]
        have l2 : hi = 1 := by rw [hhi, min_eq_left e'.le]
        have o4 := b4.2 ⟨g1, e'.le⟩
        rw [l1, l2, par_one]
        rcases min_choice α β with h | h
        · have o1 := b1.2 ⟨by rw [← h]; exact e, by rw [← h]; exact g1⟩
          refine ⟨Or.inl ⟨o1, by rw [h]; exact hα.symm⟩, Or.inr (Or.inr (Or.inr ⟨o4, rfl⟩)), ?_⟩
          simp [candidates, o1, o4] <;> omega
        · have o2 := b2.2 ⟨by rw [← h]; exact e, by rw [← h]; exact g1⟩
          refine ⟨Or.inr (Or.inl ⟨o2, by rw [h]; exact hβ.symm⟩), Or.inr (Or.inr (Or.inr ⟨o4, rfl⟩)), ?_⟩
          simp [candidates, o2, o4] <;> omega
      · have l1 : lo = 0 := by rw [hlo, max_eq_left e.le]
        have l2 : hi = max α β := by rw [hhi, min_eq_right e']
        have o3 := b3.2 ⟨e.le, g2⟩
        rw [l1, l2, par_zero]
        rcases max_choice α β with h | h
        · have o1 := b1.2 ⟨by rw [← h]; exact g2, by rw [← h]; exact e'⟩
          refine ⟨Or.inr (Or.inr (Or.inl ⟨o3, rfl⟩)), Or.inl ⟨o1, by rw [h]; exact hα.symm⟩, ?_⟩
          simp [candidates, o1, o3] <;> omega
        · have o2 := b2.2 ⟨by rw [← h]; exact g2, by rw [← h]; exact e'⟩
          refine ⟨Or.inr (Or.inr (Or.inl ⟨o3, rfl⟩)), Or.inr (Or.inl ⟨o2, by rw [h]; exact hβ.symm⟩), ?_⟩
          simp [candidates, o2, o3] <;> omega
      · have l1 : lo = 0 := by rw [hlo, max_eq_left e.le]
        have l2 : hi = 1 := by rw [hhi, min_eq_left e'.le]
        have o3 := b3.2 ⟨e.le, g2⟩
        have o4 := b4.2 ⟨g1, e'.le⟩
        rw [l1, l2, par_zero, par_one]
        exact ⟨Or.inr (Or.inr (Or.inl ⟨o3, rfl⟩)), Or.inr (Or.inr (Or.inr ⟨o4, rfl⟩)), by simp [candidates, o3, o4] <;> omega⟩
    obtain ⟨c1, c2, c3⟩ := hlos
    obtain ⟨l, hl, hperm, hsort⟩ := sortAlong_spec hS (candidates s o) fun x hx => by
      obtain ⟨-, t, -, -, rfl⟩ := hcand x hx; exact ⟨t, rfl⟩
    have hlen : 0 < l.length := by rw [hperm.length_eq]; omega
    have hlast : l.length - 1 < l.length := by omega
    rw [collinearCase, if_pos c3, hl, Outcome.bind_ret, Outcome.index, List.getElem?_eq_getElem hlen, Outcome.index,
      List.getElem?_eq_getElem hlast]
    have pw := List.pairwise_iff_getElem.1 hsort
    obtain ⟨hA, u, u0, u1, hu⟩ := hcand _ (hperm.mem_iff.1 (List.getElem_mem hlen))
    obtain ⟨hB, v, v0, v1, hv⟩ := hcand _ (hperm.mem_iff.1 (List.getElem_mem hlast))
    have ulo : u = lo := by
      obtain ⟨i, hi', hi2⟩ := List.mem_iff_getElem.1 (hperm.mem_iff.2 c1)
      rcases Nat.eq_zero_or_pos i with h | h
      · subst h
        rw [hu] at hi2
        exact par_inj hs hi2
      · exact le_antisymm (pw 0 i hlen hi' h u lo hu hi2) u0
    have vhi : v = hi := by
      obtain ⟨i, hi', hi2⟩ := List.mem_iff_getElem.1 (hperm.mem_iff.2 c2)
      rcases Nat.lt_or_ge i (l.length - 1) with h | h
      · exact le_antisymm v1 (pw i _ hi' hlast h hi v hi2 hv)
      · have : i = l.length - 1 := by omega
        subst this
        rw [hv] at hi2
        exact par_inj hs hi2
    subst ulo
    subst vhi
    refine ⟨overlapOf l[0] l[l.length - 1], rfl, ?_⟩
    rw [overlapOf]
    by_cases heq : dist2 l[0] l[l.length - 1] < geomEps
    · rw [if_pos heq]
      rw [near_eq hS hA hB, hu, hv] at heq
      have e := par_inj hs heq
      show _ = _
      ext x
      rw [hcommon, Set.mem_singleton_iff, hu]
      constructor
      · rintro ⟨t, t0, t1, rfl⟩
        have : t = lo := by linarith
        rw [this]
      · rintro rfl
        exact ⟨lo, le_rfl, hle, rfl⟩
    · rw [if_neg heq]
      rw [near_eq hS hA hB] at heq
      refine ⟨?_, heq⟩
      ext x
      rw [hcommon, hu, hv, mem_seg_par s _ _ hle]
  · have hnil : candidates s o = [] := by
      refine List.eq_nil_iff_forall_not_mem.2 fun x hx => ?_
      obtain ⟨-, t, t0, t1, -⟩ := hcand x hx
      exact hle (t0.trans t1)
    refine ⟨.collinear, by rw [collinearCase, if_neg (by rw [hnil]; simp)], ?_, by rw [← cross_eq]; exact h1, by rw [← cross_eq]; exact h2⟩
    rw [Set.eq_empty_iff_forall_notMem]
    intro x hx
    obtain ⟨t, t0, t1, -⟩ := (hcommon x).1 hx
    exact hle (t0.trans t1)

/-! ## The other cases -/

theorem onSegment_mem {s o e : Seg} (hS : Sharp s o) {x : Pt} (he : e.p ≠ e.q) (h1 : e.p ∈ corners s o) (h2 : e.q ∈ corners s o)
    (hx : x ∈ corners s o) : (cross e.p e.q x = 0 ∧ onSegment e.p x e.q = true) ↔ x ∈ segment ℝ e.p e.q := by
  rw [onSegment_iff hS h1 hx h2, mem_seg]
  constructor
  · rintro ⟨hc, hb⟩
    obtain ⟨t, rfl⟩ := exists_par he hc
    have := box_par he 0 t 1
    rw [par_zero, par_one] at this
    have := this.1 hb
    norm_num at this
    exact ⟨t, this.1, this.2, rfl⟩
  · rintro ⟨t, t0, t1, rfl⟩
    refine ⟨cross_par e t, ?_⟩
    have := box_par he 0 t 1
    rw [par_zero, par_one] at this
    exact this.2 (by norm_num; exact ⟨t0, t1⟩)

/-- The ends on the two sides of the other line. -/
theorem cross_along (e f : Seg) (t : ℝ) : cross f.p f.q (par e t) = cross f.p f.q e.p + t * (cross f.p f.q e.q - cross f.p f.q e.p) := by
  simp only [cross, par]; ring

theorem cross_diff (s o : Seg) : cross o.p o.q s.p - cross o.p o.q s.q = cross s.p s.q o.q - cross s.p s.q o.p := by
  simp only [cross]; ring

/-- Segments not on one line have at most one common point. -/
theorem unique {s o : Seg} (h : ¬(cross o.p o.q s.p = 0 ∧ cross o.p o.q s.q = 0)) {x y : Pt} (hx : x ∈ segment ℝ s.p s.q ∩ segment ℝ o.p o.q)
    (hy : y ∈ segment ℝ s.p s.q ∩ segment ℝ o.p o.q) : x = y := by
  rw [Set.mem_inter_iff, mem_seg, mem_seg] at hx hy
  obtain ⟨⟨t, -, -, rfl⟩, u, -, -, hu⟩ := hx
  obtain ⟨⟨t', -, -, rfl⟩, u', -, -, hu'⟩ := hy
  have e1 := cross_along s o t
  have e2 := cross_along s o t'
  rw [hu, cross_par] at e1
  rw [hu', cross_par] at e2
  have : (t - t') * (cross o.p o.q s.q - cross o.p o.q s.p) = 0 := by linarith
  rcases mul_eq_zero.1 this with h0 | h0
  · rw [show t = t' by linarith]
  · rw [h0] at e1
    exact absurd ⟨by linarith, by linarith⟩ h

theorem singleton_of {s o : Seg} (h : ¬(cross o.p o.q s.p = 0 ∧ cross o.p o.q s.q = 0)) {x : Pt} (hx : x ∈ segment ℝ s.p s.q ∩ segment ℝ o.p o.q) :
    segment ℝ s.p s.q ∩ segment ℝ o.p o.q = {x} := by
  ext y
  rw [Set.mem_singleton_iff]
  exact ⟨fun hy => unique h hy hx, fun hy => hy ▸ hx⟩

/-- Numbers of opposite sign divide the interval. -/
theorem divides {a b : ℝ} (h : 0 < a ∧ b < 0 ∨ a < 0 ∧ 0 < b) : 0 ≤ a / (a - b) ∧ a / (a - b) ≤ 1 ∧ a - b ≠ 0 := by
  rcases h with ⟨h1, h2⟩ | ⟨h1, h2⟩
  · exact ⟨div_nonneg h1.le (by linarith), (div_le_one (by linarith)).2 (by linarith), by linarith⟩
  · refine ⟨div_nonneg_of_nonpos h1.le (by linarith), ?_, by linarith⟩
    rw [div_le_one_of_neg (by linarith)]
    linarith

theorem opposite_of {a b t : ℝ} (h : a + t * (b - a) = 0) (h0 : 0 < t) (h1 : t < 1) (hab : a - b ≠ 0) : 0 < a ∧ b < 0 ∨ a < 0 ∧ 0 < b := by
  have ea : a = t * (a - b) := by linarith
  have eb : b = -(1 - t) * (a - b) := by linarith
  rcases lt_or_gt_of_ne hab with hd | hd
  · right
    exact ⟨by rw [ea]; exact mul_neg_of_pos_of_neg h0 hd, by rw [eb]; nlinarith⟩
  · left
    exact ⟨by rw [ea]; exact mul_pos h0 hd, by rw [eb]; nlinarith⟩

/-- **C113.**  What `Intersection` reports of two segments of positive length whose corners are not within the tolerance of each other's axes and lines
is true: `Point` gives the only common point; `Overlap` gives the ends of the common segment; `None` and `Collinear` mean that there is no common
point, and `Collinear` that the segments lie on one line. -/
theorem seg_intersection {s o : Seg} (hS : Sharp s o) : ∃ r, s.intersection o = .ret r ∧ Says s o r := by
  have m1 : s.p ∈ corners s o := by simp [corners]
  have m2 : s.q ∈ corners s o := by simp [corners]
  have m3 : o.p ∈ corners s o := by simp [corners]
  have m4 : o.q ∈ corners s o := by simp [corners]
  obtain ⟨z1, p1, n1⟩ := eps_area hS m3 m4 m1
  obtain ⟨z2, p2, n2⟩ := eps_area hS m3 m4 m2
  obtain ⟨z3, p3, n3⟩ := eps_area hS m1 m2 m3
  obtain ⟨z4, p4, n4⟩ := eps_area hS m1 m2 m4
  have hdiff := cross_diff s o
  have c1 := cross_along s o
  have c3 := cross_along o s
  simp only [Seg.intersection, intersectionOf, opposite, p1, n2, n1, p2, p3, n4, n3, p4, z1, z2]
  by_cases hX : (0 < cross o.p o.q s.p ∧ cross o.p o.q s.q < 0 ∨ cross o.p o.q s.p < 0 ∧ 0 < cross o.p o.q s.q) ∧
      (0 < cross s.p s.q o.p ∧ cross s.p s.q o.q < 0 ∨ cross s.p s.q o.p < 0 ∧ 0 < cross s.p s.q o.q)
  · rw [if_pos hX]
    obtain ⟨t0, t1, tne⟩ := divides hX.1
    obtain ⟨u0, u1, une⟩ := divides hX.2
    have hnum : (o.p.1 - s.p.1) * (o.q.2 - o.p.2) - (o.p.2 - s.p.2) * (o.q.1 - o.p.1) = cross o.p o.q s.p := by simp only [cross]; ring
    have hden : (s.q.1 - s.p.1) * (o.q.2 - o.p.2) - (s.q.2 - s.p.2) * (o.q.1 - o.p.1) = cross o.p o.q s.p - cross o.p o.q s.q := by
      simp only [cross]; ring
    refine ⟨.point (par s (cross o.p o.q s.p / (cross o.p o.q s.p - cross o.p o.q s.q))), ?_, ?_⟩
    · rw [crossPoint, hnum, hden, Interp.fdiv, if_neg tne, Outcome.bind_ret]; rfl
    · refine singleton_of (fun h => by rcases hX.1 with h' | h' <;> linarith [h.1]) ⟨(mem_seg _ _).2 ⟨_, t0, t1, rfl⟩, (mem_seg _ _).2 ⟨_, u0, u1, ?_⟩⟩
      have une' : cross s.p s.q o.p - cross s.p s.q o.q = -(cross o.p o.q s.p - cross o.p o.q s.q) := by linarith
      rw [une']
      set D := cross o.p o.q s.p - cross o.p o.q s.q with hD
      have hD' : D = (s.q.1 - s.p.1) * (o.q.2 - o.p.2) - (s.q.2 - s.p.2) * (o.q.1 - o.p.1) := by rw [hden]
      ext
      · simp only [par]
        field_simp
        rw [hD']; simp only [cross]; ring
      · simp only [par]
        field_simp
        rw [hD']; simp only [cross]; ring
  · rw [if_neg hX]
    by_cases hcol : cross o.p o.q s.p = 0 ∧ cross o.p o.q s.q = 0
    · rw [if_pos hcol]
      exact collinearCase_spec hS hcol.1 hcol.2
    · rw [if_neg hcol]
      refine ⟨_, rfl, ?_⟩
      simp only [touch, z1, z2, z3, z4]
      have w1 := onSegment_mem (e := o) hS hS.second m3 m4 m1
      have w2 := onSegment_mem (e := o) hS hS.second m3 m4 m2
      have w3 := onSegment_mem (e := s) hS hS.first m1 m2 m3
      have w4 := onSegment_mem (e := s) hS hS.first m1 m2 m4
      by_cases k1 : s.p ∈ segment ℝ o.p o.q
      · rw [if_pos (w1.2 k1)]
        exact singleton_of hcol ⟨left_mem_segment _ _ _, k1⟩
      rw [if_neg (fun h => k1 (w1.1 h))]
      by_cases k2 : s.q ∈ segment ℝ o.p o.q
      · rw [if_pos (w2.2 k2)]
        exact singleton_of hcol ⟨right_mem_segment _ _ _, k2⟩
      rw [if_neg (fun h => k2 (w2.1 h))]
      by_cases k3 : o.p ∈ segment ℝ s.p s.q
      · rw [if_pos (w3.2 k3)]
        exact singleton_of hcol ⟨k3, left_mem_segment _ _ _⟩
      rw [if_neg (fun h => k3 (w3.1 h))]
      by_cases k4 : o.q ∈ segment ℝ s.p s.q
      · rw [if_pos (w4.2 k4)]
        exact singleton_of hcol ⟨k4, right_mem_segment _ _ _⟩
      rw [if_neg (fun h => k4 (w4.1 h))]
      refine ⟨?_, by rwa [← cross_eq, ← cross_eq]⟩
      rw [Set.eq_empty_iff_forall_notMem]
      intro x hx
      have hx1 := hx.1
      have hx2 := hx.2
      rw [mem_seg] at hx1 hx2
      obtain ⟨t, t0, t1, ht⟩ := hx1
      obtain ⟨u, u0, u1, hu⟩ := hx2
      have e1 := c1 t
      rw [← ht, hu, cross_par] at e1
      have e3 := c3 u
      rw [← hu, ht, cross_par] at e3
      have t0' : 0 < t := lt_of_le_of_ne t0 (by rintro rfl; rw [par_zero] at ht; exact k1 (ht ▸ hx.2))
      have t1' : t < 1 := lt_of_le_of_ne t1 (by rintro rfl; rw [par_one] at ht; exact k2 (ht ▸ hx.2))
      have u0' : 0 < u := lt_of_le_of_ne u0 (by rintro rfl; rw [par_zero] at hu; exact k3 (hu ▸ hx.1))
      have u1' : u < 1 := lt_of_le_of_ne u1 (by rintro rfl; rw [par_one] at hu; exact k4 (hu ▸ hx.1))
      have hne : cross o.p o.q s.p - cross o.p o.q s.q ≠ 0 := by
        intro h0
        have h0' : cross o.p o.q s.q - cross o.p o.q s.p = 0 := by linarith
        rw [h0'] at e1
        exact hcol ⟨by linarith, by linarith⟩
      exact hX ⟨opposite_of e1.symm t0' t1' hne, opposite_of e3.symm u0' u1' (by intro h0; apply hne; linarith)⟩

/-- **C113.**  `Intersects` says, under the same conditions, whether the segments have a common point, and stores it if there is only one. -/
theorem seg_intersects {s o : Seg} (hS : Sharp s o) : ∃ b x, s.intersects o = .ret (b, x) ∧
    (b = true ↔ (segment ℝ s.p s.q ∩ segment ℝ o.p o.q).Nonempty) ∧ ∀ p, x = some p → segment ℝ s.p s.q ∩ segment ℝ o.p o.q = {p} := by
  obtain ⟨r, hr, hs⟩ := seg_intersection hS
  rw [Seg.intersects, hr, Outcome.bind_ret]
  cases r with
  | none => exact ⟨_, _, rfl, by simp [hs.1], by simp⟩
  | point p =>
    have hs : _ = _ := hs
    exact ⟨_, _, rfl, by simp [hs], by rintro q hq; cases hq; exact hs⟩
  | collinear => exact ⟨_, _, rfl, by simp [hs.1], by simp⟩
  | overlap a b =>
    refine ⟨_, _, rfl, ?_, by simp⟩
    rw [hs.1]
    exact ⟨fun _ => ⟨a, left_mem_segment _ _ _⟩, fun _ => rfl⟩

/-- Corners with integer coordinates are in such a position. -/
theorem sharp_of_int (s o : Seg) (h1 : s.p ≠ s.q) (h2 : o.p ≠ o.q) (hi : ∀ a ∈ corners s o, ∃ i j : ℤ, a = ((i : ℝ), (j : ℝ))) : Sharp s o := by
  have key : ∀ k : ℤ, |(k : ℝ)| ≤ 1 / 10 ^ 10 → k = 0 := by
    intro k hk
    by_contra hne
    have h1 : (1 : ℝ) ≤ |(k : ℝ)| := by exact_mod_cast Int.one_le_abs hne
    norm_num at hk
    linarith
  refine ⟨h1, h2, ?_, ?_, ?_⟩
  · intro a ha b hb h
    obtain ⟨i, j, rfl⟩ := hi a ha
    obtain ⟨i', j', rfl⟩ := hi b hb
    have := key (i - i') (by push_cast; exact h)
    simp only
    have e : i = i' := by omega
    rw [e]
  · intro a ha b hb h
    obtain ⟨i, j, rfl⟩ := hi a ha
    obtain ⟨i', j', rfl⟩ := hi b hb
    have := key (j - j') (by push_cast; exact h)
    simp only
    have e : j = j' := by omega
    rw [e]
  · intro a ha b hb c hc h
    obtain ⟨i, j, rfl⟩ := hi a ha
    obtain ⟨i', j', rfl⟩ := hi b hb
    obtain ⟨i'', j'', rfl⟩ := hi c hc
    have e : area2 ((i : ℝ), (j : ℝ)) ((i' : ℝ), (j' : ℝ)) ((i'' : ℝ), (j'' : ℝ)) = (((i' - i) * (j'' - j) - (j' - j) * (i'' - i) : ℤ) : ℝ) := by
      rw [area2]; push_cast; ring
    rw [e] at h ⊢
    rw [key _ h]; norm_num

/-- The hypotheses hold for the diagonals of a square, and the crossing is found. -/
example : Sharp ⟨(0, 0), (2, 2)⟩ ⟨(0, 2), (2, 0)⟩ ∧ Seg.intersection ⟨(0, 0), (2, 2)⟩ ⟨(0, 2), (2, 0)⟩ = .ret (.point (1, 1)) := by
  constructor
  · refine sharp_of_int _ _ (by norm_num) (by norm_num) ?_
    intro a ha
    simp only [corners, List.mem_cons, List.not_mem_nil, or_false] at ha
    rcases ha with rfl | rfl | rfl | rfl
    exacts [⟨0, 0, by norm_num⟩, ⟨2, 2, by norm_num⟩, ⟨0, 2, by norm_num⟩, ⟨2, 0, by norm_num⟩]
  · rw [Seg.intersection, intersectionOf, if_pos (by norm_num [opposite, cross, geomEps]), crossPoint, Interp.fdiv, if_neg (by norm_num),
      Outcome.bind_ret]
    norm_num

/-- Two segments on one line that overlap satisfy them too. -/
example : Sharp ⟨(0, 0), (2, 2)⟩ ⟨(1, 1), (3, 3)⟩ := by
  refine sharp_of_int _ _ (by norm_num) (by norm_num) ?_
  intro a ha
  simp only [corners, List.mem_cons, List.not_mem_nil, or_false] at ha
  rcases ha with rfl | rfl | rfl | rfl
  exacts [⟨0, 0, by norm_num⟩, ⟨2, 2, by norm_num⟩, ⟨1, 1, by norm_num⟩, ⟨3, 3, by norm_num⟩]

/-- **C113**, disagreement.  A segment of length zero beside the other one is reported as a common point: `(0, 2)` is not on the segment from the
origin to `(2, 2)`. -/
theorem seg_intersection_degenerate_wrong : Seg.intersection ⟨(0, 0), (2, 2)⟩ ⟨(0, 2), (0, 2)⟩ = .ret (.point (0, 2)) ∧
    ((0, 2) : Pt) ∉ segment ℝ ((0, 0) : Pt) (2, 2) := by
  constructor
  · have hc : candidates ⟨(0, 0), (2, 2)⟩ ⟨(0, 2), (0, 2)⟩ = [(0, 2), (0, 2)] := by norm_num [candidates, onSegment, geomEps]
    rw [Seg.intersection, intersectionOf, if_neg (by norm_num [opposite, cross, geomEps]), if_pos (by norm_num [cross, geomEps]), collinearCase, hc,
      if_pos (by simp), sortAlong, if_pos (by norm_num [geomEps])]
    simp [Outcome.index, List.insertionSort, List.orderedInsert, overlapOf, dist2, geomEps]
  · intro h
    obtain ⟨t, -, -, ht⟩ := (mem_segment ⟨(0, 0), (2, 2)⟩ _).1 h
    simp only [Prod.mk.injEq] at ht
    linarith [ht.1, ht.2]

/-- **C113**, disagreement.  Two segments of length about `10⁻⁶` that cross at a right angle are reported to overlap. -/
theorem seg_intersection_small_wrong : ∃ a b, Seg.intersection ⟨(0, 0), (1 / 10 ^ 6, 1 / 10 ^ 6)⟩ ⟨(0, 1 / 10 ^ 6), (1 / 10 ^ 6, 0)⟩ = .ret (.overlap a b) := by
  have hc : candidates ⟨(0, 0), (1 / 10 ^ 6, 1 / 10 ^ 6)⟩ ⟨(0, 1 / 10 ^ 6), (1 / 10 ^ 6, 0)⟩ =
      [(0, 1 / 10 ^ 6), (1 / 10 ^ 6, 0), (0, 0), (1 / 10 ^ 6, 1 / 10 ^ 6)] := by norm_num [candidates, onSegment, geomEps]
  refine ⟨(0, 1 / 10 ^ 6), (1 / 10 ^ 6, 1 / 10 ^ 6), ?_⟩
  rw [Seg.intersection, intersectionOf, if_neg (by norm_num [opposite, cross, geomEps]), if_pos (by norm_num [cross, geomEps]), collinearCase, hc,
    if_pos (by simp), sortAlong, if_pos (by norm_num [geomEps])]
  norm_num [Outcome.index, List.insertionSort, List.orderedInsert, overlapOf, dist2, geomEps]

end Verif.CompGeo.Lines
