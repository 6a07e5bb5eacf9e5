import Verif.CompGeo.ClosestProps
import Verif.CompGeo.DelaunayRun

/-!
# The Delaunay triangulation: what the result means
-/

set_option autoImplicit false

namespace Verif.CompGeo.Del
open Wind (up cr tri Inside InsideEq area2_swap area2_rot area2_split)

/-! ## Specification -/

/-- There is a circle through `a`, `b` and `c` with none of the points inside. -/
def EmptyCircle (ps : List Pt) (a b c : Pt) : Prop :=
  ∃ (o : Pt) (r : ℝ), euclid o a = r ∧ euclid o b = r ∧ euclid o c = r ∧ ∀ q ∈ ps, r ≤ euclid o q

/-- The corners of the triangle `t` are the points `a`, `b`, `c` of the list. -/
def Corners (ps : List Pt) (t : Tri) (a b c : Pt) : Prop := ps[t.1]? = some a ∧ ps[t.2.1]? = some b ∧ ps[t.2.2]? = some c

/-! ## Circles -/

/-- The square of the distance. -/
def sqd (o q : Pt) : ℝ := (q.1 - o.1) ^ 2 + (q.2 - o.2) ^ 2

theorem euclid_sqd (o q : Pt) : euclid o q = Real.sqrt (sqd o q) := by
  rw [euclid, sqd]; congr 1; ring

theorem sqd_nonneg (o q : Pt) : 0 ≤ sqd o q := by rw [sqd]; positivity

theorem power_eq {o a b c : Pt} (hb : sqd o b = sqd o a) (hc : sqd o c = sqd o a) (q : Pt) : area2 a b c * (sqd o q - sqd o a) = - det q a b c := by
  simp only [sqd] at hb hc
  simp only [sqd, area2, det]
  linear_combination ((q.1 - a.1) * (c.2 - a.2) - (q.2 - a.2) * (c.1 - a.1)) * hb - ((q.1 - a.1) * (b.2 - a.2) - (q.2 - a.2) * (b.1 - a.1)) * hc

theorem circum {a b c : Pt} (h : area2 a b c ≠ 0) : ∃ o, sqd o b = sqd o a ∧ sqd o c = sqd o a := by
  set B := (b.1 - a.1) ^ 2 + (b.2 - a.2) ^ 2 with hB
  set C := (c.1 - a.1) ^ 2 + (c.2 - a.2) ^ 2 with hC
  set u := ((c.2 - a.2) * B - (b.2 - a.2) * C) / (2 * area2 a b c) with hu
  set v := ((b.1 - a.1) * C - (c.1 - a.1) * B) / (2 * area2 a b c) with hv
  have h2 : 2 * area2 a b c ≠ 0 := by simpa using h
  have eu : u * (2 * area2 a b c) = (c.2 - a.2) * B - (b.2 - a.2) * C := div_mul_cancel₀ _ h2
  have ev : v * (2 * area2 a b c) = (b.1 - a.1) * C - (c.1 - a.1) * B := div_mul_cancel₀ _ h2
  have hAe : area2 a b c = (b.1 - a.1) * (c.2 - a.2) - (b.2 - a.2) * (c.1 - a.1) := by rw [area2]; ring
  refine ⟨(a.1 + u, a.2 + v), ?_, ?_⟩
  · have : 2 * area2 a b c * (B - 2 * ((b.1 - a.1) * u + (b.2 - a.2) * v)) = 0 := by
      linear_combination (-2 * (b.1 - a.1)) * eu + (-2 * (b.2 - a.2)) * ev + 2 * B * hAe
    have := (mul_eq_zero.1 this).resolve_left h2
    simp only [sqd]; rw [hB] at this; linarith
  · have : 2 * area2 a b c * (C - 2 * ((c.1 - a.1) * u + (c.2 - a.2) * v)) = 0 := by
      linear_combination (-2 * (c.1 - a.1)) * eu + (-2 * (c.2 - a.2)) * ev + 2 * C * hAe
    have := (mul_eq_zero.1 this).resolve_left h2
    simp only [sqd]; rw [hC] at this; linarith

theorem emptyCircle_of {ps : List Pt} {a b c : Pt} (h : 0 < area2 a b c) (he : ∀ q ∈ ps, det q a b c ≤ 0) : EmptyCircle ps a b c := by
  obtain ⟨o, hb, hc⟩ := circum h.ne'
  refine ⟨o, euclid o a, rfl, by rw [euclid_sqd, euclid_sqd, hb], by rw [euclid_sqd, euclid_sqd, hc], fun q hq => ?_⟩
  rw [euclid_sqd, euclid_sqd]
  apply Real.sqrt_le_sqrt
  have := power_eq hb hc q
  have h1 := he q hq
  by_contra hcon
  push Not at hcon
  nlinarith

/-! ## The result -/

theorem Corners.area {ps : List Pt} {w : List Pt} {t : Tri} {a b c : Pt} (h : Corners ps t a b c) :
    at' (ps ++ w) t.1 = a ∧ at' (ps ++ w) t.2.1 = b ∧ at' (ps ++ w) t.2.2 = c := by
  obtain ⟨h1, h2, h3⟩ := h
  have g : ∀ {i x}, ps[i]? = some x → at' (ps ++ w) i = x := by
    intro i x h
    obtain ⟨hi, rfl⟩ := List.getElem?_eq_some_iff.1 h
    rw [at_append_left hi, at', List.getD_eq_getElem _ _ hi]
  exact ⟨g h1, g h2, g h3⟩

theorem corners_of {ps : List Pt} (w : List Pt) {t : Tri} (h : t.1 < ps.length ∧ t.2.1 < ps.length ∧ t.2.2 < ps.length) :
    Corners ps t (at' (ps ++ w) t.1) (at' (ps ++ w) t.2.1) (at' (ps ++ w) t.2.2) := by
  have g : ∀ {i}, i < ps.length → ps[i]? = some (at' (ps ++ w) i) := by
    intro i h
    rw [at_append_left h, at', List.getD_eq_getElem _ _ h, List.getElem?_eq_getElem h]
  exact ⟨g h.1, g h.2.1, g h.2.2⟩

theorem work_eq {ps : List Pt} (h : 0 < ps.length) : ∃ w, work ps = ps ++ w := by
  match ps, h with
  | p :: rest, _ => exact ⟨_, rfl⟩

/-- What `compute` returns, in terms of the invariant. -/
theorem compute_inv {ps : List Pt} (hc : Clear ps) (h3 : 3 ≤ ps.length) : ∃ T, compute ps = .ret ⟨ps, T, neighborsOf T⟩ ∧
    ∃ T', Inv (at' (work ps)) (ps.length, ps.length + 1, ps.length + 2) ps.length T' ∧ 0 < A (at' (work ps)) (ps.length, ps.length + 1, ps.length + 2) ∧
      T = T'.filter (fun t => decide (t.1 < ps.length) && decide (t.2.1 < ps.length) && decide (t.2.2 < ps.length)) := by
  match ps, h3 with
  | p :: q :: r :: rest, _ =>
    obtain ⟨ts, h1, h2, hA⟩ := run rfl hc
    refine ⟨extract (rest.length + 3) ts, ?_, valid ts, h2, hA, extract_eq _ _⟩
    rw [compute]
    exact (congrArg (fun x => x >>= fun ts => Outcome.ret (Mesh.mk (p :: q :: r :: rest) (extract (rest.length + 3) ts) (neighborsOf (extract (rest.length + 3) ts)))) h1).trans (Outcome.bind_ret _ _)

theorem mem_work_Q {ps : List Pt} {q : Pt} (h : q ∈ work ps) : ∃ i, Q (ps.length, ps.length + 1, ps.length + 2) ps.length i ∧ at' (work ps) i = q := by
  obtain ⟨i, hi, rfl⟩ := List.getElem_of_mem h
  refine ⟨i, ?_, by rw [at', List.getD_eq_getElem _ _ hi]⟩
  match ps, hi with
  | [], hi => simp [work] at hi
  | p :: rest, hi =>
    have : (work (p :: rest)).length = (p :: rest).length + 3 := by simp [work, superTri, superOf]
    simp only [Q]; omega

theorem super_in {ps : List Pt} {x : Pt} (hx : x ∈ ps) : In (at' (work ps)) x (ps.length, ps.length + 1, ps.length + 2) := by
  match ps, hx with
  | p :: rest, hx =>
    obtain ⟨s1, s2, s3, es, -, hi⟩ := superTri_spec p (p :: rest)
    have hw' : work (p :: rest) = (p :: rest) ++ [s1, s2, s3] := by rw [← es]; rfl
    have c1 : at' (work (p :: rest)) (p :: rest).length = s1 := by rw [hw', at', List.getD_append_right _ _ _ _ le_rfl]; simp
    have c2 : at' (work (p :: rest)) ((p :: rest).length + 1) = s2 := by rw [hw', at', List.getD_append_right _ _ _ _ (by omega)]; simp
    have c3 : at' (work (p :: rest)) ((p :: rest).length + 2) = s3 := by rw [hw', at', List.getD_append_right _ _ _ _ (by omega)]; simp
    show Inside _ _ _ _
    rw [c1, c2, c3]; exact hi x hx

/-- A point in a triangle and inside another whose circle holds nothing else: the triangles are the same. -/
theorem same_triangle {a b c x y z o : Pt} (hA : 0 < area2 a b c) (hX : 0 < area2 x y z) (hb : sqd o b = sqd o a) (hc : sqd o c = sqd o a)
    (ha' : det a x y z ≤ 0) (hb' : det b x y z ≤ 0) (hc' : det c x y z ≤ 0)
    (hx : sqd o a ≤ sqd o x) (hy : sqd o a ≤ sqd o y) (hz : sqd o a ≤ sqd o z)
    (hq : InsideEq ((a.1 + b.1 + c.1) / 3, (a.2 + b.2 + c.2) / 3) x y z) : sqd o x = sqd o a ∧ sqd o y = sqd o a ∧ sqd o z = sqd o a := by
  obtain ⟨o', hy', hz'⟩ := circum hX.ne'
  have pw : ∀ q, area2 x y z * (sqd o' q - sqd o' x) = - det q x y z := power_eq hy' hz'
  have nn : ∀ q, det q x y z ≤ 0 → 0 ≤ sqd o' q - sqd o' x := fun q h => by
    by_contra hcon; push Not at hcon; nlinarith [pw q]
  have na := nn a ha'; have nb := nn b hb'; have nc := nn c hc'
  -- the difference of the two powers is affine
  set δ : Pt → ℝ := fun q => (sqd o' q - sqd o' x) - (sqd o q - sqd o a) with hδ
  have aff : ∀ u v w q : Pt, area2 u v w * δ q = area2 v w q * δ u + area2 w u q * δ v + area2 u v q * δ w := by
    intro u v w q; simp only [hδ, sqd, area2]; ring
  set g : Pt := ((a.1 + b.1 + c.1) / 3, (a.2 + b.2 + c.2) / 3) with hg
  have third : δ g = (δ a + δ b + δ c) / 3 := by simp only [hδ, sqd, hg]; ring
  have da : δ a = sqd o' a - sqd o' x := by simp [hδ]
  have db : δ b = sqd o' b - sqd o' x := by simp [hδ, hb]
  have dc : δ c = sqd o' c - sqd o' x := by simp [hδ, hc]
  have dx : δ x = -(sqd o x - sqd o a) := by simp [hδ]
  have dy : δ y = -(sqd o y - sqd o a) := by simp [hδ, hy']
  have dz : δ z = -(sqd o z - sqd o a) := by simp [hδ, hz']
  have h1 := aff x y z g
  obtain ⟨l1, l2, l3⟩ := hq
  have m1 : area2 y z g * δ x ≤ 0 := mul_nonpos_of_nonneg_of_nonpos l2 (by linarith)
  have m2 : area2 z x g * δ y ≤ 0 := mul_nonpos_of_nonneg_of_nonpos l3 (by linarith)
  have m3 : area2 x y g * δ z ≤ 0 := mul_nonpos_of_nonneg_of_nonpos l1 (by linarith)
  have hg0 : δ g ≤ 0 := by by_contra hcon; push Not at hcon; nlinarith [mul_pos hX hcon]
  have e0 : δ a = 0 ∧ δ b = 0 ∧ δ c = 0 := by refine ⟨?_, ?_, ?_⟩ <;> linarith
  have all : ∀ q, δ q = 0 := fun q => by
    have := aff a b c q
    rw [e0.1, e0.2.1, e0.2.2, mul_zero, mul_zero, mul_zero, add_zero, add_zero] at this
    exact (mul_eq_zero.1 this).resolve_left hA.ne'
  have := all x; have := all y; have := all z
  refine ⟨?_, ?_, ?_⟩ <;> linarith

theorem rotation {a b c x y z : Pt} (hA : 0 < area2 a b c) (hX : 0 < area2 x y z) (hx : x = a ∨ x = b ∨ x = c) (hy : y = a ∨ y = b ∨ y = c) (hz : z = a ∨ z = b ∨ z = c) :
    (x, y, z) = (a, b, c) ∨ (x, y, z) = (b, c, a) ∨ (x, y, z) = (c, a, b) := by
  rcases hx with rfl | rfl | rfl <;> rcases hy with rfl | rfl | rfl <;> rcases hz with rfl | rfl | rfl <;>
    first
    | exact Or.inl rfl
    | exact Or.inr (Or.inl rfl)
    | exact Or.inr (Or.inr rfl)
    | (exfalso; simp only [area2] at hA hX; nlinarith)

/-- **C127.**  For every list of points with no determinant within the tolerance: the call returns; the triangles have corners in the list and are counter-clockwise; no
input point and no corner of the super-triangle is inside the circle through the corners; no point is strictly inside two of the triangles; and every three points
whose circle has all the others outside, including the corners of the super-triangle, are the corners of one of the triangles. -/
theorem delaunay_partial {ps : List Pt} (hc : Clear ps) : ∃ m, compute ps = .ret m ∧ m.points = ps ∧
    (∀ t ∈ m.triangles, ∃ a b c, Corners ps t a b c ∧ 0 < area2 a b c ∧ EmptyCircle (work ps) a b c) ∧
    (m.triangles.Pairwise (fun t t' => ∀ a b c a' b' c', Corners ps t a b c → Corners ps t' a' b' c' → ∀ q, ¬ (Inside q a b c ∧ Inside q a' b' c'))) ∧
    (3 ≤ ps.length → ∀ a ∈ ps, ∀ b ∈ ps, ∀ c ∈ ps, 0 < area2 a b c → ∀ (o : Pt) (r : ℝ), euclid o a = r → euclid o b = r → euclid o c = r →
      (∀ q ∈ work ps, q ≠ a → q ≠ b → q ≠ c → r < euclid o q) → ∃ t ∈ m.triangles, Corners ps t a b c ∨ Corners ps t b c a ∨ Corners ps t c a b) := by
  rcases Nat.lt_or_ge ps.length 3 with h3 | h3
  · refine ⟨⟨ps, [], []⟩, ?_, rfl, by simp, by simp, by omega⟩
    match ps, h3 with
    | [], _ => rfl
    | [_], _ => rfl
    | [_, _], _ => rfl
  obtain ⟨T, hT, T', hinv, hA, rfl⟩ := compute_inv hc h3
  obtain ⟨w, hw⟩ := work_eq (ps := ps) (by omega)
  set P := at' (work ps) with hP
  set s : Tri := (ps.length, ps.length + 1, ps.length + 2) with hs
  have hmem : ∀ {t}, t ∈ T'.filter (fun t => decide (t.1 < ps.length) && decide (t.2.1 < ps.length) && decide (t.2.2 < ps.length)) ↔
      t ∈ T' ∧ t.1 < ps.length ∧ t.2.1 < ps.length ∧ t.2.2 < ps.length := by intro t; simp [List.mem_filter, and_assoc]
  refine ⟨_, hT, rfl, ?_, ?_, ?_⟩
  · intro t ht
    obtain ⟨h1, h2⟩ := hmem.1 ht
    refine ⟨P t.1, P t.2.1, P t.2.2, by rw [hP, hw]; exact corners_of w h2, hinv.ccw t h1, emptyCircle_of (hinv.ccw t h1) (fun q hq => ?_)⟩
    obtain ⟨i, hi, rfl⟩ := mem_work_Q hq
    exact hinv.empty t h1 i hi
  · rw [List.pairwise_iff_forall_sublist]
    intro t t' hsub a b c a' b' c' h1 h2 q hq
    obtain ⟨e1, e2, e3⟩ := h1.area (w := w)
    obtain ⟨f1, f2, f3⟩ := h2.area (w := w)
    rw [← hw] at e1 e2 e3 f1 f2 f3
    refine hinv.disjoint hA (hsub.trans List.filter_sublist) (q := q) ?_ ?_
    · rw [In]; rw [hP, e1, e2, e3]; exact hq.1
    · rw [In]; rw [hP, f1, f2, f3]; exact hq.2
  · intro _ a ha b hb c hcm habc o r ra rb rc hout
    have hsub : ∀ x ∈ ps, x ∈ work ps := fun x hx => by rw [hw]; exact List.mem_append_left _ hx
    have sb : sqd o b = sqd o a := by
      have := rb.trans ra.symm
      rw [euclid_sqd, euclid_sqd] at this
      exact (Real.sqrt_inj (sqd_nonneg _ _) (sqd_nonneg _ _)).1 this
    have sc : sqd o c = sqd o a := by
      have := rc.trans ra.symm
      rw [euclid_sqd, euclid_sqd] at this
      exact (Real.sqrt_inj (sqd_nonneg _ _) (sqd_nonneg _ _)).1 this
    have hge : ∀ q ∈ work ps, sqd o a ≤ sqd o q ∧ (sqd o q = sqd o a → q = a ∨ q = b ∨ q = c) := by
      intro q hq
      by_cases h1 : q = a
      · exact ⟨by rw [h1], fun _ => Or.inl h1⟩
      by_cases h2 : q = b
      · exact ⟨by rw [h2, sb], fun _ => Or.inr (Or.inl h2)⟩
      by_cases h4 : q = c
      · exact ⟨by rw [h4, sc], fun _ => Or.inr (Or.inr h4)⟩
      have := hout q hq h1 h2 h4
      rw [← ra, euclid_sqd, euclid_sqd] at this
      have := lt_of_not_ge (fun h => absurd (Real.sqrt_le_sqrt h) (not_le.2 this))
      exact ⟨this.le, fun e => absurd e this.ne'⟩
    -- the super-triangle has the point in the middle inside
    have hin : ∀ x ∈ ps, In P x s := fun x hx => super_in hx
    set g : Pt := ((a.1 + b.1 + c.1) / 3, (a.2 + b.2 + c.2) / 3) with hg
    have cen : ∀ u v : Pt, area2 u v g = (area2 u v a + area2 u v b + area2 u v c) / 3 := fun u v => by simp only [hg, area2]; ring
    have hgs : In P g s := by
      obtain ⟨a1, a2, a3⟩ := hin a ha
      obtain ⟨b1, b2, b3⟩ := hin b hb
      obtain ⟨c1, c2, c3⟩ := hin c hcm
      refine ⟨?_, ?_, ?_⟩ <;> rw [cen] <;> linarith
    have hsum := hinv.wind g
    rw [show W P g s = 1 from (Wind.tri_cases hA).2.2 hgs] at hsum
    obtain ⟨t, ht, htW⟩ : ∃ t ∈ T', W P g t ≠ 0 := by
      by_contra hcon
      push Not at hcon
      have : (T'.map (W P g)).sum = 0 := List.sum_eq_zero (fun x hx => by obtain ⟨t, ht, rfl⟩ := List.mem_map.1 hx; exact hcon t ht)
      omega
    have htA := hinv.ccw t ht
    obtain ⟨tc1, tc2, -⟩ := Wind.tri_cases (q := g) htA
    have hgt := tc2 (tc1.resolve_left htW)
    have hD : ∀ x ∈ ps, det x (P t.1) (P t.2.1) (P t.2.2) ≤ 0 := fun x hx => by
      obtain ⟨i, hi, rfl⟩ := mem_work_Q (hsub x hx)
      exact hinv.empty t ht i hi
    obtain ⟨idx1, idx2, idx3⟩ := hinv.idx t ht
    have hwm : ∀ {i}, Q s ps.length i → P i ∈ work ps := by
      intro i hi
      apply at_mem
      rcases ps with _ | ⟨p, rest⟩
      · simp at h3
      · have : (work (p :: rest)).length = (p :: rest).length + 3 := by simp [work, superTri, superOf]
        simp only [Q, hs] at hi; omega
    obtain ⟨k1, k2, k3⟩ := same_triangle habc htA sb sc (hD a ha) (hD b hb) (hD c hcm) (hge _ (hwm idx1)).1 (hge _ (hwm idx2)).1 (hge _ (hwm idx3)).1 hgt
    have p1 := (hge _ (hwm idx1)).2 k1
    have p2 := (hge _ (hwm idx2)).2 k2
    have p3 := (hge _ (hwm idx3)).2 k3
    have hlt : ∀ {i}, Q s ps.length i → (P i = a ∨ P i = b ∨ P i = c) → i < ps.length := by
      intro i hi hp
      have hps : P i ∈ ps := by rcases hp with h | h | h <;> rw [h] <;> assumption
      obtain ⟨z1, z2, z3⟩ := hin _ hps
      have z : ∀ x y : Pt, area2 x y x = 0 := fun x y => by simp only [area2]; ring
      rcases hi with h | h | h | h
      · exact h
      · rw [← h, z] at z1; exact absurd z1 (lt_irrefl _)
      · rw [← h, z] at z2; exact absurd z2 (lt_irrefl _)
      · rw [← h, z] at z3; exact absurd z3 (lt_irrefl _)
    have hidx : t.1 < ps.length ∧ t.2.1 < ps.length ∧ t.2.2 < ps.length := ⟨hlt idx1 p1, hlt idx2 p2, hlt idx3 p3⟩
    refine ⟨t, hmem.2 ⟨ht, hidx⟩, ?_⟩
    have hcor := corners_of w hidx
    rw [← hw] at hcor
    rcases rotation habc htA p1 p2 p3 with e | e | e <;>
      have e1 := congrArg (fun u => u.1) e <;> have e2 := congrArg (fun u => u.2.1) e <;> have e3 := congrArg (fun u => u.2.2) e <;> simp only at e1 e2 e3
    · left; rw [← e1, ← e2, ← e3]; exact hcor
    · right; left; rw [← e1, ← e2, ← e3]; exact hcor
    · right; right; rw [← e1, ← e2, ← e3]; exact hcor

/-! ## Points with integer coordinates -/

/-- Half-integers. -/
def Half (x : ℝ) : Prop := ∃ k : ℤ, x = k / 2

theorem Half.sub {x y : ℝ} : Half x → Half y → Half (x - y) := by
  rintro ⟨a, rfl⟩ ⟨b, rfl⟩; exact ⟨a - b, by push_cast; ring⟩

/-- All coordinates are integers of absolute value at most 10¹⁰, and the points are not all the same. -/
def IntPoints (ps : List Pt) : Prop := (∀ p ∈ ps, (∃ i : ℤ, p.1 = i ∧ |p.1| ≤ 10 ^ 10) ∧ ∃ i : ℤ, p.2 = i ∧ |p.2| ≤ 10 ^ 10) ∧ ∃ p ∈ ps, ∃ q ∈ ps, p ≠ q

theorem minOf_mem (x : ℝ) (l : List ℝ) : minOf x l ∈ x :: l := by
  induction l generalizing x with
  | nil => simp [minOf]
  | cons a l ih =>
    have := ih (min x a)
    rw [show minOf x (a :: l) = minOf (min x a) l from rfl]
    rcases List.mem_cons.1 this with h | h
    · rw [h]; rcases min_choice x a with e | e <;> rw [e] <;> simp
    · simp [h]

theorem maxOf_mem (x : ℝ) (l : List ℝ) : maxOf x l ∈ x :: l := by
  induction l generalizing x with
  | nil => simp [maxOf]
  | cons a l ih =>
    have := ih (max x a)
    rw [show maxOf x (a :: l) = maxOf (max x a) l from rfl]
    rcases List.mem_cons.1 this with h | h
    · rw [h]; rcases max_choice x a with e | e <;> rw [e] <;> simp
    · simp [h]

theorem det_half {p a b c : Pt} (hp : Half p.1 ∧ Half p.2) (ha : Half a.1 ∧ Half a.2) (hb : Half b.1 ∧ Half b.2) (hc : Half c.1 ∧ Half c.2) :
    ∃ k : ℤ, det p a b c = k / 16 := by
  obtain ⟨a1, h1⟩ := ha.1.sub hp.1; obtain ⟨a2, h2⟩ := ha.2.sub hp.2
  obtain ⟨b1, h3⟩ := hb.1.sub hp.1; obtain ⟨b2, h4⟩ := hb.2.sub hp.2
  obtain ⟨c1, h5⟩ := hc.1.sub hp.1; obtain ⟨c2, h6⟩ := hc.2.sub hp.2
  rw [det, h1, h2, h3, h4, h5, h6]
  exact ⟨a1 * (b2 * (c1 * c1 + c2 * c2) - (b1 * b1 + b2 * b2) * c2) - a2 * (b1 * (c1 * c1 + c2 * c2) - (b1 * b1 + b2 * b2) * c1) + (a1 * a1 + a2 * a2) * (b1 * c2 - b2 * c1), by
    push_cast; ring⟩

theorem deltaMax_int {a b c d : ℤ} (ha : |(a : ℝ)| ≤ 10 ^ 10) (hb : |(b : ℝ)| ≤ 10 ^ 10) (hc : |(c : ℝ)| ≤ 10 ^ 10) (hd : |(d : ℝ)| ≤ 10 ^ 10)
    (h : a < b ∨ c < d) : ∃ k : ℤ, deltaMax a b c d = k := by
  have h1 : (1 : ℝ) ≤ max ((b : ℝ) - a) (d - c) := by
    rcases h with h | h
    · refine le_trans ?_ (le_max_left _ _); have : (a : ℝ) + 1 ≤ b := by exact_mod_cast h
      linarith
    · refine le_trans ?_ (le_max_right _ _); have : (c : ℝ) + 1 ≤ d := by exact_mod_cast h
      linarith
  have h2 : max |(a : ℝ)| |(c : ℝ)| * (1 / 10 ^ 10) ≤ 1 := by
    have := max_le ha hc
    rw [mul_one_div, div_le_one (by norm_num)]; exact this
  have h3 : max |(b : ℝ)| |(d : ℝ)| * (1 / 10 ^ 10) ≤ 1 := by
    have := max_le hb hd
    rw [mul_one_div, div_le_one (by norm_num)]; exact this
  rw [deltaMax, max_eq_left (h2.trans h1), max_eq_left (h3.trans h1), max_eq_left (le_trans (by norm_num) h1)]
  exact ⟨max (b - a) (d - c), by push_cast; rfl⟩

theorem work_half {ps : List Pt} (h : IntPoints ps) : ∀ p ∈ work ps, Half p.1 ∧ Half p.2 := by
  match ps, h with
  | [], h => simp [work]
  | p0 :: rest, h =>
    have hx : ∀ x ∈ p0.1 :: (p0 :: rest).map Prod.fst, ∃ i : ℤ, x = i ∧ |x| ≤ 10 ^ 10 := by
      intro x hx
      rcases List.mem_cons.1 hx with rfl | hx
      · exact (h.1 p0 (by simp)).1
      · obtain ⟨q, hq, rfl⟩ := List.mem_map.1 hx
        exact (h.1 q hq).1
    have hy : ∀ x ∈ p0.2 :: (p0 :: rest).map Prod.snd, ∃ i : ℤ, x = i ∧ |x| ≤ 10 ^ 10 := by
      intro x hx
      rcases List.mem_cons.1 hx with rfl | hx
      · exact (h.1 p0 (by simp)).2
      · obtain ⟨q, hq, rfl⟩ := List.mem_map.1 hx
        exact (h.1 q hq).2
    obtain ⟨a, ea, ba⟩ := hx _ (minOf_mem _ _)
    obtain ⟨b, eb, bb⟩ := hx _ (maxOf_mem _ _)
    obtain ⟨c, ec, bc⟩ := hy _ (minOf_mem _ _)
    obtain ⟨d, ed, bd⟩ := hy _ (maxOf_mem _ _)
    have hlt : a < b ∨ c < d := by
      by_contra hcon
      push Not at hcon
      obtain ⟨p, hp, q, hq, hne⟩ := h.2
      have e1 : ∀ p ∈ p0 :: rest, (a : ℝ) ≤ p.1 ∧ p.1 ≤ b := fun p hp => by
        rw [← ea, ← eb]; exact ⟨(foldl_min_le _ _).2 _ (List.mem_map_of_mem hp), (le_foldl_max _ _).2 _ (List.mem_map_of_mem hp)⟩
      have e2 : ∀ p ∈ p0 :: rest, (c : ℝ) ≤ p.2 ∧ p.2 ≤ d := fun p hp => by
        rw [← ec, ← ed]; exact ⟨(foldl_min_le _ _).2 _ (List.mem_map_of_mem hp), (le_foldl_max _ _).2 _ (List.mem_map_of_mem hp)⟩
      have k1 : (b : ℝ) ≤ a := by exact_mod_cast hcon.1
      have k2 : (d : ℝ) ≤ c := by exact_mod_cast hcon.2
      exact hne (Prod.ext (by linarith [e1 p hp, e1 q hq]) (by linarith [e2 p hp, e2 q hq]))
    rw [ea] at ba; rw [eb] at bb; rw [ec] at bc; rw [ed] at bd
    obtain ⟨k, hk⟩ := deltaMax_int ba bb bc bd hlt
    intro p hp
    rcases List.mem_append.1 hp with hp | hp
    · obtain ⟨⟨i, hi, -⟩, j, hj, -⟩ := h.1 p hp
      exact ⟨⟨2 * i, by rw [hi]; push_cast; ring⟩, ⟨2 * j, by rw [hj]; push_cast; ring⟩⟩
    · rw [superTri, ea, eb, ec, ed, superOf, hk] at hp
      simp only [List.mem_cons, List.not_mem_nil, or_false] at hp
      rcases hp with rfl | rfl | rfl
      · exact ⟨⟨a + b - 40 * k, by push_cast; ring⟩, ⟨c + d - 2 * k, by push_cast; ring⟩⟩
      · exact ⟨⟨a + b + 40 * k, by push_cast; ring⟩, ⟨c + d - 2 * k, by push_cast; ring⟩⟩
      · exact ⟨⟨a + b, by push_cast; ring⟩, ⟨c + d + 40 * k, by push_cast; ring⟩⟩

/-- **C127.**  Points with integer coordinates meet the hypothesis of `delaunay_partial`. -/
theorem clear_of_int {ps : List Pt} (h : IntPoints ps) : Clear ps := by
  intro p hp a ha b hb c hc hpos
  obtain ⟨k, hk⟩ := det_half (work_half h p hp) (work_half h a ha) (work_half h b hb) (work_half h c hc)
  rw [hk] at hpos ⊢
  have : 0 < (k : ℝ) := by linarith
  have : (1 : ℝ) ≤ k := by exact_mod_cast this
  rw [geomEps]
  norm_num at this ⊢
  linarith

/-- The hypothesis holds for the corners and the middle of a square. -/
example : Clear [(0, 0), (4, 0), (4, 4), (0, 4), (2, 2)] := by
  apply clear_of_int
  refine ⟨fun p hp => ?_, (0, 0), by simp, (4, 0), by simp, by simp⟩
  simp only [List.mem_cons, List.not_mem_nil, or_false] at hp
  have k : ∀ i : ℕ, i < 5 → ∃ j : ℤ, (i : ℝ) = j ∧ |(i : ℝ)| ≤ 10 ^ 10 := fun i hi => ⟨i, by simp, by
    have : (i : ℝ) ≤ 5 := by exact_mod_cast hi.le
    rw [abs_of_nonneg (by positivity)]; norm_num; linarith⟩
  rcases hp with rfl | rfl | rfl | rfl | rfl
  · exact ⟨by simpa using k 0 (by norm_num), by simpa using k 0 (by norm_num)⟩
  · exact ⟨by simpa using k 4 (by norm_num), by simpa using k 0 (by norm_num)⟩
  · exact ⟨by simpa using k 4 (by norm_num), by simpa using k 4 (by norm_num)⟩
  · exact ⟨by simpa using k 0 (by norm_num), by simpa using k 4 (by norm_num)⟩
  · exact ⟨by simpa using k 2 (by norm_num), by simpa using k 2 (by norm_num)⟩

/-- **C127.**  Three points that are not on one line, and no triangle: the super-triangle is too small for this flat triangle, a corner of it is inside the circle. -/
theorem delaunay_misses : ∃ m, compute [(0, 0), (50, -1), (100, 0)] = .ret m ∧ m.triangles = [] ∧ area2 (0, 0) (50, -1) (100, 0) = 100 := by
  set ps : List Pt := [(0, 0), (50, -1), (100, 0)] with hps
  have hint : IntPoints ps := by
    refine ⟨fun p hp => ?_, (0, 0), by simp [hps], (100, 0), by simp [hps], by simp⟩
    simp only [hps, List.mem_cons, List.not_mem_nil, or_false] at hp
    rcases hp with rfl | rfl | rfl
    · exact ⟨⟨0, by norm_num⟩, ⟨0, by norm_num⟩⟩
    · exact ⟨⟨50, by norm_num⟩, ⟨-1, by norm_num⟩⟩
    · exact ⟨⟨100, by norm_num⟩, ⟨0, by norm_num⟩⟩
  obtain ⟨T, hT, T', hinv, hA, rfl⟩ := compute_inv (clear_of_int hint) (by simp [hps])
  refine ⟨_, hT, ?_, by norm_num [area2]⟩
  show List.filter _ T' = []
  rw [List.filter_eq_nil_iff]
  intro t ht hc
  simp only [Bool.and_eq_true, decide_eq_true_eq] at hc
  have hl : ps.length = 3 := rfl
  rw [hl] at hc
  have hw : work ps = [(0, 0), (50, -1), (100, 0), (50 - 2000, -1 / 2 - 100), (50 + 2000, -1 / 2 - 100), (50, -1 / 2 + 2000)] := by
    have m1 : minOf 0 [0, 50, 100] = 0 := by norm_num [minOf]
    have m2 : maxOf 0 [0, 50, 100] = 100 := by norm_num [maxOf]
    have m3 : minOf 0 [0, -1, 0] = -1 := by norm_num [minOf]
    have m4 : maxOf 0 [0, -1, 0] = 0 := by norm_num [maxOf]
    have m5 : deltaMax 0 100 (-1) 0 = 100 := by norm_num [deltaMax]
    rw [hps, work, superTri]
    simp only [List.map_cons, List.map_nil, m1, m2, m3, m4, superOf, m5]
    norm_num
  have ha := hinv.ccw t ht
  have he := hinv.empty t ht 5 (by rw [hl]; exact Or.inr (Or.inr (Or.inr rfl)))
  rcases t with ⟨x, y, z⟩
  simp only at hc
  obtain ⟨⟨hx, hy⟩, hz⟩ := hc
  rw [A, hw] at ha
  rw [D, hw] at he
  interval_cases x <;> interval_cases y <;> interval_cases z <;>
    first
    | (norm_num [at', area2] at ha; done)
    | (norm_num [at', det] at he; done)

end Verif.CompGeo.Del
