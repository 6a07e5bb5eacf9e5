import Verif.CompGeo.DelaunayLemmas

/-!
# One step of the incremental Delaunay triangulation
-/

set_option autoImplicit false

namespace Verif.CompGeo.Del
open Wind (up cr tri Inside InsideEq area2_swap area2_rot area2_split)

/-! ## Triangles given by indexes -/

/-- Twice the signed area of a triangle. -/
def A (P : ℕ → Pt) (t : Tri) : ℝ := area2 (P t.1) (P t.2.1) (P t.2.2)
/-- Positive if `q` is inside the circle of the (counter-clockwise) triangle. -/
def D (P : ℕ → Pt) (q : Pt) (t : Tri) : ℝ := det q (P t.1) (P t.2.1) (P t.2.2)
/-- `q` is strictly inside the triangle. -/
def In (P : ℕ → Pt) (q : Pt) (t : Tri) : Prop := Inside q (P t.1) (P t.2.1) (P t.2.2)
/-- The winding number. -/
noncomputable def W (P : ℕ → Pt) (q : Pt) (t : Tri) : ℤ := tri q (P t.1) (P t.2.1) (P t.2.2)

/-- The triangle `t` begun at the edge `x y`. -/
def IsRot (t : Tri) (x y z : ℕ) : Prop := t = (x, y, z) ∨ t = (z, x, y) ∨ t = (y, z, x)

theorem mem_sides {t : Tri} {e : ℕ × ℕ} : e ∈ sides t ↔ ∃ z, IsRot t e.1 e.2 z := by
  rcases t with ⟨a, b, c⟩; rcases e with ⟨x, y⟩
  simp only [sides, List.mem_cons, List.not_mem_nil, or_false, Prod.mk.injEq, IsRot]
  constructor
  · rintro (h | h | h)
    · exact ⟨c, Or.inl ⟨h.1.symm, h.2.symm, rfl⟩⟩
    · exact ⟨a, Or.inr (Or.inl ⟨rfl, h.1.symm, h.2.symm⟩)⟩
    · exact ⟨b, Or.inr (Or.inr ⟨h.2.symm, rfl, h.1.symm⟩)⟩
  · rintro ⟨z, h | h | h⟩
    · exact Or.inl ⟨h.1.symm, h.2.1.symm⟩
    · exact Or.inr (Or.inl ⟨h.2.1.symm, h.2.2.symm⟩)
    · exact Or.inr (Or.inr ⟨h.2.2.symm, h.1.symm⟩)

theorem A_rot {P : ℕ → Pt} {t : Tri} {x y z : ℕ} (h : IsRot t x y z) : A P t = area2 (P x) (P y) (P z) := by
  rcases h with h | h | h <;> rw [h, A] <;> simp only [area2] <;> ring

theorem D_rot {P : ℕ → Pt} {t : Tri} {x y z : ℕ} (h : IsRot t x y z) (q : Pt) : D P q t = det q (P x) (P y) (P z) := by
  rcases h with h | h | h <;> rw [h, D] <;> simp only [det] <;> ring

theorem In_rot {P : ℕ → Pt} {t : Tri} {x y z : ℕ} (h : IsRot t x y z) (q : Pt) : In P q t ↔ Inside q (P x) (P y) (P z) := by
  rcases h with h | h | h <;> subst h <;> simp only [In, Inside] <;> tauto

theorem corner_rot {t : Tri} {x y z : ℕ} (h : IsRot t x y z) (C : ℕ → Prop) : (C t.1 ∧ C t.2.1 ∧ C t.2.2) ↔ C x ∧ C y ∧ C z := by
  rcases h with h | h | h <;> rw [h] <;> tauto

/-- The sum of a function of directed edges over the edges of the triangles. -/
def chain (f : ℕ × ℕ → ℤ) (T : List Tri) : ℤ := ((edgesOf T).map f).sum

/-- A function that changes its sign with the direction of the edge. -/
def Anti (f : ℕ × ℕ → ℤ) : Prop := ∀ e, f e = - f e.swap

theorem chain_cons (f : ℕ × ℕ → ℤ) (t : Tri) (T : List Tri) : chain f (t :: T) = f (t.1, t.2.1) + f (t.2.1, t.2.2) + f (t.2.2, t.1) + chain f T := by
  simp [chain, edgesOf, sides]; ring

theorem chain_nil (f : ℕ × ℕ → ℤ) : chain f [] = 0 := rfl

theorem chain_append (f : ℕ × ℕ → ℤ) (T U : List Tri) : chain f (T ++ U) = chain f T + chain f U := by
  simp [chain, edgesOf]

theorem chain_W (P : ℕ → Pt) (q : Pt) (T : List Tri) : chain (fun e => cr q (P e.1) (P e.2)) T = (T.map (W P q)).sum := by
  induction T with
  | nil => rfl
  | cons t T ih => rw [chain_cons, ih, List.map_cons, List.sum_cons, W, tri]

/-- The points that have been inserted, and the corners of the super-triangle. -/
def Q (s : Tri) (k q : ℕ) : Prop := q < k ∨ q = s.1 ∨ q = s.2.1 ∨ q = s.2.2

/-- The invariant: the triangles have the boundary of the super-triangle, are counter-clockwise, and no circle contains a point. -/
structure Inv (P : ℕ → Pt) (s : Tri) (k : ℕ) (T : List Tri) : Prop where
  chain : ∀ f, Anti f → chain f T = chain f [s]
  ccw : ∀ t ∈ T, 0 < A P t
  empty : ∀ t ∈ T, ∀ q, Q s k q → D P (P q) t ≤ 0
  idx : ∀ t ∈ T, Q s k t.1 ∧ Q s k t.2.1 ∧ Q s k t.2.2

/-! ## No two triangles overlap -/

theorem small {a b : ℝ} (h : 0 < a) : ∃ d > 0, ∀ e, 0 < e → e < d → 0 < a / 4 + e * b := by
  refine ⟨a / (4 * (|b| + 1)), by positivity, fun e he h1 => ?_⟩
  rw [lt_div_iff₀ (by positivity)] at h1
  have : -(e * |b|) ≤ e * b := by rw [← mul_neg]; exact mul_le_mul_of_nonneg_left (neg_abs_le b) he.le
  nlinarith

theorem overlap {a b w w' : Pt} (h : 0 < area2 a b w) (h' : 0 < area2 a b w') : ∃ q, Inside q a b w ∧ Inside q a b w' := by
  obtain ⟨d1, p1, k1⟩ := small (b := area2 b w w') h
  obtain ⟨d2, p2, k2⟩ := small (b := area2 w a w') h
  obtain ⟨d3, p3, k3⟩ := small (b := area2 b w' w) h'
  obtain ⟨d4, p4, k4⟩ := small (b := area2 w' a w) h'
  obtain ⟨e, e0, he⟩ : ∃ e : ℝ, 0 < e ∧ e < min (1 / 4) (min (min d1 d2) (min d3 d4)) := by
    refine ⟨min (1 / 4) (min (min d1 d2) (min d3 d4)) / 2, by positivity, half_lt_self (by positivity)⟩
  simp only [lt_min_iff] at he
  obtain ⟨h4, ⟨g1, g2⟩, g3, g4⟩ := he
  have f1 := k1 e e0 g1
  have f2 := k2 e e0 g2
  have f3 := k3 e e0 g3
  have f4 := k4 e e0 g4
  set q : Pt := ((1 - 2 * e) / 2 * (a.1 + b.1) + e * w.1 + e * w'.1, (1 - 2 * e) / 2 * (a.2 + b.2) + e * w.2 + e * w'.2) with hq
  have i1 : area2 a b q = e * area2 a b w + e * area2 a b w' := by simp only [hq, area2]; ring
  have i2 : area2 b w q = (1 - 2 * e) / 2 * area2 a b w + e * area2 b w w' := by simp only [hq, area2]; ring
  have i3 : area2 w a q = (1 - 2 * e) / 2 * area2 a b w + e * area2 w a w' := by simp only [hq, area2]; ring
  have i4 : area2 b w' q = (1 - 2 * e) / 2 * area2 a b w' + e * area2 b w' w := by simp only [hq, area2]; ring
  have i5 : area2 w' a q = (1 - 2 * e) / 2 * area2 a b w' + e * area2 w' a w := by simp only [hq, area2]; ring
  have j1 : area2 a b w / 4 ≤ (1 - 2 * e) / 2 * area2 a b w := by nlinarith
  have j2 : area2 a b w' / 4 ≤ (1 - 2 * e) / 2 * area2 a b w' := by nlinarith
  refine ⟨q, ⟨?_, ?_, ?_⟩, ?_, ?_, ?_⟩
  · rw [i1]; positivity
  · rw [i2]; linarith
  · rw [i3]; linarith
  · rw [i1]; positivity
  · rw [i4]; linarith
  · rw [i5]; linarith

section
variable {P : ℕ → Pt} {s : Tri} {k : ℕ} {T : List Tri}

theorem Inv.wind (h : Inv P s k T) (q : Pt) : (T.map (W P q)).sum = W P q s := by
  have := h.chain (fun e => cr q (P e.1) (P e.2)) (fun e => Wind.cr_anti _ _ _)
  rwa [chain_W, chain_W, List.map_singleton, List.sum_singleton] at this

/-- No point is strictly inside two triangles. -/
theorem Inv.disjoint (h : Inv P s k T) (hs : 0 < A P s) {t t' : Tri} (ht : [t, t'].Sublist T) {q : Pt} (h1 : In P q t) (h2 : In P q t') : False := by
  have hnn : ∀ x ∈ T.map (W P q), 0 ≤ x := by
    intro x hx
    obtain ⟨u, hu, rfl⟩ := List.mem_map.1 hx
    rcases (Wind.tri_cases (q := q) (h.ccw u hu)).1 with e | e <;> rw [W, e] <;> norm_num
  have hle := (ht.map (W P q)).sum_le_sum hnn
  rw [h.wind] at hle
  have m1 : t ∈ T := ht.subset (by simp)
  have m2 : t' ∈ T := ht.subset (by simp)
  have e1 : W P q t = 1 := (Wind.tri_cases (h.ccw t m1)).2.2 h1
  have e2 : W P q t' = 1 := (Wind.tri_cases (h.ccw t' m2)).2.2 h2
  simp only [List.map_cons, List.map_nil, List.sum_cons, List.sum_nil, e1, e2] at hle
  rcases (Wind.tri_cases (q := q) hs).1 with e | e <;> rw [W, e] at hle <;> norm_num at hle

theorem ne_of_ccw {t : Tri} (h : 0 < A P t) : t.1 ≠ t.2.1 ∧ t.2.1 ≠ t.2.2 ∧ t.2.2 ≠ t.1 := by
  rw [A] at h
  refine ⟨fun e => ?_, fun e => ?_, fun e => ?_⟩ <;> rw [e] at h <;> simp only [area2] at h <;> nlinarith

theorem sides_loop {t : Tri} (h : 0 < A P t) {e : ℕ × ℕ} (he : e ∈ sides t) : e.1 ≠ e.2 := by
  obtain ⟨h1, h2, h3⟩ := ne_of_ccw h
  simp only [sides, List.mem_cons, List.not_mem_nil, or_false] at he
  rcases he with rfl | rfl | rfl <;> assumption

/-- Every directed edge belongs to one triangle only. -/
theorem Inv.nodup (h : Inv P s k T) (hs : 0 < A P s) : (edgesOf T).Nodup := by
  rw [edgesOf, List.nodup_flatMap]
  constructor
  · intro t ht
    obtain ⟨h1, h2, h3⟩ := ne_of_ccw (h.ccw t ht)
    simp only [sides, List.nodup_cons, List.mem_cons, List.not_mem_nil, or_false, Prod.mk.injEq, not_or, not_and, not_false_eq_true, List.nodup_nil, and_true]
    exact ⟨⟨fun e => absurd e h1, fun e => absurd e h3.symm⟩, fun e => absurd e h2⟩
  · rw [List.pairwise_iff_forall_sublist]
    intro t t' hsub e he he'
    obtain ⟨z, hz⟩ := mem_sides.1 he
    obtain ⟨z', hz'⟩ := mem_sides.1 he'
    have a1 := h.ccw t (hsub.subset (by simp))
    have a2 := h.ccw t' (hsub.subset (by simp))
    rw [A_rot hz] at a1
    rw [A_rot hz'] at a2
    obtain ⟨q, q1, q2⟩ := overlap a1 a2
    exact h.disjoint hs hsub ((In_rot hz q).2 q1) ((In_rot hz' q).2 q2)

/-- Beyond an edge there is another triangle, unless the edge belongs to the super-triangle. -/
theorem Inv.other (h : Inv P s k T) {e : ℕ × ℕ} (he : e ∈ edgesOf T) (hl : e.1 ≠ e.2) (hs : e ∉ sides s) : e.swap ∈ edgesOf T := by
  by_contra hc
  have hne : e.swap ≠ e := fun h => hl (congrArg Prod.snd h)
  have := h.chain (fun x => (if x = e then 1 else 0) - (if x = e.swap then 1 else 0)) (by
    intro x
    have a1 : (x.swap = e) ↔ (x = e.swap) := ⟨fun h => by rw [← h, Prod.swap_swap], fun h => by rw [h, Prod.swap_swap]⟩
    have a2 : (x.swap = e.swap) ↔ (x = e) := ⟨fun h => by rw [← Prod.swap_swap x, h, Prod.swap_swap], fun h => by rw [h]⟩
    simp only [a1, a2]; ring)
  have hcount : ∀ (U : List Tri) (x : ℕ × ℕ), ((edgesOf U).map (fun y => if y = x then (1 : ℤ) else 0)).sum = (edgesOf U).count x := by
    intro U x
    induction edgesOf U with
    | nil => rfl
    | cons y r ih =>
      rw [List.map_cons, List.sum_cons, ih, List.count_cons]
      by_cases hy : y = x <;> simp [hy, add_comm]
  have hsub : ∀ U, Del.chain (fun x => (if x = e then 1 else 0) - (if x = e.swap then 1 else 0)) U = (edgesOf U).count e - (edgesOf U).count e.swap := by
    intro U
    rw [← hcount, ← hcount, Del.chain]
    induction edgesOf U with
    | nil => rfl
    | cons y r ih => simp only [List.map_cons, List.sum_cons, ih]; ring
  rw [hsub, hsub, List.count_eq_zero_of_not_mem hc, List.count_eq_zero_of_not_mem (l := edgesOf [s]) (a := e) (by simpa [edgesOf] using hs)] at this
  have hp : 0 < (edgesOf T).count e := List.count_pos_iff.2 he
  omega

theorem Q_succ {q : ℕ} (h : Q s k q) : Q s (k + 1) q := h.imp (fun h => by omega) id

theorem chain_new {f : ℕ × ℕ → ℤ} (l : List (ℕ × ℕ)) (k : ℕ) :
    Del.chain f (l.map (fun e => (k, e.1, e.2))) = (l.map (fun e => f (k, e.1) + f e + f (e.2, k))).sum := by
  induction l with
  | nil => rfl
  | cons e l ih => rw [List.map_cons, chain_cons, ih, List.map_cons, List.sum_cons]

theorem chain_cone {f : ℕ × ℕ → ℤ} (hf : Anti f) (B : List Tri) (k : ℕ) :
    Del.chain (fun e => f (k, e.1) + f e + f (e.2, k)) B = Del.chain f B := by
  induction B with
  | nil => rfl
  | cons t B ih =>
    rw [chain_cons, chain_cons, ih]
    have e1 := hf (k, t.1); have e2 := hf (k, t.2.1); have e3 := hf (k, t.2.2)
    simp only [Prod.swap_prod_mk] at e1 e2 e3 ⊢
    linarith

theorem chain_split (f : ℕ × ℕ → ℤ) (g : Tri → Bool) (T : List Tri) :
    Del.chain f (T.filter (fun t => !g t)) + Del.chain f (T.filter g) = Del.chain f T := by
  induction T with
  | nil => rfl
  | cons t T ih =>
    rw [chain_cons, ← ih, List.filter_cons, List.filter_cons]
    cases g t <;> simp only [Bool.not_true, Bool.not_false, if_true, if_false, Bool.false_eq_true, chain_cons] <;> ring

/-- One insertion keeps the invariant. -/
theorem Inv.step (h : Inv P s k T) (hs : 0 < A P s) (hin : In P (P k) s) (hq : ∀ q, Q s k q → InsideEq (P q) (P s.1) (P s.2.1) (P s.2.2))
    (g : Tri → Bool) (hg : ∀ t ∈ T, (g t = true → 0 < D P (P k) t) ∧ (g t = false → D P (P k) t ≤ 0)) :
    Inv P s (k + 1) (T.filter (fun t => !g t) ++ (boundary (T.filter g)).map (fun e => (k, e.1, e.2))) := by
  have hnd : (edgesOf (T.filter g)).Nodup := by
    have := h.nodup hs
    rw [edgesOf, List.nodup_flatMap] at this ⊢
    exact ⟨fun t ht => this.1 t (List.mem_filter.1 ht).1, this.2.sublist List.filter_sublist⟩
  have hB : ∀ {t}, t ∈ T.filter g → t ∈ T ∧ 0 < D P (P k) t := fun ht => by
    rw [List.mem_filter] at ht; exact ⟨ht.1, (hg _ ht.1).1 ht.2⟩
  have hloop : ∀ e ∈ edgesOf (T.filter g), e.1 ≠ e.2 := by
    intro e he
    obtain ⟨t, ht, he⟩ := List.mem_flatMap.1 he
    exact sides_loop (h.ccw t (hB ht).1) he
  -- the new triangles
  have hnew : ∀ e ∈ boundary (T.filter g), 0 < area2 (P e.1) (P e.2) (P k) ∧ (∀ q, Q s k q → det (P q) (P e.1) (P e.2) (P k) ≤ 0) ∧ Q s k e.1 ∧ Q s k e.2 := by
    intro e he
    obtain ⟨he1, he2⟩ := mem_boundary he hloop
    obtain ⟨t, ht, het⟩ := List.mem_flatMap.1 he1
    obtain ⟨z, hz⟩ := mem_sides.1 het
    obtain ⟨htT, hD⟩ := hB ht
    have aw := h.ccw t htT
    rw [A_rot hz] at aw
    rw [D_rot hz] at hD
    have hidx := (corner_rot hz (Q s k)).1 (h.idx t htT)
    have hqw : ∀ q, Q s k q → det (P q) (P e.1) (P e.2) (P z) ≤ 0 := fun q hq => by rw [← D_rot hz]; exact h.empty t htT q hq
    by_cases hes : e ∈ sides s
    · have hp : 0 < area2 (P e.1) (P e.2) (P k) := by
        simp only [sides, List.mem_cons, List.not_mem_nil, or_false] at hes
        rcases hes with rfl | rfl | rfl
        · exact hin.1
        · exact hin.2.1
        · exact hin.2.2
      refine ⟨hp, fun q hq' => new_empty_border aw hD hp ?_ (hqw q hq'), hidx.1, hidx.2.1⟩
      have := hq q hq'
      simp only [sides, List.mem_cons, List.not_mem_nil, or_false] at hes
      rcases hes with rfl | rfl | rfl
      · exact this.1
      · exact this.2.1
      · exact this.2.2
    · have hsw := h.other (List.mem_flatMap.2 ⟨t, htT, het⟩) (hloop e he1) hes
      obtain ⟨t', ht', het'⟩ := List.mem_flatMap.1 hsw
      obtain ⟨u, hu⟩ := mem_sides.1 het'
      have hgt : g t' = false := by
        by_contra hc
        rw [Bool.not_eq_false] at hc
        exact he2 (List.mem_flatMap.2 ⟨t', List.mem_filter.2 ⟨ht', hc⟩, het'⟩)
      have hDu := (hg t' ht').2 hgt
      have au := h.ccw t' ht'
      rw [A_rot hu, Prod.fst_swap, Prod.snd_swap, area2_swap] at au
      rw [D_rot hu, Prod.fst_swap, Prod.snd_swap] at hDu
      have hidx' := (corner_rot hu (Q s k)).1 (h.idx t' ht')
      have hp := left_of aw (by linarith) (hqw u hidx'.2.2) hD hDu
      refine ⟨hp, fun q hq' => ?_, hidx.1, hidx.2.1⟩
      have hqu := h.empty t' ht' q hq'
      rw [D_rot hu, Prod.fst_swap, Prod.snd_swap] at hqu
      exact new_empty aw (by linarith) hD hDu hp (hqw q hq') hqu
  have hrot : ∀ e : ℕ × ℕ, IsRot (k, e.1, e.2) e.1 e.2 k := fun e => Or.inr (Or.inl rfl)
  refine ⟨fun f hf => ?_, fun t ht => ?_, fun t ht q hq' => ?_, fun t ht => ?_⟩
  · rw [chain_append, chain_new, boundary_sum hnd (f := fun e => f (k, e.1) + f e + f (e.2, k)) (fun e => ?_)]
    · show _ + Del.chain _ _ = _
      rw [chain_cone hf, chain_split, h.chain f hf]
    · have e1 := hf (k, e.1); have e2 := hf (k, e.2); have e3 := hf e
      simp only [Prod.swap_prod_mk, Prod.fst_swap, Prod.snd_swap] at e1 e2 e3 ⊢
      linarith
  · rcases List.mem_append.1 ht with ht | ht
    · exact h.ccw t (List.mem_filter.1 ht).1
    · obtain ⟨e, he, rfl⟩ := List.mem_map.1 ht
      rw [A_rot (hrot e)]; exact (hnew e he).1
  · clear hnd hB hloop
    rcases List.mem_append.1 ht with hm | hm
    · rw [List.mem_filter] at hm
      rcases hq' with hq' | hq'
      · rcases (show q < k ∨ q = k by omega) with hq' | rfl
        · exact h.empty t hm.1 q (Or.inl hq')
        · exact (hg t hm.1).2 (by simpa using hm.2)
      · exact h.empty t hm.1 q (Or.inr hq')
    · obtain ⟨e, he, rfl⟩ := List.mem_map.1 hm
      rw [D_rot (hrot e)]
      rcases hq' with hq' | hq'
      · rcases (show q < k ∨ q = k by omega) with hq' | rfl
        · exact (hnew e he).2.1 q (Or.inl hq')
        · rw [det_eq]; exact le_of_eq (by ring)
      · exact (hnew e he).2.1 q (Or.inr hq')
  · rcases List.mem_append.1 ht with ht | ht
    · have := h.idx t (List.mem_filter.1 ht).1
      exact ⟨Q_succ this.1, Q_succ this.2.1, Q_succ this.2.2⟩
    · obtain ⟨e, he, rfl⟩ := List.mem_map.1 ht
      exact ⟨Or.inl (Nat.lt_succ_self k), Q_succ (hnew e he).2.2.1, Q_succ (hnew e he).2.2.2⟩

end

end Verif.CompGeo.Del
