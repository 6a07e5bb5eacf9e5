import Verif.CompGeo.Clip
import Verif.CompGeo.PolygonProps
import Mathlib.Tactic

/-!
# Clipping at one half-plane keeps the winding numbers
-/

set_option autoImplicit false

namespace Verif.CompGeo.Clip

open Verif.CompGeo.Poly

/-! ## Points of the segment and of the half-planes -/

theorem crs_side (a b p : Pt) : crs a b p = area2 a b p := by rw [crs, area2]; ring

theorem denom_eq (p1 p2 a b : Pt) : denom p1 p2 a b = crs a b p1 - crs a b p2 := by rw [denom, crs, crs]; ring

theorem numer_eq (p1 a b : Pt) : numer p1 a b = crs a b p1 := by rw [numer, crs]; ring

/-- The point with parameter `t`. -/
def at' (p q : Pt) (t : ℝ) : Pt := (p.1 + t * (q.1 - p.1), p.2 + t * (q.2 - p.2))

theorem at_segment {p q : Pt} {t : ℝ} (h0 : 0 ≤ t) (h1 : t ≤ 1) : at' p q t ∈ segment ℝ p q := by
  refine ⟨1 - t, t, by linarith, h0, by ring, ?_⟩
  refine Prod.ext ?_ ?_ <;> simp only [at', Prod.fst_add, Prod.smul_fst, Prod.snd_add, Prod.smul_snd, smul_eq_mul] <;> ring

theorem crs_at (a b p q : Pt) (t : ℝ) : crs a b (at' p q t) = (1 - t) * crs a b p + t * crs a b q := by simp only [crs, at']; ring

theorem crs_segment {a b p q y : Pt} (h : y ∈ segment ℝ p q) : ∃ s t : ℝ, 0 ≤ s ∧ 0 ≤ t ∧ s + t = 1 ∧ crs a b y = s * crs a b p + t * crs a b q := by
  obtain ⟨s, t, hs, ht, hst, rfl⟩ := h
  refine ⟨s, t, hs, ht, hst, ?_⟩
  have : s = 1 - t := by linarith
  subst this
  simp only [crs, Prod.fst_add, Prod.smul_fst, Prod.snd_add, Prod.smul_snd, smul_eq_mul]; ring

theorem eps_pos : (0 : ℝ) < geomEps := by norm_num [geomEps]

/-- What `IntersectSegmentWithLine` finds between a vertex inside and one outside (in either order): the point on the line, or the vertex
inside, or nothing; not the point on the line only if the vertex inside is in the tolerance. -/
theorem meetLine_exit {a b p q : Pt} (hp : -geomEps ≤ crs a b p) (hq : crs a b q < -geomEps) :
    ∃ r, meetLine p q a b = .ret r ∧ ((∃ y, r = some y ∧ y ∈ segment ℝ p q ∧ crs a b y = 0) ∨ (crs a b p ≤ 0 ∧ (r = none ∨ r = some p))) := by
  have he := eps_pos
  rw [meetLine, denom_eq, numer_eq]
  generalize hcp : crs a b p = c at *
  generalize hcq : crs a b q = d at *
  by_cases h1 : |c - d| < geomEps
  · rw [if_pos h1]
    rw [abs_lt] at h1
    exact ⟨none, rfl, .inr ⟨by linarith, .inl rfl⟩⟩
  · rw [if_neg h1]
    have h2 : 0 < c - d := by linarith
    rw [fdiv_of_ne h2.ne', Outcome.bind_ret]
    refine ⟨_, rfl, ?_⟩
    by_cases h3 : 0 ≤ c
    · refine .inl ⟨at' p q (c / (c - d)), ?_, ?_, ?_⟩
      · have e1 : 0 ≤ c / (c - d) := div_nonneg h3 h2.le
        have e2 : c / (c - d) ≤ 1 := by rw [div_le_one h2]; linarith
        rw [atParam, if_neg (by push Not; constructor <;> linarith), min_eq_right e2, max_eq_right e1]
        rfl
      · exact at_segment (div_nonneg h3 h2.le) (by rw [div_le_one h2]; linarith)
      · rw [crs_at, hcp, hcq]
        field_simp
        ring
    · refine .inr ⟨by linarith, ?_⟩
      rw [atParam]
      split_ifs
      · exact .inl rfl
      · refine .inr ?_
        have e1 : c / (c - d) < 0 := div_neg_of_neg_of_pos (by linarith) h2
        rw [min_eq_right (by linarith), max_eq_left e1.le]
        simp

theorem meetLine_entry {a b p q : Pt} (hp : crs a b p < -geomEps) (hq : -geomEps ≤ crs a b q) :
    ∃ r, meetLine p q a b = .ret r ∧ ((∃ y, r = some y ∧ y ∈ segment ℝ p q ∧ crs a b y = 0) ∨ (crs a b q ≤ 0 ∧ (r = none ∨ r = some q))) := by
  have he := eps_pos
  rw [meetLine, denom_eq, numer_eq]
  generalize hcp : crs a b p = c at *
  generalize hcq : crs a b q = d at *
  by_cases h1 : |c - d| < geomEps
  · rw [if_pos h1]
    rw [abs_lt] at h1
    exact ⟨none, rfl, .inr ⟨by linarith, .inl rfl⟩⟩
  · rw [if_neg h1]
    have h2 : c - d < 0 := by linarith
    rw [fdiv_of_ne h2.ne, Outcome.bind_ret]
    refine ⟨_, rfl, ?_⟩
    by_cases h3 : 0 ≤ d
    · have e1 : 0 ≤ c / (c - d) := div_nonneg_of_nonpos (by linarith) h2.le
      have e2 : c / (c - d) ≤ 1 := by rw [div_le_one_of_neg h2]; linarith
      refine .inl ⟨at' p q (c / (c - d)), ?_, at_segment e1 e2, ?_⟩
      · rw [atParam, if_neg (by push Not; constructor <;> linarith), min_eq_right e2, max_eq_right e1]
        rfl
      · rw [crs_at, hcp, hcq]
        have := h2.ne
        field_simp
        ring
    · refine .inr ⟨by linarith, ?_⟩
      rw [atParam]
      split_ifs
      · exact .inl rfl
      · refine .inr ?_
        have e1 : 1 < c / (c - d) := by rw [one_lt_div_of_neg h2]; linarith
        rw [min_eq_left (by linarith), max_eq_right zero_le_one]
        simp

/-! ## What one round appends -/

variable {ε : ℝ} [hε : Fact (0 < ε)]

/-- What one round appends to the output: the cases of `clipPair`, with the point found spelled out; `ε` is the tolerance. -/
inductive Piece (ε : ℝ) (a b u v : Pt) : List Pt → Prop
  | inIn (hu : -ε ≤ crs a b u) (hv : -ε ≤ crs a b v) : Piece ε a b u v [u]
  | exit (y : Pt) (hu : -ε ≤ crs a b u) (hv : crs a b v < -ε) (hy : y ∈ segment ℝ u v) (h0 : crs a b y ≤ 0) (h1 : -ε ≤ crs a b y) : Piece ε a b u v [u, y]
  | exitOne (hu : -ε ≤ crs a b u) (hu0 : crs a b u ≤ 0) (hv : crs a b v < -ε) : Piece ε a b u v [u]
  | exitTwo (hu : -ε ≤ crs a b u) (hu0 : crs a b u ≤ 0) (hv : crs a b v < -ε) : Piece ε a b u v [u, u]
  | entry (y : Pt) (hu : crs a b u < -ε) (hv : -ε ≤ crs a b v) (hy : y ∈ segment ℝ u v) (h0 : crs a b y ≤ 0) (h1 : -ε ≤ crs a b y) : Piece ε a b u v [y]
  | entryNone (hu : crs a b u < -ε) (hv : -ε ≤ crs a b v) (hv0 : crs a b v ≤ 0) : Piece ε a b u v []
  | entryOne (hu : crs a b u < -ε) (hv : -ε ≤ crs a b v) (hv0 : crs a b v ≤ 0) : Piece ε a b u v [v]
  | outOut (hu : crs a b u < -ε) (hv : crs a b v < -ε) : Piece ε a b u v []

/-- The output for a list of sides. -/
inductive Pieces (ε : ℝ) (a b : Pt) : List (Pt × Pt) → List Pt → Prop
  | nil : Pieces ε a b [] []
  | cons {u v : Pt} {es : List (Pt × Pt)} {P O : List Pt} (h : Piece ε a b u v P) (t : Pieces ε a b es O) : Pieces ε a b ((u, v) :: es) (P ++ O)

theorem Pieces.append {a b : Pt} {es es' : List (Pt × Pt)} {O O' : List Pt} (h : Pieces ε a b es O) (h' : Pieces ε a b es' O') :
    Pieces ε a b (es ++ es') (O ++ O') := by
  induction h with
  | nil => exact h'
  | cons hp _ ih => rw [List.append_assoc, List.cons_append]; exact .cons hp ih

/-! ## Angles -/

theorem cx_segment {pt p q y : Pt} (h : y ∈ segment ℝ p q) : ∃ s t : ℝ, 0 ≤ s ∧ 0 ≤ t ∧ s + t = 1 ∧ cx pt y = s * cx pt p + t * cx pt q := by
  obtain ⟨s, t, hs, ht, hst, rfl⟩ := h
  refine ⟨s, t, hs, ht, hst, ?_⟩
  have : s = 1 - t := by linarith
  subst this
  apply Complex.ext
  · rw [Complex.add_re, Complex.re_ofReal_mul, Complex.re_ofReal_mul]
    simp only [cx, Prod.fst_add, Prod.smul_fst, smul_eq_mul]; ring
  · rw [Complex.add_im, Complex.im_ofReal_mul, Complex.im_ofReal_mul]
    simp only [cx, Prod.snd_add, Prod.smul_snd, smul_eq_mul]; ring

theorem angle_self (pt a : Pt) : angle pt a a = 0 := by
  rw [angle]
  by_cases h : cx pt a = 0
  · rw [h]; simp
  · rw [div_self h, Complex.arg_one]

theorem Off.left {pt p q y : Pt} (h : Off pt p q) (hy : y ∈ segment ℝ p q) : Off pt p y := fun hx =>
  h ((convex_segment p q).segment_subset (left_mem_segment ℝ p q) hy hx)

theorem Off.right {pt p q y : Pt} (h : Off pt p q) (hy : y ∈ segment ℝ p q) : Off pt y q := fun hx =>
  h ((convex_segment p q).segment_subset hy (right_mem_segment ℝ p q) hx)

/-- The direction of `p` seen from `pt`, turned by `u`. -/
noncomputable def phi (pt : Pt) (u : ℝ × ℝ) (p : Pt) : ℝ := Complex.arg (cx pt p * ⟨u.1, -u.2⟩)

/-- Seen from `pt`, the point `p` is on the side of `u`. -/
def Ahead (pt : Pt) (u : ℝ × ℝ) (p : Pt) : Prop := u.1 * pt.1 + u.2 * pt.2 < u.1 * p.1 + u.2 * p.2

theorem angle_ahead {pt : Pt} {u : ℝ × ℝ} {p q : Pt} (hp : Ahead pt u p) (hq : Ahead pt u q) : angle pt p q = phi pt u q - phi pt u p := by
  have hre : ∀ p, Ahead pt u p → 0 < (cx pt p * ⟨u.1, -u.2⟩).re := by
    intro p hp
    rw [Complex.mul_re]
    simp only [cx]
    rw [Ahead] at hp
    nlinarith
  rw [phi, phi, ← arg_div_of_re (hre _ hp) (hre _ hq), angle]
  have : (⟨u.1, -u.2⟩ : ℂ) ≠ 0 := by
    intro h0
    have := hre _ hp
    rw [h0, mul_zero] at this
    simp at this
  rw [mul_div_mul_right _ _ this]

theorem Ahead.segment {pt : Pt} {u : ℝ × ℝ} {p q y : Pt} (hp : Ahead pt u p) (hq : Ahead pt u q) (hy : y ∈ segment ℝ p q) : Ahead pt u y := by
  obtain ⟨s, t, hs, ht, hst, rfl⟩ := hy
  rw [Ahead] at *
  have : s = 1 - t := by linarith
  subst this
  simp only [Prod.fst_add, Prod.smul_fst, Prod.snd_add, Prod.smul_snd, smul_eq_mul]
  rcases ht.lt_or_eq with ht' | ht'
  · have f1 := mul_lt_mul_of_pos_left hq ht'
    have f2 := mul_le_mul_of_nonneg_left hp.le hs
    nlinarith
  · rw [← ht']; linarith

theorem Ahead.off {pt : Pt} {u : ℝ × ℝ} {p q : Pt} (hp : Ahead pt u p) (hq : Ahead pt u q) : Off pt p q := fun h =>
  lt_irrefl _ (hp.segment hq h)

theorem Off.ahead {pt p q : Pt} (h : Off pt p q) : ∃ u, Ahead pt u p ∧ Ahead pt u q := by
  have hc : IsClosed (segment ℝ p q) := by
    rw [← convexHull_pair]
    exact (((Set.toFinite {p, q}).isCompact_convexHull (𝕜 := ℝ))).isClosed
  obtain ⟨f, k, h1, h2⟩ := geometric_hahn_banach_point_closed (convex_segment p q) hc h
  have hf : ∀ p : Pt, f p = f (1, 0) * p.1 + f (0, 1) * p.2 := by
    intro p
    have : p = p.1 • ((1, 0) : Pt) + p.2 • ((0, 1) : Pt) := by ext <;> simp
    conv_lhs => rw [this]
    rw [map_add, map_smul, map_smul, smul_eq_mul, smul_eq_mul]; ring
  refine ⟨(f (1, 0), f (0, 1)), ?_, ?_⟩
  · have := h2 p (left_mem_segment ℝ p q)
    rw [Ahead, ← hf, ← hf]; linarith
  · have := h2 q (right_mem_segment ℝ p q)
    rw [Ahead, ← hf, ← hf]; linarith

/-- Angles add up along a segment. -/
theorem angle_split {pt p q y : Pt} (h : Off pt p q) (hy : y ∈ segment ℝ p q) : angle pt p q = angle pt p y + angle pt y q := by
  obtain ⟨u, hp, hq⟩ := Off.ahead h
  have hy := hp.segment hq hy
  rw [angle_ahead hp hq, angle_ahead hp hy, angle_ahead hy hq]; ring

/-- The outward normal of the edge. -/
def normal (a b : Pt) : ℝ × ℝ := (b.2 - a.2, -(b.1 - a.1))

theorem ahead_normal {a b pt p : Pt} (h0 : 0 < crs a b pt) (h : crs a b p ≤ 0) : Ahead pt (normal a b) p := by
  rw [Ahead, normal]
  rw [crs] at h0 h
  nlinarith

/-! ## The pen -/

/-- The sum of a function over the steps of a way. -/
noncomputable def path (g : Pt → Pt → ℝ) : List Pt → ℝ
  | [] => 0
  | [_] => 0
  | p :: q :: l => g p q + path g (q :: l)

theorem path_append (g : Pt → Pt → ℝ) (l l' : List Pt) (q : Pt) : path g (q :: (l ++ l')) = path g (q :: l) + path g ((q :: l).getLast (by simp) :: l') := by
  induction l generalizing q with
  | nil => simp [path]
  | cons p l ih => simp only [List.cons_append, path]; rw [ih, List.getLast_cons_cons]; ring

/-- The pen `q`, the last point put out, fits the vertex `u` the way has come to. -/
def Fits (ε : ℝ) (pt a b q u : Pt) : Prop := (-ε ≤ crs a b u → Off pt q u) ∧ (crs a b u < -ε → crs a b q ≤ 0)

open Classical in
/-- The angle from the pen to the vertex. -/
noncomputable def conn (ε : ℝ) (pt a b q u : Pt) : ℝ := if -ε ≤ crs a b u then angle pt q u else phi pt (normal a b) u - phi pt (normal a b) q

theorem conn_in {pt a b q u : Pt} (h : -ε ≤ crs a b u) : conn ε pt a b q u = angle pt q u := by rw [conn, if_pos h]

theorem conn_out {pt a b q u : Pt} (h : crs a b u < -ε) : conn ε pt a b q u = phi pt (normal a b) u - phi pt (normal a b) q := by
  rw [conn, if_neg (not_le.2 h)]

section Step

variable {pt a b u v : Pt} {P : List Pt} (hx : 0 < crs a b pt) (hoff : Off pt u v)

include hx hoff

theorem step_last (hP : Piece ε a b u v P) (h : P ≠ []) : Fits ε pt a b (P.getLast h) v := by
  have he := hε.out
  cases hP with
  | inIn hu hv => exact ⟨fun _ => hoff, fun h => absurd hv (not_le.2 h)⟩
  | exit y hu hv hy h0 h1y => exact ⟨fun h => absurd h (not_le.2 hv), fun _ => by simpa using h0⟩
  | exitOne hu hu0 hv => exact ⟨fun h => absurd h (not_le.2 hv), fun _ => by simpa using hu0⟩
  | exitTwo hu hu0 hv => exact ⟨fun h => absurd h (not_le.2 hv), fun _ => by simpa using hu0⟩
  | entry y hu hv hy h0 h1y => exact ⟨fun _ => Off.right hoff hy, fun h => absurd hv (not_le.2 h)⟩
  | entryNone hu hv hv0 => exact absurd rfl h
  | entryOne hu hv hv0 => exact ⟨fun _ => Off.right hoff (right_mem_segment ℝ u v), fun h => absurd hv (not_le.2 h)⟩
  | outOut hu hv => exact absurd rfl h

theorem step_nil (hP : Piece ε a b u v P) (h : P = []) {q : Pt} (hq : Fits ε pt a b q u) : Fits ε pt a b q v := by
  cases hP with
  | entryNone hu hv hv0 => exact ⟨fun _ => (ahead_normal hx (hq.2 hu)).off (ahead_normal hx hv0), fun h => absurd hv (not_le.2 h)⟩
  | outOut hu hv => exact ⟨fun h => absurd h (not_le.2 hv), fun _ => hq.2 hu⟩
  | _ => simp at h

theorem step_fits (hP : Piece ε a b u v P) {q : Pt} (hq : Fits ε pt a b q u) : Fits ε pt a b ((q :: P).getLast (by simp)) v := by
  by_cases h : P = []
  · subst h
    exact step_nil hx hoff hP rfl hq
  · rw [List.getLast_cons h]
    exact step_last hx hoff hP h

theorem step_off (hP : Piece ε a b u v P) {q : Pt} (hq : Fits ε pt a b q u) : List.IsChain (Off pt) (q :: P) := by
  have he := hε.out
  cases hP with
  | inIn hu hv => simpa using hq.1 hu
  | exit y hu hv hy h0 h1y => simpa using ⟨hq.1 hu, Off.left hoff hy⟩
  | exitOne hu hu0 hv => simpa using hq.1 hu
  | exitTwo hu hu0 hv => simpa using ⟨hq.1 hu, Off.left hoff (left_mem_segment ℝ u v)⟩
  | entry y hu hv hy h0 h1y => simpa using (ahead_normal hx (hq.2 hu)).off (ahead_normal hx h0)
  | entryNone hu hv hv0 => simp
  | entryOne hu hv hv0 => simpa using (ahead_normal hx (hq.2 hu)).off (ahead_normal hx hv0)
  | outOut hu hv => simp

theorem step_path (hP : Piece ε a b u v P) {q : Pt} (hq : Fits ε pt a b q u) :
    path (angle pt) (q :: P) + conn ε pt a b ((q :: P).getLast (by simp)) v = conn ε pt a b q u + angle pt u v := by
  have he := hε.out
  have hn : ∀ {p}, crs a b p ≤ 0 → Ahead pt (normal a b) p := fun h => ahead_normal hx h
  cases hP with
  | inIn hu hv => simp [path, conn_in hu, conn_in hv]
  | exit y hu hv hy h0 h1y =>
    simp only [path, conn_in hu, conn_out hv, List.getLast_cons_cons, List.getLast_singleton]
    rw [angle_split hoff hy, ← angle_ahead (hn h0) (hn (by linarith))]; ring
  | exitOne hu hu0 hv =>
    simp only [path, conn_in hu, conn_out hv, List.getLast_cons_cons, List.getLast_singleton]
    rw [← angle_ahead (hn hu0) (hn (by linarith))]; ring
  | exitTwo hu hu0 hv =>
    simp only [path, conn_in hu, conn_out hv, List.getLast_cons_cons, List.getLast_singleton]
    rw [← angle_ahead (hn hu0) (hn (by linarith)), angle_self]; ring
  | entry y hu hv hy h0 h1y =>
    simp only [path, conn_in hv, conn_out hu, List.getLast_cons_cons, List.getLast_singleton]
    rw [angle_split hoff hy, angle_ahead (hn (hq.2 hu)) (hn h0), angle_ahead (hn (by linarith)) (hn h0)]; ring
  | entryNone hu hv hv0 =>
    simp only [path, conn_in hv, conn_out hu, List.getLast_singleton]
    rw [angle_ahead (hn (hq.2 hu)) (hn hv0), angle_ahead (hn (by linarith)) (hn hv0)]; ring
  | entryOne hu hv hv0 =>
    simp only [path, conn_in hv, conn_out hu, List.getLast_cons_cons, List.getLast_singleton]
    rw [angle_ahead (hn (hq.2 hu)) (hn hv0), angle_self, angle_ahead (p := u) (hn (by linarith)) (hn hv0)]; ring
  | outOut hu hv =>
    simp only [path, conn_out hv, conn_out hu, List.getLast_singleton]
    rw [angle_ahead (hn (by linarith)) (hn (by linarith))]; ring

end Step

/-- The sides follow each other from `u` to `w`. -/
inductive Linked : Pt → List (Pt × Pt) → Pt → Prop
  | nil (u : Pt) : Linked u [] u
  | cons {u v w : Pt} {es : List (Pt × Pt)} (h : Linked v es w) : Linked u ((u, v) :: es) w

theorem linked_zip (a : Pt) (l : List Pt) (b : Pt) : Linked a ((a :: l).zip (l ++ [b])) b := by
  induction l generalizing a with
  | nil => exact .cons (.nil b)
  | cons c l ih => exact .cons (ih c)

theorem sides_cons (a : Pt) (l : List Pt) : sides (a :: l) = (a :: l).zip (l ++ [a]) := by
  rw [sides, List.rotate_cons_succ, List.rotate_zero]

theorem linked_sides (a : Pt) (l : List Pt) : Linked a (sides (a :: l)) a := by
  rw [sides_cons]; exact linked_zip a l a

/-- Along all sides, with the pen at `q` in the beginning. -/
theorem run_pen {pt a b : Pt} (hx : 0 < crs a b pt) {es : List (Pt × Pt)} {O : List Pt} (hO : Pieces ε a b es O) {u w : Pt} (hl : Linked u es w)
    (hoff : ∀ e ∈ es, Off pt e.1 e.2) {q : Pt} (hq : Fits ε pt a b q u) :
    Fits ε pt a b ((q :: O).getLast (by simp)) w ∧ List.IsChain (Off pt) (q :: O) ∧
    path (angle pt) (q :: O) + conn ε pt a b ((q :: O).getLast (by simp)) w = conn ε pt a b q u + (es.map fun e => angle pt e.1 e.2).sum := by
  induction hO generalizing u q with
  | nil =>
    cases hl
    exact ⟨hq, by simp, by simp [path]⟩
  | @cons u' v es P O hP hO ih =>
    cases hl with
    | cons hl =>
    have h1 := hoff _ List.mem_cons_self
    obtain ⟨i1, i2, i3⟩ := ih hl (fun e he => hoff e (List.mem_cons_of_mem _ he)) (step_fits hx h1 hP hq)
    have hlast : (q :: (P ++ O)).getLast (by simp) = ((q :: P).getLast (by simp) :: O).getLast (by simp) := by
      by_cases h : O = []
      · subst h; simp
      · rw [List.getLast_cons (by simp [h]), List.getLast_append_of_ne_nil _ h, List.getLast_cons h]
    refine ⟨by rw [hlast]; exact i1, ?_, ?_⟩
    · rw [← List.cons_append, List.isChain_append]
      refine ⟨step_off hx h1 hP hq, ?_, ?_⟩
      · rw [List.isChain_cons] at i2; exact i2.2
      · intro x hx' y hy
        rw [List.isChain_cons] at i2
        rw [List.getLast?_eq_some_getLast (by simp)] at hx'
        simp only [Option.mem_def, Option.some.injEq] at hx'
        rw [← hx']
        exact i2.1 y hy
    · rw [hlast, path_append, add_assoc, i3, ← add_assoc, step_path hx h1 hP hq]
      simp only [List.map_cons, List.sum_cons]; ring

/-- The last point put out fits the last vertex. -/
theorem run_last {pt a b : Pt} (hx : 0 < crs a b pt) {es : List (Pt × Pt)} {O : List Pt} (hO : Pieces ε a b es O) {u w : Pt} (hl : Linked u es w)
    (hoff : ∀ e ∈ es, Off pt e.1 e.2) (h : O ≠ []) : Fits ε pt a b (O.getLast h) w := by
  induction hO generalizing u with
  | nil => exact absurd rfl h
  | @cons u' v es P O hP hO ih =>
    cases hl with
    | cons hl =>
    have h1 := hoff _ List.mem_cons_self
    have hoff' : ∀ e ∈ es, Off pt e.1 e.2 := fun e he => hoff e (List.mem_cons_of_mem _ he)
    by_cases hP0 : P = []
    · subst hP0
      exact ih hl hoff' h
    · have := (run_pen hx hO hl hoff' (step_last hx h1 hP hP0)).1
      by_cases h : O = []
      · subst h
        simpa using this
      · rw [List.getLast_cons h] at this
        rw [List.getLast_append_of_ne_nil _ h]
        exact this

/-! ## Closing the way -/

theorem sides_snoc_perm (l : List Pt) (z : Pt) : (sides (l ++ [z])).Perm ((z :: l).zip (l ++ [z])) := by
  rw [← sides_cons]
  have h : l ++ [z] = (z :: l).rotate 1 := by rw [List.rotate_cons_succ, List.rotate_zero]
  have h2 : sides ((z :: l).rotate 1) = (sides (z :: l)).rotate 1 := by
    rw [sides, sides, List.zip_eq_zipWith, List.zip_eq_zipWith, List.zipWith_rotate_distrib _ _ _ _ (by simp)]
  rw [h, h2]
  exact List.rotate_perm _ _

theorem path_zip (g : Pt → Pt → ℝ) (q : Pt) (l : List Pt) : path g (q :: l) = (((q :: l).zip l).map fun e => g e.1 e.2).sum := by
  induction l generalizing q with
  | nil => simp [path]
  | cons p l ih => simp only [path, List.zip_cons_cons, List.map_cons, List.sum_cons]; rw [ih]

theorem chain_zip {r : Pt → Pt → Prop} {q : Pt} {l : List Pt} (h : List.IsChain r (q :: l)) : ∀ e ∈ (q :: l).zip l, r e.1 e.2 := by
  induction l generalizing q with
  | nil => simp
  | cons p l ih =>
    rw [List.isChain_cons_cons] at h
    intro e he
    rw [List.zip_cons_cons, List.mem_cons] at he
    rcases he with rfl | he
    · exact h.1
    · exact ih h.2 e he

theorem zip_snoc (z : Pt) (l : List Pt) : (z :: (l ++ [z])).zip (l ++ [z]) = (z :: l).zip (l ++ [z]) := by
  have h : ∀ (l m : List Pt) (x : Pt) (k : List Pt), l.length = m.length → (l ++ k).zip m = l.zip m := by
    intro l m x k h
    induction l generalizing m with
    | nil => rw [List.length_nil] at h; rw [List.length_eq_zero_iff.1 h.symm]; simp
    | cons a l ih =>
      cases m with
      | nil => simp at h
      | cons b m => simp only [List.cons_append, List.zip_cons_cons]; rw [ih m (by simpa using h)]
  exact h (z :: l) (l ++ [z]) z [z] (by simp)

theorem Pieces.mem {a b : Pt} {es : List (Pt × Pt)} {O : List Pt} (h : Pieces ε a b es O) : ∀ p ∈ O, -ε ≤ crs a b p ∧ ∃ e ∈ es, p ∈ segment ℝ e.1 e.2 := by
  have he := hε.out
  induction h with
  | nil => simp
  | @cons u v es P O hP hO ih =>
    intro p hp
    rcases List.mem_append.1 hp with hp | hp
    · have hl := left_mem_segment ℝ u v
      have hr := right_mem_segment ℝ u v
      have : -ε ≤ crs a b p ∧ p ∈ segment ℝ u v := by
        cases hP with
        | inIn hu hv => rw [List.mem_singleton] at hp; subst hp; exact ⟨hu, hl⟩
        | exit y hu hv hy h0 h1y =>
          simp only [List.mem_cons, List.not_mem_nil, or_false] at hp
          rcases hp with rfl | rfl
          · exact ⟨hu, hl⟩
          · exact ⟨by linarith, hy⟩
        | exitOne hu hu0 hv => rw [List.mem_singleton] at hp; subst hp; exact ⟨hu, hl⟩
        | exitTwo hu hu0 hv =>
          simp only [List.mem_cons, List.not_mem_nil, or_false] at hp
          rcases hp with rfl | rfl <;> exact ⟨hu, hl⟩
        | entry y hu hv hy h0 h1y => rw [List.mem_singleton] at hp; subst hp; exact ⟨by linarith, hy⟩
        | entryNone hu hv hv0 => simp at hp
        | entryOne hu hv hv0 => rw [List.mem_singleton] at hp; subst hp; exact ⟨hv, hr⟩
        | outOut hu hv => simp at hp
      exact ⟨this.1, (u, v), List.mem_cons_self, this.2⟩
    · obtain ⟨h1, e, h2, h3⟩ := ih p hp
      exact ⟨h1, e, List.mem_cons_of_mem _ h2, h3⟩

theorem Pieces.inside {a b : Pt} {es : List (Pt × Pt)} {O : List Pt} (h : Pieces ε a b es O) (hin : ∀ e ∈ es, -ε ≤ crs a b e.1 ∧ -ε ≤ crs a b e.2) :
    O = es.map Prod.fst := by
  induction h with
  | nil => rfl
  | @cons u v es P O hP hO ih =>
    obtain ⟨h1, h2⟩ := hin _ List.mem_cons_self
    rw [ih fun e he => hin e (List.mem_cons_of_mem _ he), List.map_cons]
    dsimp only at h1 h2
    cases hP with
    | inIn hu hv => rfl
    | exit y hu hv hy h0 h1y => linarith
    | exitOne hu hu0 hv => linarith
    | exitTwo hu hu0 hv => linarith
    | entry y hu hv hy h0 h1y => linarith
    | entryNone hu hv hv0 => linarith
    | entryOne hu hv hv0 => linarith
    | outOut hu hv => linarith

theorem Pieces.outside {a b : Pt} {es : List (Pt × Pt)} {O : List Pt} (h : Pieces ε a b es O) (hin : ∀ e ∈ es, crs a b e.1 < -ε ∧ crs a b e.2 < -ε) :
    O = [] := by
  induction h with
  | nil => rfl
  | @cons u v es P O hP hO ih =>
    obtain ⟨h1, h2⟩ := hin _ List.mem_cons_self
    rw [ih fun e he => hin e (List.mem_cons_of_mem _ he)]
    dsimp only at h1 h2
    cases hP with
    | inIn hu hv => linarith
    | exit y hu hv hy h0 h1y => linarith
    | exitOne hu hu0 hv => linarith
    | exitTwo hu hu0 hv => linarith
    | entry y hu hv hy h0 h1y => linarith
    | entryNone hu hv hv0 => linarith
    | entryOne hu hv hv0 => linarith
    | outOut hu hv => rfl

theorem Pieces.all_out {a b : Pt} {es : List (Pt × Pt)} {O : List Pt} (h : Pieces ε a b es O) (h0 : O = []) : ∀ e ∈ es, crs a b e.1 < -ε := by
  induction h with
  | nil => simp
  | @cons u v es P O hP hO ih =>
    obtain ⟨h1, h2⟩ := List.append_eq_nil_iff.1 h0
    intro e he
    rcases List.mem_cons.1 he with rfl | he
    · cases hP with
      | entryNone hu hv hv0 => exact hu
      | outOut hu hv => exact hu
      | _ => simp at h1
    · exact ih h2 e he

/-- One half-plane: points well inside keep their winding number. -/
theorem pieces_wind {poly : List Pt} {a b pt : Pt} (hx : 0 < crs a b pt) (hoff : ∀ e ∈ sides poly, Off pt e.1 e.2) {out : List Pt}
    (hO : Pieces ε a b (sides poly) out) : wind out pt = wind poly pt ∧ ∀ e ∈ sides out, Off pt e.1 e.2 := by
  by_cases h0 : out = []
  · have hall := hO.all_out h0
    subst h0
    refine ⟨?_, by simp [sides]⟩
    have hw : wind ([] : List Pt) pt = 0 := rfl
    rw [hw, eq_comm]
    refine wind_separated (u := normal a b) fun p hp => ?_
    have : p ∈ (sides poly).map Prod.fst := by rw [map_fst_sides]; exact hp
    obtain ⟨e, he, rfl⟩ := List.mem_map.1 this
    have hlt := hall e he
    exact ahead_normal hx (by linarith [hε.out])
  · cases poly with
    | nil => cases hO; exact absurd rfl h0
    | cons v0 l =>
    have hl := linked_sides v0 l
    have hlast := run_last hx hO hl hoff h0
    obtain ⟨h1, h2, h3⟩ := run_pen hx hO hl hoff hlast
    obtain ⟨m, z, rfl⟩ : ∃ m z, out = m ++ [z] := ⟨_, _, (List.dropLast_append_getLast h0).symm⟩
    have hz : (m ++ [z]).getLast h0 = z := by simp
    rw [hz] at h2 h3
    have hz' : (z :: (m ++ [z])).getLast (by simp) = z := by simp
    rw [hz'] at h3
    have hperm := sides_snoc_perm m z
    have hoff' : ∀ e ∈ sides (m ++ [z]), Off pt e.1 e.2 := by
      intro e he
      have := hperm.mem_iff.1 he
      rw [← zip_snoc] at this
      exact chain_zip h2 e this
    refine ⟨?_, hoff'⟩
    have e1 := wind_angle hoff'
    have e2 := wind_angle hoff
    rw [(hperm.map fun e => angle pt e.1 e.2).sum_eq, ← zip_snoc, ← path_zip] at e1
    have : 2 * Real.pi * (wind (m ++ [z]) pt : ℝ) = 2 * Real.pi * (wind (v0 :: l) pt : ℝ) := by rw [e1, e2]; linarith
    have := mul_left_cancel₀ (by have := Real.pi_pos; positivity) this
    exact_mod_cast this

/-! ## The clipping of `PolygonOps.h` -/

instance : Fact (0 < geomEps) := ⟨eps_pos⟩

theorem clipPair_piece (a b u v : Pt) : ∃ P, Piece geomEps a b u v P ∧ ∀ out, clipPair a b out u v = .ret (out ++ P) := by
  by_cases hu : -geomEps ≤ crs a b u <;> by_cases hv : -geomEps ≤ crs a b v
  · exact ⟨_, .inIn hu hv, fun out => by simp [clipPair, isInside, hu, hv]⟩
  · obtain ⟨r, e, ⟨y, rfl, h1, h2⟩ | ⟨h1, rfl | rfl⟩⟩ := meetLine_exit hu (not_le.1 hv)
    · exact ⟨_, .exit y hu (not_le.1 hv) h1 h2.le (by rw [h2]; linarith [eps_pos]), fun out => by simp [clipPair, isInside, hu, hv, e]⟩
    · exact ⟨_, .exitOne hu h1 (not_le.1 hv), fun out => by simp [clipPair, isInside, hu, hv, e]⟩
    · exact ⟨_, .exitTwo hu h1 (not_le.1 hv), fun out => by simp [clipPair, isInside, hu, hv, e]⟩
  · obtain ⟨r, e, ⟨y, rfl, h1, h2⟩ | ⟨h1, rfl | rfl⟩⟩ := meetLine_entry (not_le.1 hu) hv
    · exact ⟨_, .entry y (not_le.1 hu) hv h1 h2.le (by rw [h2]; linarith [eps_pos]), fun out => by simp [clipPair, isInside, hu, hv, e]⟩
    · exact ⟨_, .entryNone (not_le.1 hu) hv h1, fun out => by simp [clipPair, isInside, hu, hv, e]⟩
    · exact ⟨_, .entryOne (not_le.1 hu) hv h1, fun out => by simp [clipPair, isInside, hu, hv, e]⟩
  · exact ⟨_, .outOut (not_le.1 hu) (not_le.1 hv), fun out => by simp [clipPair, isInside, hu, hv]⟩

theorem clipEdge_pieces (poly : List Pt) (a b : Pt) : ∃ out, clipEdge poly a b = .ret out ∧ Pieces geomEps a b (sides poly) out := by
  obtain ⟨n, f, rfl⟩ := exists_tab poly ((0, 0) : Pt)
  rw [clipEdge, length_tab, sides_tab]
  by_cases hn : n = 0
  · subst hn
    exact ⟨[], rfl, .nil⟩
  rw [if_neg hn]
  obtain ⟨t, h1, h2⟩ := forRange_rule (fun k (s : List Pt) => Pieces geomEps a b (tab k (fun i => (f i, f ((i + 1) % n)))) s) n [] (clipStep a b (tab n f)) .nil (by
    intro i s hi hs
    obtain ⟨P, hP, hc⟩ := clipPair_piece a b (f i) (f ((i + 1) % n))
    refine ⟨s ++ P, ?_, ?_⟩
    · rw [clipStep, index_tab _ hi, Outcome.bind_ret, length_tab, index_tab _ (Nat.mod_lt _ (by omega)), Outcome.bind_ret, hc]
    · have : tab (i + 1) (fun i => (f i, f ((i + 1) % n))) = tab i (fun i => (f i, f ((i + 1) % n))) ++ [(f i, f ((i + 1) % n))] := by
        simp [tab, List.range_succ]
      rw [this]
      have h := Pieces.cons hP (Pieces.nil (ε := geomEps) (a := a) (b := b))
      rw [List.append_nil] at h
      exact hs.append h)
  exact ⟨t, h1, h2⟩

/-- One half-plane: points well inside keep their winding number. -/
theorem clipEdge_wind {poly : List Pt} {a b pt : Pt} (hx : 0 < crs a b pt) (hoff : ∀ e ∈ sides poly, Off pt e.1 e.2) {out : List Pt}
    (h : clipEdge poly a b = .ret out) : wind out pt = wind poly pt ∧ ∀ e ∈ sides out, Off pt e.1 e.2 := by
  obtain ⟨out', e, hO⟩ := clipEdge_pieces poly a b
  rw [e] at h
  cases h
  exact pieces_wind hx hoff hO

end Verif.CompGeo.Clip
