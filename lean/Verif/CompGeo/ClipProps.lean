import Verif.CompGeo.ClipLemmas
import Verif.CompGeo.PolygonShape
import Verif.CompGeo.HullProps
import Mathlib.Tactic

/-!
# C117: clipping polygons
-/

set_option autoImplicit false

namespace Verif.CompGeo.Clip

open Verif.CompGeo.Poly

/-! ## The loop over the sides of the clip region -/

theorem sides_take (clip : List Pt) (i : ℕ) (hi : i < clip.length) : ∃ p q, Outcome.index clip i = .ret p ∧
    Outcome.index clip ((i + 1) % clip.length) = .ret q ∧ (p, q) ∈ sides clip ∧ (sides clip).take (i + 1) = (sides clip).take i ++ [(p, q)] := by
  obtain ⟨n, f, rfl⟩ := exists_tab clip ((0, 0) : Pt)
  rw [length_tab] at *
  refine ⟨_, _, index_tab _ hi, index_tab _ (Nat.mod_lt _ (by omega)), ?_, ?_⟩
  · rw [sides_tab]
    exact List.mem_map.2 ⟨i, List.mem_range.2 hi, rfl⟩
  · rw [sides_tab, tab, ← List.map_take, ← List.map_take, List.take_range, List.take_range, min_eq_left (by omega), min_eq_left (by omega),
      List.range_succ, List.map_append]
    rfl

theorem hull_of_sides {poly out : List Pt} {a b : Pt} {ε : ℝ} [Fact (0 < ε)] (h : Pieces ε a b (sides poly) out) : ∀ p ∈ out, p ∈ convexHull ℝ {p | p ∈ poly} := by
  intro p hp
  obtain ⟨-, e, he, hs⟩ := h.mem p hp
  obtain ⟨m1, m2⟩ := mem_sides he
  exact segment_subset_convexHull (s := {p | p ∈ poly}) m1 m2 hs

theorem crs_hull {v : List Pt} {a b : Pt} {c : ℝ} (h : ∀ p ∈ v, c ≤ crs a b p) {x : Pt} (hx : x ∈ convexHull ℝ {p | p ∈ v}) : c ≤ crs a b x := by
  refine convexHull_min (t := {p | c ≤ crs a b p}) h ?_ hx
  intro p hp q hq s t hs ht hst
  obtain ⟨s', t', h1, h2, h3, h4⟩ := crs_segment (a := a) (b := b) (show s • p + t • q ∈ segment ℝ p q from ⟨s, t, hs, ht, hst, rfl⟩)
  change c ≤ crs a b _
  rw [h4]
  have e1 := mul_le_mul_of_nonneg_left (show c ≤ crs a b p from hp) h1
  have e2 := mul_le_mul_of_nonneg_left (show c ≤ crs a b q from hq) h2
  have e3 : c = s' * c + t' * c := by rw [← add_mul, h3, one_mul]
  linarith

/-- What is known after some rounds. -/
structure After (subject : List Pt) (es : List (Pt × Pt)) (out : List Pt) : Prop where
  hull : ∀ p ∈ out, p ∈ convexHull ℝ {p | p ∈ subject}
  half : ∀ e ∈ es, ∀ p ∈ out, -geomEps ≤ crs e.1 e.2 p
  wind : ∀ pt, (∀ e ∈ es, 0 < crs e.1 e.2 pt) → (∀ e ∈ sides subject, Off pt e.1 e.2) → wind out pt = wind subject pt ∧ ∀ e ∈ sides out, Off pt e.1 e.2

theorem clip_loop (subject clip : List Pt) : ∃ out, forRange clip.length subject (clipRound clip) = .ret out ∧ After subject (sides clip) out := by
  obtain ⟨t, h1, h2⟩ := forRange_rule (fun k (s : List Pt) => After subject ((sides clip).take k) s) clip.length subject (clipRound clip)
    ⟨fun p hp => subset_convexHull ℝ _ hp, by simp, fun pt _ h => ⟨rfl, h⟩⟩ (by
      intro i s hi hs
      obtain ⟨p, q, e1, e2, -, e4⟩ := sides_take clip i hi
      rw [clipRound]
      by_cases h0 : s = []
      · subst h0
        refine ⟨[], if_pos rfl, ⟨by simp, by simp, fun pt h1 h2 => hs.wind pt (fun e he => h1 e ?_) h2⟩⟩
        rw [e4]; exact List.mem_append_left _ he
      · rw [if_neg h0, e1, Outcome.bind_ret, e2, Outcome.bind_ret]
        obtain ⟨out, h1, h2⟩ := clipEdge_pieces s p q
        refine ⟨out, h1, ?_, ?_, ?_⟩
        · intro y hy
          exact convexHull_min (fun z hz => hs.hull z hz) (convex_convexHull ℝ _) (hull_of_sides h2 y hy)
        · intro e he y hy
          rw [e4] at he
          rcases List.mem_append.1 he with he | he
          · exact crs_hull (hs.half e he) (hull_of_sides h2 y hy)
          · rw [List.mem_singleton] at he
            subst he
            exact (h2.mem y hy).1
        · intro pt g1 g2
          rw [e4] at g1
          obtain ⟨w1, w2⟩ := hs.wind pt (fun e he => g1 e (List.mem_append_left _ he)) g2
          obtain ⟨w3, w4⟩ := clipEdge_wind (g1 (p, q) (List.mem_append_right _ (by simp))) w2 h1
          exact ⟨w3.trans w1, w4⟩)
  rw [List.take_of_length_le (by simp [sides])] at h2
  exact ⟨t, h1, h2⟩

theorem wind_short {v : List Pt} (h : v.length < 3) (pt : Pt) : wind v pt = 0 :=
  short_sum _ (fun a b => winds_swap pt a b) (fun a => winds_self pt a) h

theorem clip_after (subject clip : List Pt) (h1 : 3 ≤ subject.length) (h2 : 3 ≤ clip.length) :
    ∃ out, clipPolygon subject clip = .ret out ∧ (out = [] ∨ 3 ≤ out.length) ∧ (∀ p ∈ out, p ∈ convexHull ℝ {p | p ∈ subject}) ∧
    (∀ e ∈ sides clip, ∀ p ∈ out, -geomEps ≤ crs e.1 e.2 p) ∧
    ∀ pt, (∀ e ∈ sides clip, 0 < crs e.1 e.2 pt) → (∀ e ∈ sides subject, Off pt e.1 e.2) → wind out pt = wind subject pt := by
  obtain ⟨out, e, h⟩ := clip_loop subject clip
  rw [clipPolygon, if_neg (by omega), e, Outcome.bind_ret]
  by_cases h3 : 3 ≤ out.length
  · rw [if_pos h3]
    exact ⟨out, rfl, .inr h3, h.hull, h.half, fun pt g1 g2 => (h.wind pt g1 g2).1⟩
  · rw [if_neg h3]
    refine ⟨[], rfl, .inl rfl, by simp, by simp, fun pt g1 g2 => ?_⟩
    rw [← (h.wind pt g1 g2).1, wind_short (v := out) (by omega)]
    rfl

theorem contains_wind {v w : List Pt} {pt : Pt} (h : wind v pt = wind w pt) : contains v pt = contains w pt := by
  obtain ⟨b, n, e1, e2, e3⟩ := contains_spec v pt
  obtain ⟨b', n', f1, f2, f3⟩ := contains_spec w pt
  rw [windingNumber_eq, Outcome.ret.injEq] at e2 f2
  rw [e1, f1]
  congr 1
  rw [Bool.eq_iff_iff, e3, f3, ← e2, ← f2, h]

/-! ## The property -/

/-- **C117.**  Clipping any polygon at any clip region with at least three vertices: the result is empty or has at least three vertices, all of
them in the convex hull of the polygon and at most the tolerance to the right of the sides of the clip region. -/
theorem clip_vertices (subject clip : List Pt) (h1 : 3 ≤ subject.length) (h2 : 3 ≤ clip.length) :
    ∃ out, clipPolygon subject clip = .ret out ∧ (out = [] ∨ 3 ≤ out.length) ∧ (∀ p ∈ out, p ∈ convexHull ℝ {p | p ∈ subject}) ∧
    ∀ e ∈ sides clip, ∀ p ∈ out, -(1 / 10 ^ 10) ≤ area2 e.1 e.2 p := by
  obtain ⟨out, e, h3, h4, h5, -⟩ := clip_after subject clip h1 h2
  refine ⟨out, e, h3, h4, fun e he p hp => ?_⟩
  have := h5 e he p hp
  rwa [crs_side, geomEps] at this

/-- **C117.**  Inside the clip region the result is the polygon: every point strictly to the left of all sides of the clip region, and on no side of
the polygon, has the same winding number for the result as for the polygon and is contained in the one if in the other.  (With multiplicity: also
for polygons that cross themselves or fall into several pieces.) -/
theorem clip_inside (subject clip : List Pt) (h1 : 3 ≤ subject.length) (h2 : 3 ≤ clip.length) (pt : Pt)
    (hin : ∀ e ∈ sides clip, 0 < area2 e.1 e.2 pt) (hoff : ∀ e ∈ sides subject, pt ∉ segment ℝ e.1 e.2) :
    ∃ out, clipPolygon subject clip = .ret out ∧ windingNumber out pt = windingNumber subject pt ∧ contains out pt = contains subject pt := by
  obtain ⟨out, e, -, -, -, h⟩ := clip_after subject clip h1 h2
  have := h pt (fun e he => by rw [crs_side]; exact hin e he) hoff
  exact ⟨out, e, by rw [windingNumber_eq, windingNumber_eq, this], contains_wind this⟩

/-- **C117.**  Outside the clip region there is nothing: points to the right of a side of the clip region by more than the tolerance have winding
number zero. -/
theorem clip_outside (subject clip : List Pt) (h1 : 3 ≤ subject.length) (h2 : 3 ≤ clip.length) (pt : Pt) (e : Pt × Pt) (he : e ∈ sides clip)
    (hout : area2 e.1 e.2 pt < -(1 / 10 ^ 10)) :
    ∃ out, clipPolygon subject clip = .ret out ∧ windingNumber out pt = .ret 0 ∧ contains out pt = .ret false := by
  obtain ⟨out, e1, -, -, h, -⟩ := clip_after subject clip h1 h2
  refine ⟨out, e1, contains_hull out pt fun hm => ?_⟩
  have := crs_hull (h e he) hm
  rw [crs_side, geomEps] at this
  linarith

/-- **C117.**  For a clip region that is convex and given counterclockwise the result contains the points that the polygon and the clip region
contain, and no other ones (points on the sides of the polygon, and points at the sides of the clip region closer than the tolerance, left aside). -/
theorem clip_spec (subject clip : List Pt) (h1 : 3 ≤ subject.length) (h2 : 3 ≤ clip.length) (hc : Convex clip) (pt : Pt)
    (hoff : ∀ e ∈ sides subject, pt ∉ segment ℝ e.1 e.2)
    (hclear : (∀ e ∈ sides clip, 0 < area2 e.1 e.2 pt) ∨ ∃ e ∈ sides clip, area2 e.1 e.2 pt < -(1 / 10 ^ 10)) :
    ∃ out b1 b2, clipPolygon subject clip = .ret out ∧ contains subject pt = .ret b1 ∧ contains clip pt = .ret b2 ∧
      contains out pt = .ret (b1 && b2) := by
  obtain ⟨b1, -, e1, -⟩ := contains_spec subject pt
  rcases hclear with h | ⟨e, he, h⟩
  · obtain ⟨out, g1, -, g2⟩ := clip_inside subject clip h1 h2 pt h hoff
    exact ⟨out, b1, true, g1, e1, (convex_inside clip hc (by rintro rfl; simp at h2) pt h).2, by rw [g2, e1, Bool.and_true]⟩
  · obtain ⟨out, g1, -, g2⟩ := clip_outside subject clip h1 h2 pt e he h
    exact ⟨out, b1, false, g1, e1, (convex_outside clip hc pt e he (by linarith)).2, by rw [g2, Bool.and_false]⟩

/-- **C117.**  A polygon inside the clip region is returned as it is. -/
theorem clip_unchanged (subject clip : List Pt) (h1 : 3 ≤ subject.length) (h2 : 3 ≤ clip.length)
    (h : ∀ e ∈ sides clip, ∀ p ∈ subject, 0 ≤ area2 e.1 e.2 p) : clipPolygon subject clip = .ret subject := by
  have he := eps_pos
  obtain ⟨t, g1, g2⟩ := forRange_rule (fun _ (s : List Pt) => s = subject) clip.length subject (clipRound clip) rfl (by
    rintro i s hi rfl
    obtain ⟨p, q, e1, e2, e3, -⟩ := sides_take clip i hi
    refine ⟨s, ?_, rfl⟩
    have h0 : s ≠ [] := by rintro rfl; simp at h1
    rw [clipRound, if_neg h0, e1, Outcome.bind_ret, e2, Outcome.bind_ret]
    obtain ⟨out, k1, k2⟩ := clipEdge_pieces s p q
    rw [k1, k2.inside, map_fst_sides]
    intro e hm
    obtain ⟨m1, m2⟩ := mem_sides hm
    have a1 := h _ e3 _ m1
    have a2 := h _ e3 _ m2
    dsimp only at a1 a2
    rw [crs_side, crs_side]
    constructor <;> linarith)
  rw [clipPolygon, if_neg (by omega), g1, Outcome.bind_ret, g2, if_pos h1]

/-- **C117.**  Fewer than three vertices of either: the empty polygon. -/
theorem clip_short (subject clip : List Pt) (h : subject.length < 3 ∨ clip.length < 3) : clipPolygon subject clip = .ret [] := by
  rw [clipPolygon, if_pos h]

theorem mem_rect {a b c d : Pt} {e : Pt × Pt} (h : e ∈ sides [a, b, c, d]) : e = (a, b) ∨ e = (b, c) ∨ e = (c, d) ∨ e = (d, a) := by
  have : sides [a, b, c, d] = [(a, b), (b, c), (c, d), (d, a)] := rfl
  rw [this] at h
  simpa using h

/-- **C117.**  `ClipToRect`: strictly inside the rectangle the result is the polygon, and outside there is nothing (beyond the tolerance, which is
an area: a distance of `1e-10` divided by the length of the side). -/
theorem clipToRect_spec (subject : List Pt) (h1 : 3 ≤ subject.length) (minX minY maxX maxY : ℝ) (hX : minX < maxX) (hY : minY < maxY) :
    ∃ out, clipToRect subject minX minY maxX maxY = .ret out ∧
      (∀ p ∈ out, -(1 / 10 ^ 10) ≤ (maxX - minX) * (p.2 - minY) ∧ -(1 / 10 ^ 10) ≤ (maxX - minX) * (maxY - p.2) ∧
        -(1 / 10 ^ 10) ≤ (maxY - minY) * (p.1 - minX) ∧ -(1 / 10 ^ 10) ≤ (maxY - minY) * (maxX - p.1)) ∧
      ∀ pt, minX < pt.1 → pt.1 < maxX → minY < pt.2 → pt.2 < maxY → (∀ e ∈ sides subject, pt ∉ segment ℝ e.1 e.2) →
        windingNumber out pt = windingNumber subject pt ∧ contains out pt = contains subject pt := by
  have h2 : 3 ≤ [((minX, minY) : Pt), (maxX, minY), (maxX, maxY), (minX, maxY)].length := by simp
  obtain ⟨out, e, -, -, h⟩ := clip_vertices subject _ h1 h2
  refine ⟨out, e, fun p hp => ?_, ?_⟩
  · have a1 := h ((minX, minY), (maxX, minY)) List.mem_cons_self p hp
    have a2 := h ((maxX, minY), (maxX, maxY)) (List.mem_cons_of_mem _ List.mem_cons_self) p hp
    have a3 := h ((maxX, maxY), (minX, maxY)) (List.mem_cons_of_mem _ (List.mem_cons_of_mem _ List.mem_cons_self)) p hp
    have a4 := h ((minX, maxY), (minX, minY)) (List.mem_cons_of_mem _ (List.mem_cons_of_mem _ (List.mem_cons_of_mem _ List.mem_cons_self))) p hp
    simp only [area2] at a1 a2 a3 a4
    refine ⟨?_, ?_, ?_, ?_⟩ <;> nlinarith
  · intro pt x1 x2 y1 y2 hoff
    obtain ⟨out', e', w1, w2⟩ := clip_inside subject _ h1 h2 pt (by
      intro e he
      rcases mem_rect he with rfl | rfl | rfl | rfl <;> simp only [area2] <;> nlinarith) hoff
    change clipPolygon _ _ = _ at e
    rw [e'] at e
    cases e
    exact ⟨w1, w2⟩

/-- The corner of the unit square cut off by a triangle: the middle of the square is in the result. -/
example : ∃ out, clipPolygon square [(0, 0), (3, 0), (0, 3)] = .ret out ∧ contains out (1 / 2, 1 / 2) = .ret true := by
  obtain ⟨out, h1, -, h2⟩ := clip_inside square [(0, 0), (3, 0), (0, 3)] (by simp [square]) (by simp) (1 / 2, 1 / 2) (by
    rw [sides_three]
    intro e he
    simp only [List.mem_cons, List.not_mem_nil, or_false] at he
    rcases he with rfl | rfl | rfl <;> norm_num [area2]) (fun e he => off_of_side (by
      rw [square_sides] at he
      simp only [List.mem_cons, List.not_mem_nil, or_false] at he
      rcases he with rfl | rfl | rfl | rfl <;> norm_num [side]))
  refine ⟨out, h1, h2.trans (convex_inside square square_convex (by simp [square]) _ ?_).2⟩
  rw [square_sides]
  intro e he
  simp only [List.mem_cons, List.not_mem_nil, or_false] at he
  rcases he with rfl | rfl | rfl | rfl <;> norm_num [area2]

/-! ## Convex regions given clockwise -/

theorem clip_gone (subject clip : List Pt) (h2 : 3 ≤ clip.length) (a b : Pt) (l : List Pt) (hcl : clip = a :: b :: l)
    (h : ∀ p ∈ subject, crs a b p < -geomEps) : clipPolygon subject clip = .ret [] := by
  rw [clipPolygon]
  by_cases h1 : subject.length < 3 ∨ clip.length < 3
  · rw [if_pos h1]
  rw [if_neg h1]
  have h0 : subject ≠ [] := by rintro rfl; simp at h1
  obtain ⟨t, g1, g2⟩ := forRange_rule (fun k (s : List Pt) => if k = 0 then s = subject else s = []) clip.length subject (clipRound clip) rfl (by
    intro i s hi hs
    refine ⟨[], ?_, by simp⟩
    by_cases h3 : i = 0
    · subst h3
      rw [if_pos rfl] at hs
      subst hs
      have e1 : Outcome.index clip 0 = .ret a := by rw [hcl]; rfl
      have e2 : Outcome.index clip ((0 + 1) % clip.length) = .ret b := by rw [Nat.mod_eq_of_lt (by omega), hcl]; rfl
      rw [clipRound, if_neg h0, e1, Outcome.bind_ret, e2, Outcome.bind_ret]
      obtain ⟨out, k1, k2⟩ := clipEdge_pieces s a b
      rw [k1, k2.outside]
      intro e hm
      obtain ⟨m1, m2⟩ := mem_sides hm
      exact ⟨h _ m1, h _ m2⟩
    · rw [if_neg h3] at hs
      subst hs
      rw [clipRound, if_pos rfl])
  rw [if_neg (by omega)] at g2
  rw [g1, Outcome.bind_ret, g2]
  simp

/-- The unit square, given clockwise. -/
def clockwise : List Pt := [(0, 0), (0, 1), (1, 1), (1, 0)]

/-- A triangle inside it. -/
noncomputable def inner : List Pt := [(1 / 4, 1 / 4), (3 / 4, 1 / 4), (1 / 2, 3 / 4)]

theorem clockwise_convex : isConvex clockwise = .ret true := by
  obtain ⟨b, h1, h2⟩ := isConvex_spec clockwise
  rw [h1, Outcome.ret.injEq, h2]
  refine ⟨by simp [clockwise], .inl ?_⟩
  intro c hc
  have : corners clockwise = [((0, 0), (0, 1), (1, 1)), ((0, 1), (1, 1), (1, 0)), ((1, 1), (1, 0), (0, 0)), ((1, 0), (0, 0), (0, 1))] := rfl
  rw [this] at hc
  simp only [List.mem_cons, List.not_mem_nil, or_false] at hc
  rcases hc with rfl | rfl | rfl | rfl <;> norm_num [area2]

theorem inner_gone : clipPolygon inner clockwise = .ret [] := by
  refine clip_gone inner clockwise (by simp [clockwise]) (0, 0) (0, 1) [(1, 1), (1, 0)] rfl ?_
  intro p hp
  simp only [inner, List.mem_cons, List.not_mem_nil, or_false] at hp
  rcases hp with rfl | rfl | rfl <;> norm_num [crs, geomEps]

/-- **C117, the disagreement.**  The comments ask for a convex clip region and call the result exact; the direction is not mentioned.  Clipped at a
convex region given clockwise, a triangle inside it disappears; `PolygonIntersectionApprox` returns nothing and `PolygonDifferenceApprox` the triangle
unchanged.  Given counterclockwise the triangle is returned as it should be. -/
theorem clip_clockwise_wrong : isConvex clockwise = .ret true ∧ clipPolygon inner clockwise = .ret [] ∧ intersectionApprox inner clockwise = .ret [] ∧
    differenceApprox inner clockwise = .ret [inner] ∧ clipPolygon inner clockwise.reverse = .ret inner := by
  have hi : intersectionApprox inner clockwise = .ret [] := by
    rw [intersectionApprox, clockwise_convex, Outcome.bind_ret, if_pos rfl, inner_gone, Outcome.bind_ret]
    simp
  refine ⟨clockwise_convex, inner_gone, hi, ?_, ?_⟩
  · rw [differenceApprox, hi, Outcome.bind_ret, if_pos rfl]
  · refine clip_unchanged inner clockwise.reverse (by simp [inner]) (by simp [clockwise]) ?_
    intro e he p hp
    rcases mem_rect (show e ∈ sides [(1, 0), (1, 1), (0, 1), (0, 0)] from he) with rfl | rfl | rfl | rfl <;>
      (simp only [inner, List.mem_cons, List.not_mem_nil, or_false] at hp; rcases hp with rfl | rfl | rfl <;> norm_num [area2])

/-! ## The union as a convex hull -/

theorem edge_of_sides {h : List Pt} {e : Pt × Pt} (he : e ∈ sides h) : Edge h e.1 e.2 := by
  cases h with
  | nil => simp [sides] at he
  | cons a l =>
    rw [sides_cons] at he
    rw [Edge]
    have key : ∀ (a : Pt) (l : List Pt) (b : Pt), e ∈ (a :: l).zip (l ++ [b]) → [e.1, e.2] <:+: (a :: l) ++ [b] := by
      intro a l b
      induction l generalizing a with
      | nil =>
        intro h
        simp only [List.nil_append, List.zip_cons_cons, List.zip_nil_right, List.mem_singleton] at h
        subst h
        exact List.infix_refl _
      | cons c l ih =>
        intro h
        rw [List.cons_append, List.zip_cons_cons, List.mem_cons] at h
        rcases h with rfl | h
        · exact ⟨[], l ++ [b], by simp⟩
        · exact (ih c h).trans ⟨[a], [], by simp⟩
    exact key a l a he

theorem sides_ne {v : List Pt} (hn : v.Nodup) (h2 : 2 ≤ v.length) {e : Pt × Pt} (he : e ∈ sides v) : e.1 ≠ e.2 := by
  obtain ⟨n, f, rfl⟩ := exists_tab v ((0, 0) : Pt)
  rw [length_tab] at h2
  rw [sides_tab] at he
  obtain ⟨i, hi, rfl⟩ := List.mem_map.1 he
  rw [List.mem_range] at hi
  intro h
  rw [tab] at hn
  have hinj := (List.nodup_map_iff_inj_on List.nodup_range).1 hn
  have := hinj i (List.mem_range.2 hi) ((i + 1) % n) (List.mem_range.2 (Nat.mod_lt _ (by omega))) h
  by_cases h3 : i + 1 < n
  · rw [Nat.mod_eq_of_lt h3] at this; omega
  · have h4 : i + 1 = n := by omega
    rw [h4, Nat.mod_self] at this; omega

theorem area2_affine (a b p q : Pt) (t : ℝ) : area2 a b ((1 - t) • p + t • q) = (1 - t) * area2 a b p + t * area2 a b q := by
  simp only [area2, Prod.fst_add, Prod.smul_fst, Prod.snd_add, Prod.smul_snd, smul_eq_mul]; ring

/-- The list of the corners of a convex hull is a convex polygon. -/
theorem IsHull.convex {pts h : List Pt} (hh : IsHull pts h) (h3 : 3 ≤ h.length) : Poly.Convex h := by
  refine ⟨hh.nodup, fun e he p hp n1 n2 => ?_⟩
  have hc : ∀ x, x ∈ h ↔ x ∈ (convexHull ℝ {p | p ∈ pts}).extremePoints ℝ := fun x => by rw [← hh.corners]; rfl
  have hx := (hc p).1 hp
  obtain ⟨m1, m2⟩ := mem_sides he
  have x1 := (hc _).1 m1
  have x2 := (hc _).1 m2
  have hin : ∀ x, x ∈ h → x ∈ convexHull ℝ {p | p ∈ pts} := fun x hx => ((hc x).1 hx).1
  have hpos : ∀ q ∈ convexHull ℝ {p | p ∈ pts}, 0 ≤ crs e.1 e.2 q := fun q hq => crs_hull (fun p hp => by
    rw [crs_side]; exact hh.left _ _ (edge_of_sides he) p hp) hq
  have h0 := hpos p (hin p hp)
  rw [crs_side] at h0
  refine lt_of_le_of_ne h0 fun h0 => ?_
  -- three different corners on a line: one is between the others
  have hne := sides_ne hh.nodup (by omega) he
  obtain ⟨a, b⟩ := e
  dsimp only at *
  have hext : ∀ x y z : Pt, y ∈ (convexHull ℝ {p | p ∈ pts}).extremePoints ℝ → x ∈ h → z ∈ h → y ≠ x → y ≠ z → y ∉ openSegment ℝ x z := by
    intro x y z hy hx hz hne1 hne2 hs
    have := (mem_extremePoints.1 hy).2 x (hin x hx) z (hin z hz) hs
    exact hne1 this.1.symm
  -- the parameter of p on the line
  have hline : ∃ t : ℝ, p = (1 - t) • a + t • b := by
    rw [area2] at h0
    by_cases hx1 : b.1 - a.1 = 0
    · have hy : b.2 - a.2 ≠ 0 := fun hy => hne (Prod.ext (by linarith) (by linarith))
      refine ⟨(p.2 - a.2) / (b.2 - a.2), Prod.ext ?_ ?_⟩
      · simp only [Prod.fst_add, Prod.smul_fst, smul_eq_mul]
        have hb : b.1 = a.1 := by linarith
        rw [hb] at h0 ⊢
        have : (p.1 - a.1) * (b.2 - a.2) = 0 := by linarith
        have := (mul_eq_zero.1 this).resolve_right hy
        linarith
      · simp only [Prod.snd_add, Prod.smul_snd, smul_eq_mul]
        field_simp; ring
    · refine ⟨(p.1 - a.1) / (b.1 - a.1), Prod.ext ?_ ?_⟩
      · simp only [Prod.fst_add, Prod.smul_fst, smul_eq_mul]
        field_simp; ring
      · simp only [Prod.snd_add, Prod.smul_snd, smul_eq_mul]
        field_simp
        linarith
  obtain ⟨t, ht⟩ := hline
  rcases lt_trichotomy t 0 with h | h | h
  · -- a is between p and b
    refine hext p a b x1 hp m2 (Ne.symm n1) hne ⟨1 / (1 - t), -t / (1 - t), by apply div_pos <;> linarith, by apply div_pos <;> linarith, by
      have : 1 - t ≠ 0 := by linarith
      field_simp; ring, ?_⟩
    have : 1 - t ≠ 0 := by linarith
    rw [ht]
    refine Prod.ext ?_ ?_ <;> simp only [Prod.fst_add, Prod.smul_fst, Prod.snd_add, Prod.smul_snd, smul_eq_mul] <;> field_simp <;> ring
  · rw [h] at ht
    exact n1 (by rw [ht]; simp)
  · rcases lt_trichotomy t 1 with h' | h' | h'
    · refine hext a p b hx m1 m2 n1 n2 ⟨1 - t, t, by linarith, h, by ring, ht.symm⟩
    · rw [h'] at ht
      exact n2 (by rw [ht]; simp)
    · -- b is between a and p
      refine hext a b p x2 m1 hp hne.symm (Ne.symm n2) ⟨(t - 1) / t, 1 / t, by apply div_pos <;> linarith, by apply div_pos <;> linarith, by
        have : t ≠ 0 := by linarith
        field_simp; ring, ?_⟩
      have : t ≠ 0 := by linarith
      rw [ht]
      refine Prod.ext ?_ ?_ <;> simp only [Prod.fst_add, Prod.smul_fst, Prod.snd_add, Prod.smul_snd, smul_eq_mul] <;> field_simp <;> ring

/-- An affine function that is not negative on a set and not constant is positive in its interior. -/
theorem area2_interior {s : Set Pt} {a b : Pt} (hab : a ≠ b) (h : ∀ q ∈ s, 0 ≤ area2 a b q) {x : Pt} (hx : x ∈ interior s) : 0 < area2 a b x := by
  obtain ⟨r, hr, hb⟩ := Metric.isOpen_iff.1 isOpen_interior x hx
  -- a step against the gradient
  have hg : 0 < (b.1 - a.1) ^ 2 + (b.2 - a.2) ^ 2 := by
    by_contra hc
    have e1 : (b.1 - a.1) = 0 := by nlinarith [sq_nonneg (b.1 - a.1), sq_nonneg (b.2 - a.2)]
    have e2 : (b.2 - a.2) = 0 := by nlinarith [sq_nonneg (b.1 - a.1), sq_nonneg (b.2 - a.2)]
    exact hab (Prod.ext (by linarith) (by linarith))
  have hM : 0 < |b.1 - a.1| + |b.2 - a.2| + 1 := by positivity
  set k := r / (2 * (|b.1 - a.1| + |b.2 - a.2| + 1)) with hk
  have hkpos : 0 < k := by positivity
  have hkM : k * (|b.1 - a.1| + |b.2 - a.2| + 1) = r / 2 := by rw [hk]; field_simp
  have hy : ((x.1 + k * (b.2 - a.2), x.2 - k * (b.1 - a.1)) : Pt) ∈ s := by
    apply interior_subset
    apply hb
    rw [Metric.mem_ball, Prod.dist_eq, Real.dist_eq, Real.dist_eq, max_lt_iff]
    have a1 := abs_nonneg (b.1 - a.1)
    have a2 := abs_nonneg (b.2 - a.2)
    constructor
    · rw [show x.1 + k * (b.2 - a.2) - x.1 = k * (b.2 - a.2) by ring, abs_mul, abs_of_pos hkpos]
      nlinarith
    · rw [show x.2 - k * (b.1 - a.1) - x.2 = -(k * (b.1 - a.1)) by ring, abs_neg, abs_mul, abs_of_pos hkpos]
      nlinarith
  have := h _ hy
  simp only [area2] at this ⊢
  nlinarith

/-- **C117.**  `PolygonUnionApprox` returns the convex hull of all vertices: for vertices as in C49, the polygon returned contains the interior of the
convex hull of both polygons and nothing outside of it. -/
theorem union_spec (a b : List Pt) (hsep : Separated (a ++ b)) (h3 : 3 ≤ (a ++ b).length) :
    ∃ h, IsHull (a ++ b) h ∧ unionApprox a b = .ret (if 3 ≤ h.length then [h] else []) ∧
      (3 ≤ h.length → (∀ x ∈ interior (convexHull ℝ {p | p ∈ a ++ b}), contains h x = .ret true) ∧
        ∀ x ∉ convexHull ℝ {p | p ∈ a ++ b}, contains h x = .ret false) := by
  obtain ⟨h, e1, hh⟩ := hull_correct_partial (a ++ b) hsep (.inl h3)
  obtain ⟨c1, g1, -⟩ := isConvex_spec a
  obtain ⟨c2, g2, -⟩ := isConvex_spec b
  refine ⟨h, hh, ?_, fun hl => ⟨fun x hx => ?_, fun x hx => ?_⟩⟩
  · rw [unionApprox, g1, Outcome.bind_ret, g2, Outcome.bind_ret, hullOf, e1, Outcome.bind_ret]
  · refine (convex_inside h (IsHull.convex hh hl) (by rintro rfl; simp at hl) x fun e he => ?_).2
    refine area2_interior (sides_ne hh.nodup (by omega) he) (fun q hq => ?_) hx
    have := crs_hull (a := e.1) (b := e.2) (c := 0) (fun p hp => by rw [crs_side]; exact hh.left _ _ (edge_of_sides he) p hp) hq
    rwa [crs_side] at this
  · refine (contains_hull h x fun hm => hx ?_).2
    refine convexHull_min (fun p hp => ?_) (convex_convexHull ℝ _) hm
    have : p ∈ (convexHull ℝ {p | p ∈ a ++ b}).extremePoints ℝ := by rw [← hh.corners]; exact hp
    exact this.1

/-- Two squares side by side, with a gap. -/
def farSquare : List Pt := [(3, 0), (4, 0), (4, 1), (3, 1)]

/-- **C117, the disagreement.**  "For convex polygons, union is convex hull (this is exact for convex!)": the union of two convex polygons with a gap
between them contains the middle of the gap. -/
theorem union_wrong : ∃ h, unionApprox square farSquare = .ret [h] ∧ contains h (2, 1 / 2) = .ret true ∧
    contains square (2, 1 / 2) = .ret false ∧ contains farSquare (2, 1 / 2) = .ret false := by
  have hpts : square ++ farSquare = [(0, 0), (1, 0), (1, 1), (0, 1), (3, 0), (4, 0), (4, 1), (3, 1)] := rfl
  have hsep : Separated (square ++ farSquare) := by
    have := separated_of_int [(0, 0), (1, 0), (1, 1), (0, 1), (3, 0), (4, 0), (4, 1), (3, 1)]
    simpa [hpts] using this
  obtain ⟨h, hh, e, hr⟩ := union_spec square farSquare hsep (by simp [square, farSquare])
  have hm : ∀ p ∈ square ++ farSquare, p ∈ convexHull ℝ {p | p ∈ square ++ farSquare} := fun p hp => subset_convexHull ℝ _ hp
  -- four corners
  have hcor : ∀ v : Pt, (v = (0, 0) ∨ v = (4, 0) ∨ v = (4, 1)) → v ∈ h := by
    intro v hv
    have : v ∈ (convexHull ℝ {p | p ∈ square ++ farSquare}).extremePoints ℝ := by
      rcases hv with rfl | rfl | rfl
      · refine extreme_of_exposed (LinearMap.fst ℝ ℝ ℝ + LinearMap.snd ℝ ℝ ℝ) (by simp [square]) ?_
        intro q hq hne
        rw [hpts] at hq
        simp only [List.mem_cons, List.not_mem_nil, or_false, Set.mem_setOf_eq] at hq
        rcases hq with rfl | rfl | rfl | rfl | rfl | rfl | rfl | rfl <;> first | exact absurd rfl hne | norm_num
      · refine extreme_of_exposed (-LinearMap.fst ℝ ℝ ℝ + LinearMap.snd ℝ ℝ ℝ) (by simp [farSquare]) ?_
        intro q hq hne
        rw [hpts] at hq
        simp only [List.mem_cons, List.not_mem_nil, or_false, Set.mem_setOf_eq] at hq
        rcases hq with rfl | rfl | rfl | rfl | rfl | rfl | rfl | rfl <;> first | exact absurd rfl hne | norm_num
      · refine extreme_of_exposed (-LinearMap.fst ℝ ℝ ℝ - LinearMap.snd ℝ ℝ ℝ) (by simp [farSquare]) ?_
        intro q hq hne
        rw [hpts] at hq
        simp only [List.mem_cons, List.not_mem_nil, or_false, Set.mem_setOf_eq] at hq
        rcases hq with rfl | rfl | rfl | rfl | rfl | rfl | rfl | rfl <;> first | exact absurd rfl hne | norm_num
    rw [← hh.corners] at this
    exact this
  have h3 : 3 ≤ h.length := by
    have hn : ([(0, 0), (4, 0), (4, 1)] : List Pt).Nodup := by norm_num
    have := (List.subperm_of_subset hn (l₂ := h) (fun v hv => hcor v (by simpa using hv))).length_le
    simpa using this
  refine ⟨h, by rw [e, if_pos h3], (hr h3).1 _ ?_, ?_, ?_⟩
  · -- a disc around the middle of the gap
    rw [mem_interior]
    refine ⟨Set.Ioo 1 3 ×ˢ Set.Ioo 0 1, ?_, isOpen_Ioo.prod isOpen_Ioo, by norm_num⟩
    rintro ⟨x, y⟩ ⟨⟨hx1, hx2⟩, hy1, hy2⟩
    dsimp only at hx1 hx2 hy1 hy2
    have hc := convex_convexHull ℝ {p : Pt | p ∈ square ++ farSquare}
    have p1 : ((1, y) : Pt) ∈ convexHull ℝ {p : Pt | p ∈ square ++ farSquare} := by
      refine hc.segment_subset (hm (1, 0) (by simp [square])) (hm (1, 1) (by simp [square])) ⟨1 - y, y, by linarith, by linarith, by ring, ?_⟩
      ext <;> simp
    have p2 : ((3, y) : Pt) ∈ convexHull ℝ {p : Pt | p ∈ square ++ farSquare} := by
      refine hc.segment_subset (hm (3, 0) (by simp [farSquare])) (hm (3, 1) (by simp [farSquare])) ⟨1 - y, y, by linarith, by linarith, by ring, ?_⟩
      ext <;> simp
      ring
    refine hc.segment_subset p1 p2 ⟨(3 - x) / 2, (x - 1) / 2, by linarith, by linarith, by ring, ?_⟩
    ext <;> simp <;> ring
  · exact (convex_outside square square_convex _ ((1, 0), (1, 1)) (by rw [square_sides]; simp) (by norm_num [area2])).2
  · refine (contains_hull farSquare _ fun hm => ?_).2
    have : (2 : ℝ) ∈ Set.Ici (3 : ℝ) := by
      have := convexHull_min (s := {p : Pt | p ∈ farSquare}) (t := {p | 3 ≤ p.1}) (by
        intro p hp
        simp only [farSquare, List.mem_cons, List.not_mem_nil, or_false, Set.mem_setOf_eq] at hp
        rcases hp with rfl | rfl | rfl | rfl <;> norm_num) (convex_halfSpace_ge (𝕜 := ℝ) (f := Prod.fst) ⟨fun _ _ => rfl, fun _ _ => rfl⟩ 3) hm
      exact this
    norm_num at this

end Verif.CompGeo.Clip
