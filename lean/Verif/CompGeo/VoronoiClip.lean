import Verif.CompGeo.Voronoi
import Verif.CompGeo.ClipProps
import Verif.CompGeo.DelaunayProps
import Mathlib.Tactic

/-!
# Voronoi diagrams: the nearest site and clipped cells
-/

set_option autoImplicit false

namespace Verif.CompGeo.Vor
open Poly Clip
open Del (sqd euclid_sqd sqd_nonneg)

/-- The site with index `i` is as near to `x` as every other. -/
def Nearest (ps : List Pt) (x : Pt) (i : ℕ) : Prop := ∃ p, ps[i]? = some p ∧ ∀ q ∈ ps, euclid x p ≤ euclid x q

/-! ## The nearest site -/

theorem dist2_sqd (s p : Pt) : dist2 s p = sqd p s := by rw [dist2, sqd]; ring

theorem nearestFrom_spec (p : Pt) : ∀ (r l : List Pt) (best : ℕ) (d : ℝ), (∃ b, l[best]? = some b ∧ sqd p b = d) → (∀ q ∈ l, d ≤ sqd p q) →
    (∀ j q, l[j]? = some q → sqd p q = d → best ≤ j) →
    ∃ b, (l ++ r)[nearestFrom p r l.length best d]? = some b ∧ (∀ q ∈ l ++ r, sqd p b ≤ sqd p q) ∧
      ∀ j q, (l ++ r)[j]? = some q → sqd p q = sqd p b → nearestFrom p r l.length best d ≤ j := by
  intro r
  induction r with
  | nil =>
    rintro l best d ⟨b, h1, rfl⟩ h2 h3
    exact ⟨b, by simpa [nearestFrom] using h1, by simpa using h2, by simpa [nearestFrom] using h3⟩
  | cons s r ih =>
    rintro l best d ⟨b, h1, h1'⟩ h2 h3
    have hb : best < l.length := by
      by_contra h
      rw [List.getElem?_eq_none (by omega)] at h1
      cases h1
    rw [nearestFrom, dist2_sqd]
    have e : l ++ s :: r = (l ++ [s]) ++ r := by simp
    have el : l.length + 1 = (l ++ [s]).length := by simp
    by_cases h : sqd p s < d
    · rw [if_pos h, e, el]
      refine ih (l ++ [s]) l.length (sqd p s) ⟨s, by simp, rfl⟩ ?_ ?_
      · intro q hq
        rcases List.mem_append.1 hq with hq | hq
        · exact h.le.trans (h2 q hq)
        · rw [List.mem_singleton.1 hq]
      · intro j q hj hq
        by_contra hlt
        rw [List.getElem?_append_left (by omega)] at hj
        have := h2 q (List.mem_of_getElem? hj)
        linarith
    · rw [if_neg h, e, el]
      refine ih (l ++ [s]) best d ⟨b, by rw [List.getElem?_append_left hb]; exact h1, h1'⟩ ?_ ?_
      · intro q hq
        rcases List.mem_append.1 hq with hq | hq
        · exact h2 q hq
        · rw [List.mem_singleton.1 hq]; exact not_lt.1 h
      · intro j q hj hq
        by_cases hlt : j < l.length
        · rw [List.getElem?_append_left hlt] at hj
          exact h3 j q hj hq
        · omega

theorem le_euclid {x p q : Pt} : euclid x p ≤ euclid x q ↔ sqd x p ≤ sqd x q := by
  rw [euclid_sqd, euclid_sqd]; exact Real.sqrt_le_sqrt_iff (sqd_nonneg _ _)

/-- **C133.**  `FindNearestSite` returns the index of a site with no site nearer, the first such index; and -1 only where there are no sites. -/
theorem nearestSite_spec (sites : List Pt) (p : Pt) : (sites = [] ∧ nearestSite sites p = -1) ∨
    ∃ i : ℕ, nearestSite sites p = i ∧ Nearest sites p i ∧ ∀ j, Nearest sites p j → i ≤ j := by
  match sites with
  | [] => exact .inl ⟨rfl, rfl⟩
  | s :: r =>
    right
    obtain ⟨b, h1, h2, h3⟩ := nearestFrom_spec p r [s] 0 (dist2 s p) ⟨s, rfl, (dist2_sqd s p).symm⟩ (by simp [dist2_sqd]) (by simp)
    refine ⟨_, rfl, ⟨b, h1, fun q hq => le_euclid.2 (h2 q hq)⟩, ?_⟩
    rintro j ⟨q, hq1, hq2⟩
    refine h3 j q hq1 (le_antisymm ?_ (h2 q (List.mem_of_getElem? hq1)))
    exact le_euclid.1 (hq2 b (List.mem_of_getElem? h1))

/-- Two sites at the same distance: the first one is returned. -/
example : nearestSite [(3, 0), (1, 0), (-1, 0)] (0, 5) = 1 := by
  norm_num [nearestSite, nearestFrom, dist2]

/-! ## Clipping at one line -/

/-- The tolerance of the code (VoronoiDiagram.h:167, 220). -/
noncomputable def tol : ℝ := 1 / 10 ^ 10

theorem tol_pos : (0 : ℝ) < tol := by norm_num [tol]

instance : Fact ((0 : ℝ) < 2 * tol) := ⟨by linarith [tol_pos]⟩

/-- A point of the line moved inwards by the tolerance, and a second point of that line. -/
noncomputable def lineA (m n : Pt) : Pt := (m.1 + tol * n.1, m.2 + tol * n.2)

noncomputable def lineB (m n : Pt) : Pt := (m.1 + tol * n.1 + n.2, m.2 + tol * n.2 - n.1)

def Unit2 (n : Pt) : Prop := n.1 * n.1 + n.2 * n.2 = 1

theorem crs_line {m n : Pt} (h : Unit2 n) (p : Pt) : crs (lineA m n) (lineB m n) p = lineDist m n p - tol := by
  have h' : n.1 * n.1 + n.2 * n.2 = 1 := h
  simp only [crs, lineA, lineB, lineDist]
  linear_combination (-tol) * h'

theorem clipPair_piece {m n : Pt} (h : Unit2 n) (u v : Pt) :
    ∃ P, Piece (2 * tol) (lineA m n) (lineB m n) u v P ∧ ∀ out, clipPair m n out u v = out ++ P := by
  have ht := tol_pos
  have hin : ∀ p, -(2 * tol) ≤ crs (lineA m n) (lineB m n) p ↔ -(1 / 10 ^ 10) ≤ lineDist m n p := fun p => by
    rw [crs_line h, ← tol]; constructor <;> intro <;> linarith
  have hlow : ∀ p, crs (lineA m n) (lineB m n) p ≤ 0 ↔ ¬ 1 / 10 ^ 10 < lineDist m n p := fun p => by
    rw [crs_line h, ← tol, not_lt]; constructor <;> intro <;> linarith
  have hy : ∀ {p q : Pt}, lineDist m n p - lineDist m n q ≠ 0 →
      lineDist m n (p.1 + lineDist m n p / (lineDist m n p - lineDist m n q) * (q.1 - p.1), p.2 + lineDist m n p / (lineDist m n p - lineDist m n q) * (q.2 - p.2)) = 0 := by
    intro p q hne
    have e : ∀ t : ℝ, lineDist m n (p.1 + t * (q.1 - p.1), p.2 + t * (q.2 - p.2)) = lineDist m n p - t * (lineDist m n p - lineDist m n q) := fun t => by
      simp only [lineDist]; ring
    rw [e, div_mul_cancel₀ _ hne, sub_self]
  have hcr : ∀ {y : Pt}, lineDist m n y = 0 → crs (lineA m n) (lineB m n) y ≤ 0 ∧ -(2 * tol) ≤ crs (lineA m n) (lineB m n) y := fun h0 => by
    rw [crs_line h, h0]; constructor <;> linarith
  have tp : (0 : ℝ) < 1 / 10 ^ 10 := ht
  by_cases hu : -(1 / 10 ^ 10) ≤ lineDist m n u <;> by_cases hv : -(1 / 10 ^ 10) ≤ lineDist m n v
  · refine ⟨_, .inIn ((hin u).2 hu) ((hin v).2 hv), fun out => ?_⟩
    rw [clipPair, if_pos hu, if_neg (by rintro (⟨-, h⟩ | ⟨h, -⟩) <;> linarith), List.append_nil]
  · have hv' := not_le.1 hv
    by_cases hu2 : 1 / 10 ^ 10 < lineDist m n u
    · have hne : lineDist m n u - lineDist m n v ≠ 0 := by intro h; linarith
      have hpos : 0 < lineDist m n u - lineDist m n v := by linarith
      refine ⟨_, .exit _ ((hin u).2 hu) (not_le.1 fun h => hv ((hin v).1 h)) ?_ (hcr (hy hne)).1 (hcr (hy hne)).2, fun out => ?_⟩
      · exact at_segment (div_nonneg (by linarith) hpos.le) ((div_le_one hpos).2 (by linarith))
      · rw [clipPair, if_pos hu, if_pos (.inl ⟨hu2, hv'⟩)]; simp
    · refine ⟨_, .exitOne ((hin u).2 hu) ((hlow u).2 hu2) (not_le.1 fun h => hv ((hin v).1 h)), fun out => ?_⟩
      rw [clipPair, if_pos hu, if_neg (by rintro (⟨h, -⟩ | ⟨h, -⟩) <;> linarith), List.append_nil]
  · have hu' := not_le.1 hu
    by_cases hv2 : 1 / 10 ^ 10 < lineDist m n v
    · have hne : lineDist m n u - lineDist m n v ≠ 0 := by intro h; linarith
      have hneg : lineDist m n u - lineDist m n v < 0 := by linarith
      refine ⟨_, .entry _ (not_le.1 fun h => hu ((hin u).1 h)) ((hin v).2 hv) ?_ (hcr (hy hne)).1 (hcr (hy hne)).2, fun out => ?_⟩
      · exact at_segment (div_nonneg_of_nonpos (by linarith) hneg.le) ((div_le_one_of_neg hneg).2 (by linarith))
      · rw [clipPair, if_neg hu, if_pos (.inr ⟨hu', hv2⟩)]
    · refine ⟨_, .entryNone (not_le.1 fun h => hu ((hin u).1 h)) ((hin v).2 hv) ((hlow v).2 hv2), fun out => ?_⟩
      rw [clipPair, if_neg hu, if_neg (by rintro (⟨h, -⟩ | ⟨-, h⟩) <;> linarith)]
  · have hu' := not_le.1 hu
    have hv' := not_le.1 hv
    refine ⟨_, .outOut (not_le.1 fun h => hu ((hin u).1 h)) (not_le.1 fun h => hv ((hin v).1 h)), fun out => ?_⟩
    rw [clipPair, if_neg hu, if_neg (by rintro (⟨h, -⟩ | ⟨-, h⟩) <;> linarith)]

theorem clipLine_pieces {m n : Pt} (h : Unit2 n) (poly : List Pt) :
    ∃ out, clipLine poly m n = .ret out ∧ Pieces (2 * tol) (lineA m n) (lineB m n) (sides poly) out := by
  obtain ⟨k, f, rfl⟩ := exists_tab poly ((0, 0) : Pt)
  rw [clipLine, length_tab, sides_tab]
  obtain ⟨t, h1, h2⟩ := forRange_rule (fun j (s : List Pt) => Pieces (2 * tol) (lineA m n) (lineB m n) (tab j (fun i => (f i, f ((i + 1) % k)))) s) k []
      (clipStep m n (tab k f)) .nil (by
    intro i s hi hs
    obtain ⟨P, hP, hc⟩ := clipPair_piece (m := m) h (f i) (f ((i + 1) % k))
    refine ⟨s ++ P, ?_, ?_⟩
    · rw [clipStep, index_tab _ hi, Outcome.bind_ret, length_tab, index_tab _ (Nat.mod_lt _ (by omega)), Outcome.bind_ret, hc]
    · have : tab (i + 1) (fun i => (f i, f ((i + 1) % k))) = tab i (fun i => (f i, f ((i + 1) % k))) ++ [(f i, f ((i + 1) % k))] := by
        simp [tab, List.range_succ]
      rw [this]
      have h := Pieces.cons hP (Pieces.nil (ε := 2 * tol) (a := lineA m n) (b := lineB m n))
      rw [List.append_nil] at h
      exact hs.append h)
  exact ⟨t, h1, h2⟩

/-! ## Clipping at several lines -/

/-- What is known after clipping at the lines `L`. -/
structure After (L : List (Pt × Pt)) (c out : List Pt) : Prop where
  hull : ∀ p ∈ out, p ∈ convexHull ℝ {p | p ∈ c}
  half : ∀ l ∈ L, ∀ p ∈ out, -tol ≤ lineDist l.1 l.2 p
  wind : ∀ pt, (∀ l ∈ L, tol < lineDist l.1 l.2 pt) → (∀ e ∈ sides c, Off pt e.1 e.2) → wind out pt = wind c pt ∧ ∀ e ∈ sides out, Off pt e.1 e.2

theorem lineDist_hull {v : List Pt} {m n : Pt} {k : ℝ} (h : ∀ p ∈ v, k ≤ lineDist m n p) {x : Pt} (hx : x ∈ convexHull ℝ {p | p ∈ v}) : k ≤ lineDist m n x := by
  refine convexHull_min (t := {p | k ≤ lineDist m n p}) h ?_ hx
  intro p hp q hq s t hs ht hst
  have e : lineDist m n (s • p + t • q) = s * lineDist m n p + t * lineDist m n q := by
    simp only [lineDist, Prod.fst_add, Prod.snd_add, Prod.smul_fst, Prod.smul_snd, smul_eq_mul]
    linear_combination (-(m.1 * n.1) - m.2 * n.2) * (1 - hst)
  change k ≤ lineDist m n _
  rw [e]
  have e1 := mul_le_mul_of_nonneg_left (show k ≤ lineDist m n p from hp) hs
  have e2 := mul_le_mul_of_nonneg_left (show k ≤ lineDist m n q from hq) ht
  have e3 : k = s * k + t * k := by rw [← add_mul, hst, one_mul]
  linarith

theorem After.refl (c : List Pt) : After [] c c := ⟨fun _ hp => subset_convexHull ℝ _ hp, by simp, fun _ _ h => ⟨rfl, h⟩⟩

theorem After.trans {L M : List (Pt × Pt)} {c o o' : List Pt} (h : After L c o) (h' : After M o o') : After (L ++ M) c o' where
  hull := fun p hp => convexHull_min (fun z hz => h.hull z hz) (convex_convexHull ℝ _) (h'.hull p hp)
  half := fun l hl p hp => by
    rcases List.mem_append.1 hl with hl | hl
    · exact lineDist_hull (h.half l hl) (h'.hull p hp)
    · exact h'.half l hl p hp
  wind := fun pt h1 h2 => by
    obtain ⟨a1, a2⟩ := h.wind pt (fun l hl => h1 l (List.mem_append_left _ hl)) h2
    obtain ⟨b1, b2⟩ := h'.wind pt (fun l hl => h1 l (List.mem_append_right _ hl)) a2
    exact ⟨b1.trans a1, b2⟩

theorem clipLine_after {m n : Pt} (h : Unit2 n) (poly : List Pt) : ∃ out, clipLine poly m n = .ret out ∧ After [(m, n)] poly out := by
  obtain ⟨out, h1, h2⟩ := clipLine_pieces (m := m) h poly
  refine ⟨out, h1, hull_of_sides h2, ?_, ?_⟩
  · intro l hl p hp
    rw [List.mem_singleton] at hl
    subst hl
    have := (h2.mem p hp).1
    rw [crs_line h] at this
    change -tol ≤ lineDist m n p
    linarith
  · intro pt g1 g2
    have := g1 (m, n) (by simp)
    exact pieces_wind (by rw [crs_line h]; linarith) g2 h2

theorem clipRect_after (poly : List Pt) (minX minY maxX maxY : ℝ) : ∃ out o, clipRect poly minX minY maxX maxY = .ret out ∧
    After [((minX, 0), (1, 0)), ((maxX, 0), (-1, 0)), ((0, minY), (0, 1)), ((0, maxY), (0, -1))] poly o ∧ ((3 ≤ o.length ∧ out = o) ∨ (o.length < 3 ∧ out = [])) := by
  obtain ⟨o1, e1, a1⟩ := clipLine_after (m := (minX, 0)) (n := (1, 0)) (by norm_num [Unit2]) poly
  obtain ⟨o2, e2, a2⟩ := clipLine_after (m := (maxX, 0)) (n := (-1, 0)) (by norm_num [Unit2]) o1
  obtain ⟨o3, e3, a3⟩ := clipLine_after (m := (0, minY)) (n := (0, 1)) (by norm_num [Unit2]) o2
  obtain ⟨o4, e4, a4⟩ := clipLine_after (m := (0, maxY)) (n := (0, -1)) (by norm_num [Unit2]) o3
  refine ⟨_, o4, by rw [clipRect, e1, Outcome.bind_ret, e2, Outcome.bind_ret, e3, Outcome.bind_ret, e4, Outcome.bind_ret], ((a1.trans a2).trans a3).trans a4, ?_⟩
  by_cases h : 3 ≤ o4.length
  · exact .inl ⟨h, by rw [if_pos h]⟩
  · exact .inr ⟨by omega, by rw [if_neg h]⟩

/-- In the rectangle, moved outwards by `k`. -/
def InBox (minX minY maxX maxY k : ℝ) (p : Pt) : Prop := minX - k ≤ p.1 ∧ p.1 ≤ maxX + k ∧ minY - k ≤ p.2 ∧ p.2 ≤ maxY + k

/-- **C133.**  A cell that is bounded is clipped to the rectangle: the result is empty or has at least three vertices, they are in the rectangle up to the
tolerance 10^-10; it contains nothing outside (up to the tolerance), and a point in the rectangle (with the tolerance to spare) that is not on a side of the cell
is contained in the result if and only if it is contained in the cell. -/
theorem clipRect_spec (poly : List Pt) (minX minY maxX maxY : ℝ) : ∃ out, clipRect poly minX minY maxX maxY = .ret out ∧ (out = [] ∨ 3 ≤ out.length) ∧
    (∀ p ∈ out, InBox minX minY maxX maxY (1 / 10 ^ 10) p) ∧
    (∀ pt, ¬ InBox minX minY maxX maxY (1 / 10 ^ 10) pt → Poly.contains out pt = .ret false) ∧
    ∀ pt : Pt, minX + 1 / 10 ^ 10 < pt.1 → pt.1 < maxX - 1 / 10 ^ 10 → minY + 1 / 10 ^ 10 < pt.2 → pt.2 < maxY - 1 / 10 ^ 10 →
      (∀ e ∈ sides poly, pt ∉ segment ℝ e.1 e.2) → Poly.contains out pt = Poly.contains poly pt := by
  obtain ⟨out, o, h1, h2, h3⟩ := clipRect_after poly minX minY maxX maxY
  have hsub : ∀ p ∈ out, p ∈ o := by
    rcases h3 with ⟨-, rfl⟩ | ⟨-, rfl⟩
    · exact fun p hp => hp
    · simp
  have hbox : ∀ x, x ∈ convexHull ℝ {p | p ∈ out} → InBox minX minY maxX maxY (1 / 10 ^ 10) x := by
    intro x hx
    have b : ∀ l ∈ [(((minX, 0), (1, 0)) : Pt × Pt), ((maxX, 0), (-1, 0)), ((0, minY), (0, 1)), ((0, maxY), (0, -1))], -tol ≤ lineDist l.1 l.2 x := fun l hl =>
      lineDist_hull (fun p hp => h2.half l hl p (hsub p hp)) hx
    have b1 := b ((minX, 0), (1, 0)) (by simp)
    have b2 := b ((maxX, 0), (-1, 0)) (by simp)
    have b3 := b ((0, minY), (0, 1)) (by simp)
    have b4 := b ((0, maxY), (0, -1)) (by simp)
    simp only [lineDist, tol] at b1 b2 b3 b4
    refine ⟨?_, ?_, ?_, ?_⟩ <;> linarith
  refine ⟨out, h1, ?_, fun p hp => hbox p (subset_convexHull ℝ _ hp), ?_, ?_⟩
  · rcases h3 with ⟨h, rfl⟩ | ⟨-, rfl⟩
    · exact .inr h
    · exact .inl rfl
  · intro pt hpt
    exact (contains_hull out pt fun h => hpt (hbox pt h)).2
  · intro pt g1 g2 g3 g4 g5
    have hw := (h2.wind pt (by
      intro l hl
      simp only [List.mem_cons, List.not_mem_nil, or_false] at hl
      rcases hl with rfl | rfl | rfl | rfl <;> simp only [lineDist, tol] <;> linarith) g5).1
    rcases h3 with ⟨-, rfl⟩ | ⟨h, rfl⟩
    · exact contains_wind hw
    · rw [wind_short h] at hw
      exact contains_wind (by rw [← hw, wind_short (by simp)])

/-- A triangle clipped to a rectangle across it. -/
example : ∃ out, clipRect [(0, 0), (4, 0), (0, 4)] 0 0 2 4 = .ret out ∧ Poly.contains out (1, 1) = Poly.contains [(0, 0), (4, 0), (0, 4)] (1, 1) := by
  obtain ⟨out, h1, -, -, -, h⟩ := clipRect_spec [(0, 0), (4, 0), (0, 4)] 0 0 2 4
  refine ⟨out, h1, h (1, 1) (by norm_num) (by norm_num) (by norm_num) (by norm_num) ?_⟩
  intro e he
  simp only [sides, List.rotate_cons_succ, List.rotate_zero, List.cons_append, List.nil_append, List.zip_cons_cons, List.zip_nil_right, List.mem_cons, List.not_mem_nil, or_false] at he
  rcases he with rfl | rfl | rfl <;> rintro ⟨s, t, h1, h2, h3, h4⟩ <;> simp only [Prod.ext_iff, Prod.fst_add, Prod.snd_add, Prod.smul_fst, Prod.smul_snd, smul_eq_mul] at h4 <;>
    obtain ⟨h5, h6⟩ := h4 <;> linarith

/-! ## Clipping at the bisectors -/

theorem normLen_sq (s o : Pt) : normLen s o ^ 2 = (s.1 - o.1) * (s.1 - o.1) + (s.2 - o.2) * (s.2 - o.2) :=
  Real.sq_sqrt (by nlinarith [mul_self_nonneg (s.1 - o.1), mul_self_nonneg (s.2 - o.2)])

theorem normLen_euclid (s o : Pt) : normLen s o = euclid s o := by
  rw [normLen, euclid_sqd, sqd]; congr 1; ring

theorem unit_normal {s o : Pt} (h : 0 < normLen s o) : Unit2 (unitNormal s o) := by
  have := normLen_sq s o
  rw [Unit2, unitNormal]
  field_simp
  linarith

theorem lineDist_bisector {s o : Pt} (h : 0 < normLen s o) (p : Pt) : lineDist (midpoint s o) (unitNormal s o) p * (2 * normLen s o) = sqd p o - sqd p s := by
  simp only [lineDist, midpoint, unitNormal, sqd]
  field_simp
  ring

/-- The bisectors at which the cell is clipped. -/
noncomputable def bisectors (s : Pt) (idx : ℕ) : List Pt → ℕ → List (Pt × Pt)
  | [], _ => []
  | o :: r, j => (if j = idx ∨ normLen s o < 1 / 10 ^ 10 then [] else [(midpoint s o, unitNormal s o)]) ++ bisectors s idx r (j + 1)

theorem mem_bisectors {s : Pt} {idx : ℕ} : ∀ {r : List Pt} {j : ℕ} {l : Pt × Pt}, l ∈ bisectors s idx r j ↔
    ∃ i o, r[i]? = some o ∧ j + i ≠ idx ∧ 1 / 10 ^ 10 ≤ normLen s o ∧ l = (midpoint s o, unitNormal s o) := by
  intro r
  induction r with
  | nil => simp [bisectors]
  | cons o r ih =>
    intro j l
    rw [bisectors, List.mem_append, ih]
    constructor
    · rintro (h | ⟨i, o', h1, h2, h3, h4⟩)
      · by_cases hc : j = idx ∨ normLen s o < 1 / 10 ^ 10
        · rw [if_pos hc] at h; cases h
        · rw [if_neg hc, List.mem_singleton] at h
          rw [not_or, not_lt] at hc
          exact ⟨0, o, rfl, by simpa using hc.1, hc.2, h⟩
      · exact ⟨i + 1, o', by simpa using h1, by omega, h3, h4⟩
    · rintro ⟨i, o', h1, h2, h3, h4⟩
      cases i with
      | zero =>
        left
        simp only [List.getElem?_cons_zero, Option.some.injEq] at h1
        subst h1
        rw [if_neg (by rw [not_or, not_lt]; exact ⟨by simpa using h2, h3⟩), List.mem_singleton]
        exact h4
      | succ i => exact .inr ⟨i, o', by simpa using h1, by omega, h3, h4⟩

theorem clipSites_after (s : Pt) (idx : ℕ) : ∀ (r : List Pt) (j : ℕ) (cell : List Pt), ∃ res, clipSites s idx r j cell = .ret res ∧
    ((∃ c, res = some c ∧ After (bisectors s idx r j) cell c) ∨ ∃ L c, res = none ∧ (∀ l ∈ L, l ∈ bisectors s idx r j) ∧ After L cell c ∧ c.length < 3) := by
  intro r
  induction r with
  | nil => exact fun j cell => ⟨some cell, rfl, .inl ⟨cell, rfl, After.refl cell⟩⟩
  | cons o r ih =>
    intro j cell
    rw [clipSites]
    by_cases hj : j = idx
    · rw [if_pos hj, bisectors, if_pos (.inl hj)]
      exact ih (j + 1) cell
    rw [if_neg hj]
    by_cases hl : normLen s o < 1 / 10 ^ 10
    · rw [if_pos hl, bisectors, if_pos (.inr hl)]
      exact ih (j + 1) cell
    rw [if_neg hl, bisectors, if_neg (by rw [not_or]; exact ⟨hj, hl⟩)]
    have hp : 0 < normLen s o := lt_of_lt_of_le (by norm_num) (not_lt.1 hl)
    obtain ⟨c, h1, h2⟩ := clipLine_after (m := midpoint s o) (unit_normal hp) cell
    rw [h1, Outcome.bind_ret]
    by_cases hc : c.length < 3
    · rw [if_pos hc]
      exact ⟨none, rfl, .inr ⟨_, c, rfl, fun l hl => List.mem_append_left _ hl, h2, hc⟩⟩
    · rw [if_neg hc]
      obtain ⟨res, e, h⟩ := ih (j + 1) c
      refine ⟨res, e, ?_⟩
      rcases h with ⟨c', rfl, h⟩ | ⟨L, c', rfl, hL, h, h3⟩
      · exact .inl ⟨c', rfl, h2.trans h⟩
      · refine .inr ⟨_, c', rfl, ?_, h2.trans h, h3⟩
        intro l hl
        rcases List.mem_append.1 hl with hl | hl
        · exact List.mem_append_left _ hl
        · exact List.mem_append_right _ (hL l hl)

theorem bigBox_inside {minX minY maxX maxY : ℝ} (hX : minX < maxX) {pt : Pt} (h1 : minX < pt.1) (h2 : pt.1 < maxX) (h3 : minY < pt.2) (h4 : pt.2 < maxY) :
    wind (bigBox minX minY maxX maxY) pt = 1 ∧ ∀ e ∈ sides (bigBox minX minY maxX maxY), Off pt e.1 e.2 := by
  have hm : 0 < max (maxX - minX) (maxY - minY) := lt_max_of_lt_left (by linarith)
  rw [bigBox]
  set k := 2 * max (maxX - minX) (maxY - minY) with hk
  have hk0 : 0 < k := by linarith
  have hside : ∀ e ∈ sides [((minX - k, minY - k) : Pt), (maxX + k, minY - k), (maxX + k, maxY + k), (minX - k, maxY + k)], 0 < area2 e.1 e.2 pt := by
    intro e he
    rcases mem_rect he with rfl | rfl | rfl | rfl <;> simp only [area2] <;> nlinarith
  have hw : 0 < maxX - minX + 2 * k := by linarith
  have hh : 0 < maxY - minY + 2 * k := by linarith
  have hcv : Poly.Convex [((minX - k, minY - k) : Pt), (maxX + k, minY - k), (maxX + k, maxY + k), (minX - k, maxY + k)] := by
    constructor
    · simp only [List.nodup_cons, List.mem_cons, List.not_mem_nil, or_false, not_or, Prod.mk.injEq, not_and, List.nodup_nil, and_true, not_false_eq_true]
      refine ⟨⟨fun h => ?_, fun h => ?_, fun _ h => ?_⟩, ⟨fun _ h => ?_, fun h => ?_⟩, fun h => ?_⟩ <;> linarith
    · intro e he p hp
      have hA := mul_pos hw hh
      simp only [List.mem_cons, List.not_mem_nil, or_false] at hp
      rcases mem_rect he with rfl | rfl | rfl | rfl <;> rcases hp with rfl | rfl | rfl | rfl <;> intro n1 n2 <;>
        first | exact absurd rfl n1 | exact absurd rfl n2 | (simp only [area2]; nlinarith)
  refine ⟨?_, ?_⟩
  · have := (convex_inside _ hcv (by simp) pt hside).1
    rw [windingNumber_eq, Outcome.ret.injEq] at this
    exact this
  · intro e he
    refine off_of_side ?_
    rw [side_area2]
    exact (hside e he).ne'

/-- The point is at most `k` beyond the bisectors of the site with index `s` and the other sites (those closer to it than 10^-10 left out): for `k = 0` no site is nearer.
The distance beyond the bisector with the site `o` is the difference of the squares of the distances over twice the distance of the sites. -/
def InCell (sites : List Pt) (s : ℕ) (k : ℝ) (p : Pt) : Prop := ∃ site, sites[s]? = some site ∧
  ∀ j o, sites[j]? = some o → j ≠ s → 1 / 10 ^ 10 ≤ euclid site o → (euclid p site ^ 2 - euclid p o ^ 2) / (2 * euclid site o) ≤ k

theorem euclid_sq (p q : Pt) : euclid p q ^ 2 = sqd p q := by rw [euclid_sqd, Real.sq_sqrt (sqd_nonneg _ _)]

theorem bisector_dist {s o : Pt} (h : 0 < normLen s o) (p : Pt) :
    (euclid p s ^ 2 - euclid p o ^ 2) / (2 * euclid s o) = - lineDist (midpoint s o) (unitNormal s o) p := by
  have := lineDist_bisector h p
  rw [euclid_sq, euclid_sq, ← normLen_euclid, div_eq_iff (by positivity)]
  linarith

/-- **C133.**  `GetClippedCell` of a cell that is marked infinite, for any sites and any rectangle of positive size: the result is empty or has at least three vertices, and
up to the tolerance 10^-10 it is the part of the cell in the rectangle: it contains no point outside the rectangle by more than the tolerance and no point that is
beyond the bisector with another site by more than the tolerance, and it contains every point in the rectangle and in the cell with more than the tolerance to spare. -/
theorem clippedInfinite_spec (d : Diagram) (s : ℕ) (hs : s < d.sites.length) (minX minY maxX maxY : ℝ) (hX : minX < maxX) :
    ∃ out, clippedInfinite d s minX minY maxX maxY = .ret out ∧ (out = [] ∨ 3 ≤ out.length) ∧
    (∀ p ∈ out, InBox minX minY maxX maxY (1 / 10 ^ 10) p ∧ InCell d.sites s (1 / 10 ^ 10) p) ∧
    (∀ pt, Poly.contains out pt = .ret true → InBox minX minY maxX maxY (1 / 10 ^ 10) pt ∧ InCell d.sites s (1 / 10 ^ 10) pt) ∧
    ∀ (pt : Pt) (k : ℝ), k < -(1 / 10 ^ 10) → InBox minX minY maxX maxY k pt → InCell d.sites s k pt → Poly.contains out pt = .ret true := by
  obtain ⟨site, hsite⟩ : ∃ x, d.sites[s]? = some x := ⟨_, List.getElem?_eq_getElem hs⟩
  rw [clippedInfinite, Outcome.index, hsite, Outcome.bind_ret]
  have tp := tol_pos
  have hfin : ∀ {L : List (Pt × Pt)} {o : List Pt}, (∀ l ∈ L, l ∈ bisectors site s d.sites 0) → After L (bigBox minX minY maxX maxY) o → ∀ (pt : Pt) (k : ℝ), k < -(1 / 10 ^ 10) →
      InBox minX minY maxX maxY k pt → InCell d.sites s k pt → wind o pt = 1 ∧ ∀ e ∈ sides o, Off pt e.1 e.2 := by
    rintro L o hL ho pt k hk ⟨b1, b2, b3, b4⟩ ⟨st, hst, hc⟩
    rw [hsite, Option.some.injEq] at hst
    subst hst
    change k < -tol at hk
    obtain ⟨w1, w2⟩ := bigBox_inside hX (pt := pt) (by linarith) (by linarith) (minY := minY) (maxY := maxY) (by linarith) (by linarith)
    obtain ⟨h1, h2⟩ := ho.wind pt (fun l hl => by
      obtain ⟨i, o', e1, e2, e3, rfl⟩ := mem_bisectors.1 (hL l hl)
      have hp : 0 < normLen site o' := lt_of_lt_of_le (by norm_num) e3
      have := hc i o' e1 (by simpa using e2) (by rw [← normLen_euclid]; exact e3)
      rw [bisector_dist hp] at this
      change tol < lineDist (midpoint site o') (unitNormal site o') pt
      linarith) w2
    exact ⟨h1.trans w1, h2⟩
  obtain ⟨res, e, h⟩ := clipSites_after site s d.sites 0 (bigBox minX minY maxX maxY)
  rw [e, Outcome.bind_ret]
  rcases h with ⟨c, rfl, hc⟩ | ⟨L, c, rfl, hL, hc, h3⟩
  · obtain ⟨out, o, h1, h2, h3⟩ := clipRect_after c minX minY maxX maxY
    have hall := hc.trans h2
    obtain ⟨out', h1', k1, k2, k3, k4⟩ := clipRect_spec c minX minY maxX maxY
    rw [h1, Outcome.ret.injEq] at h1'
    subst h1'
    have hsub : ∀ p ∈ out, p ∈ o := by
      rcases h3 with ⟨-, rfl⟩ | ⟨-, rfl⟩
      · exact fun p hp => hp
      · simp
    have hcell : ∀ x, x ∈ convexHull ℝ {p | p ∈ out} → InCell d.sites s (1 / 10 ^ 10) x := by
      intro x hx
      refine ⟨site, hsite, fun j o' e1 e2 e3 => ?_⟩
      rw [← normLen_euclid] at e3
      have hp : 0 < normLen site o' := lt_of_lt_of_le (by norm_num) e3
      rw [bisector_dist hp]
      have := lineDist_hull (m := midpoint site o') (n := unitNormal site o') (k := -tol)
        (fun p hp => hall.half (midpoint site o', unitNormal site o') (List.mem_append_left _ (mem_bisectors.2 ⟨j, o', e1, by simpa using e2, e3, rfl⟩)) p (hsub p hp)) hx
      change _ ≤ tol
      linarith
    refine ⟨out, h1, k1, fun p hp => ⟨k2 p hp, hcell p (subset_convexHull ℝ _ hp)⟩, ?_, ?_⟩
    · intro pt hpt
      constructor
      · by_contra hb
        rw [k3 pt hb] at hpt
        cases hpt
      · by_contra hb
        rw [(contains_hull out pt fun h => hb (hcell pt h)).2] at hpt
        cases hpt
    · intro pt k g1 g2 g3
      obtain ⟨w1, w2⟩ := hfin (fun l hl => hl) hc pt k g1 g2 g3
      obtain ⟨b1, b2, b3, b4⟩ := g2
      rw [k4 pt (by linarith) (by linarith) (by linarith) (by linarith) w2]
      obtain ⟨b, n, e1, e2, e3⟩ := contains_spec c pt
      rw [windingNumber_eq, Outcome.ret.injEq, w1] at e2
      rw [e1]
      congr 1
      rw [e3, ← e2]
      exact odd_one
  · refine ⟨[], rfl, .inl rfl, by simp, ?_, ?_⟩
    · intro pt hpt
      rw [(contains_hull [] pt (by simp)).2] at hpt
      cases hpt
    · intro pt k g1 g2 g3
      have := (hfin hL hc pt k g1 g2 g3).1
      rw [wind_short h3] at this
      cases this

/-- The cell of one of two sites. -/
example : ∃ out, getClippedCell ⟨[(0, 0), (4, 0)], [], [], [[], []], [true, true]⟩ 0 (-1) (-1) 5 1 = .ret out ∧ Poly.contains out (1, 0) = .ret true ∧
    Poly.contains out (3, 0) ≠ .ret true := by
  have e1 : euclid ((0, 0) : Pt) (4, 0) = 4 := by
    rw [euclid_sqd, sqd]; norm_num
  obtain ⟨out, h1, -, -, h2, h3⟩ := clippedInfinite_spec ⟨[(0, 0), (4, 0)], [], [], [[], []], [true, true]⟩ 0 (by simp) (-1) (-1) 5 1 (by norm_num)
  refine ⟨out, ?_, h3 (1, 0) (-(1 / 10)) (by norm_num) (by norm_num [InBox]) ⟨(0, 0), rfl, ?_⟩, fun h => ?_⟩
  · rw [getClippedCell, if_neg (by simp)]
    exact h1
  · rintro (_ | _ | j) o ho hj hl
    · omega
    · simp only [List.getElem?_cons_succ, List.getElem?_cons_zero, Option.some.injEq] at ho
      subst ho
      rw [euclid_sq, euclid_sq, e1, sqd, sqd]
      norm_num
    · simp at ho
  · obtain ⟨site, e2, e3⟩ := (h2 (3, 0) h).2
    simp only [List.getElem?_cons_zero, Option.some.injEq] at e2
    subst e2
    have := e3 1 (4, 0) rfl (by omega) (by rw [e1]; norm_num)
    rw [euclid_sq, euclid_sq, e1, sqd, sqd] at this
    norm_num at this

end Verif.CompGeo.Vor
