import Verif.CompGeo.VoronoiProps
import Mathlib.Tactic

/-!
# Voronoi diagrams: vertices, edges and cells
-/

set_option autoImplicit false

namespace Verif.CompGeo.Vor
open Del (Tri Corners EmptyCircle sqd euclid_sqd sqd_nonneg edgesOf key Clear work)

/-- Triangles of three of the points are flat or have an area above the threshold in `ComputeCircumcenter`. -/
def Wide (ps : List Pt) : Prop := ∀ a ∈ ps, ∀ b ∈ ps, ∀ c ∈ ps, 0 < area2 a b c → 1 / 10 ^ 14 ≤ 2 * area2 a b c

theorem dual_of {ps : List Pt} (hc : Clear ps) (h3 : 3 ≤ ps.length) {d : Diagram} (hd : compute ps = .ret d) :
    ∃ m, Del.compute ps = .ret m ∧ ((m.triangles = [] ∧ d = noCells ps) ∨ Dual ps m d) := by
  obtain ⟨m, hm, hp, hn, hT, -⟩ := Del.compute_total ps
  rw [compute_many h3, hm, Outcome.bind_ret] at hd
  refine ⟨m, hm, ?_⟩
  by_cases h0 : m.triangles.length = 0
  · rw [if_pos h0, Outcome.ret.injEq] at hd
    exact .inl ⟨List.length_eq_zero_iff.1 h0, hd.symm⟩
  · rw [if_neg h0] at hd
    obtain ⟨d', e, hd'⟩ := dual_spec hp hn hT
    rw [e, Outcome.ret.injEq] at hd
    subst hd
    exact .inr hd'

/-- The circumcentre of a triangle with an empty circle has its corners as nearest sites. -/
theorem center_nearest {ps : List Pt} (hw : Wide ps) {a b c : Pt} (ha : a ∈ ps) (hb : b ∈ ps) (hc : c ∈ ps) (h : 0 < area2 a b c) (he : EmptyCircle (work ps) a b c)
    (hsub : ∀ q ∈ ps, q ∈ work ps) :
    ∀ q ∈ ps, euclid (circumcenter a b c) a ≤ euclid (circumcenter a b c) q ∧ euclid (circumcenter a b c) b ≤ euclid (circumcenter a b c) q ∧
      euclid (circumcenter a b c) c ≤ euclid (circumcenter a b c) q := by
  obtain ⟨o, r, h1, h2, h3, h4⟩ := he
  obtain ⟨k1, k2⟩ := circumcenter_spec (a := a) (b := b) (c := c) ((hw a ha b hb c hc h).trans (le_abs_self _))
  have : circumcenter a b c = o := circum_unique h.ne' (sqd_of_euclid k1) (sqd_of_euclid k2) (sqd_of_euclid (h2.trans h1.symm)) (sqd_of_euclid (h3.trans h1.symm))
  rw [this]
  intro q hq
  have := h4 q (hsub q hq)
  rw [h1, h2, h3]
  exact ⟨this, this, this⟩

theorem work_sub {ps : List Pt} : ∀ q ∈ ps, q ∈ work ps := by
  intro q hq
  obtain ⟨w, hw⟩ := Del.work_eq (ps := ps) (List.length_pos_of_mem hq)
  rw [hw]
  exact List.mem_append_left _ hq

section
variable {ps : List Pt} {m : Del.Mesh} {d : Diagram}

theorem tri_nearest (hc : Clear ps) (hw : Wide ps) (hm : Del.compute ps = .ret m) (hd : Dual ps m d) {i : ℕ} {t : Tri} (ht : m.triangles[i]? = some t) :
    ∃ x, d.vertices[i]? = some x ∧ Nearest ps x t.1 ∧ Nearest ps x t.2.1 ∧ Nearest ps x t.2.2 ∧ ∃ a b c, Corners ps t a b c ∧ 0 < area2 a b c := by
  obtain ⟨m', hm', -, h1, -⟩ := Del.delaunay_partial hc
  rw [hm, Outcome.ret.injEq] at hm'
  subst hm'
  obtain ⟨a, b, c, hk, hA, hE⟩ := h1 t (List.mem_of_getElem? ht)
  have hn := center_nearest hw (List.mem_of_getElem? hk.1) (List.mem_of_getElem? hk.2.1) (List.mem_of_getElem? hk.2.2) hA hE work_sub
  exact ⟨_, hd.verts i t a b c ht hk, ⟨a, hk.1, fun q hq => (hn q hq).1⟩, ⟨b, hk.2.1, fun q hq => (hn q hq).2.1⟩, ⟨c, hk.2.2, fun q hq => (hn q hq).2.2⟩, a, b, c, hk, hA⟩

end

/-- The set of the points nearest to a site is convex. -/
theorem nearest_convex (ps : List Pt) (i : ℕ) : Convex ℝ {x | Nearest ps x i} := by
  rintro x ⟨p, hp, hx⟩ y ⟨p', hp', hy⟩ s t hs ht hst
  rw [hp, Option.some.injEq] at hp'
  subst hp'
  refine ⟨p, hp, fun q hq => ?_⟩
  have e1 := le_euclid.1 (hx q hq)
  have e2 := le_euclid.1 (hy q hq)
  rw [le_euclid]
  have e : ∀ q : Pt, sqd (s • x + t • y) q = s * sqd x q + t * sqd y q - s * t * sqd x y := by
    intro q
    have : s = 1 - t := by linarith
    subst this
    simp only [sqd, Prod.fst_add, Prod.snd_add, Prod.smul_fst, Prod.smul_snd, smul_eq_mul]
    ring
  rw [e, e]
  have := mul_le_mul_of_nonneg_left e1 hs
  have := mul_le_mul_of_nonneg_left e2 ht
  linarith

/-! ## The property -/

/-- **C133.**  Every vertex of the diagram has three sites, not on a line, with no site nearer; and every point that has three sites at the same distance and all others (and the
corners of the auxiliary triangle) farther away is a vertex. -/
theorem vertices_spec {ps : List Pt} (hc : Clear ps) (hw : Wide ps) {d : Diagram} (hd : compute ps = .ret d) :
    (∀ v ∈ d.vertices, ∃ i j k a b c, Nearest ps v i ∧ Nearest ps v j ∧ Nearest ps v k ∧ ps[i]? = some a ∧ ps[j]? = some b ∧ ps[k]? = some c ∧ 0 < area2 a b c) ∧
    ∀ a ∈ ps, ∀ b ∈ ps, ∀ c ∈ ps, 0 < area2 a b c → ∀ (o : Pt) (r : ℝ), euclid o a = r → euclid o b = r → euclid o c = r →
      (∀ q ∈ work ps, q ≠ a → q ≠ b → q ≠ c → r < euclid o q) → o ∈ d.vertices := by
  rcases Nat.lt_or_ge ps.length 3 with h3 | h3
  · constructor
    · match ps, h3 with
      | [], _ => cases hd; simp [noCells]
      | [_], _ => cases hd; simp [noCells]
      | [_, _], _ => cases hd; simp
    · intro a ha b hb c hcc hA
      exfalso
      have : a ≠ b ∧ b ≠ c ∧ a ≠ c := by
        refine ⟨?_, ?_, ?_⟩ <;> rintro rfl <;> simp only [area2] at hA <;> nlinarith
      match ps, h3 with
      | [], _ => simp at ha
      | [_], _ => simp at ha hb; exact this.1 (ha.trans hb.symm)
      | [_, _], _ =>
        simp only [List.mem_cons, List.not_mem_nil, or_false] at ha hb hcc
        rcases ha with rfl | rfl <;> rcases hb with rfl | rfl <;> rcases hcc with rfl | rfl <;> simp at this
  obtain ⟨m, hm, hD⟩ := dual_of hc h3 hd
  obtain ⟨m', hm', hp, h1, h2, h4⟩ := Del.delaunay_partial hc
  rw [hm, Outcome.ret.injEq] at hm'
  subst hm'
  rcases hD with ⟨h0, rfl⟩ | hD
  · refine ⟨by simp [noCells], ?_⟩
    intro a ha b hb c hcc hA o r r1 r2 r3 hfar
    obtain ⟨t, ht, -⟩ := h4 h3 a ha b hb c hcc hA o r r1 r2 r3 hfar
    rw [h0] at ht
    cases ht
  constructor
  · intro v hv
    obtain ⟨i, hi⟩ := List.getElem?_of_mem hv
    have hlt : i < m.triangles.length := by
      rw [← hD.vlen]
      exact (List.getElem?_eq_some_iff.1 hi).1
    obtain ⟨x, hx, n1, n2, n3, a, b, c, hk, hA⟩ := tri_nearest hc hw hm hD (List.getElem?_eq_getElem hlt)
    rw [hi, Option.some.injEq] at hx
    subst hx
    exact ⟨_, _, _, a, b, c, n1, n2, n3, hk.1, hk.2.1, hk.2.2, hA⟩
  · intro a ha b hb c hcc hA o r r1 r2 r3 hfar
    obtain ⟨t, ht, hk⟩ := h4 h3 a ha b hb c hcc hA o r r1 r2 r3 hfar
    obtain ⟨i, hi⟩ := List.getElem?_of_mem ht
    have key' : ∀ {x y z : Pt}, Corners ps t x y z → 0 < area2 x y z → euclid o x = r → euclid o y = r → euclid o z = r → o ∈ d.vertices := by
      intro x y z hxyz hA' e1 e2 e3
      have hv := hD.verts i t x y z hi hxyz
      obtain ⟨k1, k2⟩ := circumcenter_spec (a := x) (b := y) (c := z)
        ((hw x (List.mem_of_getElem? hxyz.1) y (List.mem_of_getElem? hxyz.2.1) z (List.mem_of_getElem? hxyz.2.2) hA').trans (le_abs_self _))
      have : circumcenter x y z = o := circum_unique hA'.ne' (sqd_of_euclid k1) (sqd_of_euclid k2) (sqd_of_euclid (e2.trans e1.symm)) (sqd_of_euclid (e3.trans e1.symm))
      rw [← this]
      exact List.mem_of_getElem? hv
    rcases hk with hk | hk | hk
    · exact key' hk hA r1 r2 r3
    · exact key' hk (by rw [show area2 b c a = area2 a b c by simp only [area2]; ring]; exact hA) r2 r3 r1
    · exact key' hk (by rw [show area2 c a b = area2 a b c by simp only [area2]; ring]; exact hA) r3 r1 r2

/-- The inner product. -/
def dot (u v : Pt) : ℝ := u.1 * v.1 + u.2 * v.2

theorem outward_eq {p1 p2 p3 : Pt} (h : 0 < area2 p1 p2 p3) : ∃ k : ℝ, 0 < k ∧ outward p1 p2 p3 = (k * (p2.2 - p1.2), -(k * (p2.1 - p1.1))) ∧
    (1 / 10 ^ 10 < euclid p1 p2 → k * euclid p1 p2 = 1) := by
  have hs : sideLen p1 p2 = euclid p1 p2 := by
    rw [sideLen, euclid_sqd, sqd]; congr 1; ring
  have hperp : ∃ k : ℝ, 0 < k ∧ perp p1 p2 = (k * -(p2.2 - p1.2), k * (p2.1 - p1.1)) ∧ (1 / 10 ^ 10 < euclid p1 p2 → k * euclid p1 p2 = 1) := by
    rw [perp, hs]
    by_cases hl : 1 / 10 ^ 10 < euclid p1 p2
    · have hp : 0 < euclid p1 p2 := lt_trans (by norm_num) hl
      rw [if_pos hl]
      exact ⟨1 / euclid p1 p2, by positivity, by rw [Prod.mk.injEq]; constructor <;> ring, fun _ => by field_simp⟩
    · rw [if_neg hl]
      exact ⟨1, one_pos, by simp, fun h => absurd h hl⟩
  obtain ⟨k, hk, e, hl⟩ := hperp
  refine ⟨k, hk, ?_, hl⟩
  rw [outward, e]
  have : 0 < (p3.1 - (p1.1 + p2.1) / 2) * (k * -(p2.2 - p1.2)) + (p3.2 - (p1.2 + p2.2) / 2) * (k * (p2.1 - p1.1)) := by
    have : (p3.1 - (p1.1 + p2.1) / 2) * (k * -(p2.2 - p1.2)) + (p3.2 - (p1.2 + p2.2) / 2) * (k * (p2.1 - p1.1)) = k * area2 p1 p2 p3 := by
      simp only [area2]; ring
    rw [this]
    positivity
  rw [if_pos this, Prod.mk.injEq]
  constructor <;> ring

/-- **C133.**  The edges.  No two of them belong to the same pair of sites.  An edge between two vertices is a segment all points of which have the two sites of the edge as nearest
sites.  An infinite edge starts at a vertex that has the two sites as nearest ones; its direction is perpendicular to the line of the two sites, of length 1 (unless the sites are closer than 10^-10), and
points away from a third site; if no site is beyond that line, all points of the ray have the two sites as nearest sites.  The cells of both sites are flagged as infinite. -/
theorem edges_spec {ps : List Pt} (hc : Clear ps) (hw : Wide ps) (h3 : 3 ≤ ps.length) {d : Diagram} (hd : compute ps = .ret d) :
    (d.edges.map (fun e => (min e.site1 e.site2, max e.site1 e.site2))).Nodup ∧
    ∀ e ∈ d.edges, e.site1 ≠ e.site2 ∧ ∃ (i : ℕ) (x : Pt), e.v1 = i ∧ d.vertices[i]? = some x ∧
      ((∃ (j : ℕ) (y : Pt), e.v2 = j ∧ d.vertices[j]? = some y ∧ ∀ z ∈ segment ℝ x y, Nearest ps z e.site1 ∧ Nearest ps z e.site2) ∨
       (e.v2 = -1 ∧ Nearest ps x e.site1 ∧ Nearest ps x e.site2 ∧ d.infinite[e.site1]? = some true ∧ d.infinite[e.site2]? = some true ∧
        ∃ p1 p2 p3, ps[e.site1]? = some p1 ∧ ps[e.site2]? = some p2 ∧ p3 ∈ ps ∧ dot (p2 - p1) e.dir = 0 ∧ dot (p3 - p1) e.dir < 0 ∧
          (1 / 10 ^ 10 < euclid p1 p2 → dot e.dir e.dir = 1) ∧
          ((∀ q ∈ ps, dot (q - p1) e.dir ≤ 0) → ∀ τ : ℝ, 0 ≤ τ → Nearest ps (x + τ • e.dir) e.site1 ∧ Nearest ps (x + τ • e.dir) e.site2))) := by
  obtain ⟨m, hm, hD⟩ := dual_of hc h3 hd
  rcases hD with ⟨-, rfl⟩ | hD
  · exact ⟨by simp [noCells], by simp [noCells]⟩
  refine ⟨hD.once, ?_⟩
  obtain ⟨hp, hnb, hprop, hgood⟩ := Del.compute_proper hc hm
  intro e he
  obtain ⟨j, hj, g1, g2, g4, f, hf, g5⟩ := hD.edge e he
  obtain ⟨t, ht, hs, hr⟩ := mem_jobs hj
  have htm := List.mem_of_getElem? ht
  have hne : e.site1 ≠ e.site2 := by
    rw [g2, g4]
    have := hprop.2 (Del.side t j.e) (List.mem_flatMap.2 ⟨t, htm, Del.side_mem t j.e⟩)
    rw [hs] at this
    exact this
  obtain ⟨x, hx, hn1, hn2, hn3, a, b, c, hk, hA⟩ := tri_nearest hc hw hm hD ht
  obtain ⟨n1, n2, n3⟩ := (Del.corner_rot hr (Nearest ps x)).1 ⟨hn1, hn2, hn3⟩
  refine ⟨hne, j.t, x, g1, hx, ?_⟩
  rw [g2, g4]
  obtain ⟨-, hspec⟩ := Del.neighbors_spec hprop
  obtain ⟨f', hf', hjj⟩ := hspec j.t t ht
  rw [← hnb, hf, Option.some.injEq] at hf'
  subst hf'
  rcases g5 with ⟨h0, hv2⟩ | ⟨h0, hv2, p1, p2, p3, hp1, hp2, hp3, hdir⟩
  · left
    rcases hjj j.e with ⟨h, -⟩ | ⟨u, t', hu, ht', hsw⟩
    · rw [h] at h0; norm_num at h0
    · rw [hs] at hsw
      obtain ⟨z, hz⟩ := Del.mem_sides.1 hsw
      obtain ⟨y, hy, k1, k2, k3, -⟩ := tri_nearest hc hw hm hD ht'
      obtain ⟨q1, q2, -⟩ := (Del.corner_rot hz (Nearest ps y)).1 ⟨k1, k2, k3⟩
      refine ⟨u, y, by rw [hv2, hu], hy, fun w hw' => ⟨?_, ?_⟩⟩
      · exact (nearest_convex ps j.v1).segment_subset n1 q2 hw'
      · exact (nearest_convex ps j.v2).segment_subset n2 q1 hw'
  · right
    have hflag := hD.flag e he (by rw [hv2]; norm_num)
    rw [g2, g4] at hflag
    refine ⟨hv2, n1, n2, hflag.1, hflag.2, p1, p2, p3, hp1, hp2, List.mem_of_getElem? hp3, ?_⟩
    have hA' : 0 < area2 p1 p2 p3 := by
      have h1 := Del.Corners.area (w := []) hk
      obtain ⟨a1, a2, a3⟩ := hk
      rcases hr with hr | hr | hr <;> rw [hr] at a1 a2 a3 <;> dsimp only at a1 a2 a3
      · rw [hp1, Option.some.injEq] at a1; rw [hp2, Option.some.injEq] at a2; rw [hp3, Option.some.injEq] at a3
        rw [a1, a2, a3]; exact hA
      · rw [hp3, Option.some.injEq] at a1; rw [hp1, Option.some.injEq] at a2; rw [hp2, Option.some.injEq] at a3
        rw [a1, a2, a3, show area2 b c a = area2 a b c by simp only [area2]; ring]; exact hA
      · rw [hp2, Option.some.injEq] at a1; rw [hp3, Option.some.injEq] at a2; rw [hp1, Option.some.injEq] at a3
        rw [a1, a2, a3, show area2 c a b = area2 a b c by simp only [area2]; ring]; exact hA
    obtain ⟨k, hk0, hout, hlen⟩ := outward_eq hA'
    rw [hdir, hout]
    have hdot : ∀ q : Pt, dot (q - p1) (k * (p2.2 - p1.2), -(k * (p2.1 - p1.1))) = -(k * area2 p1 p2 q) := by
      intro q; simp only [dot, area2, Prod.fst_sub, Prod.snd_sub]; ring
    refine ⟨by rw [hdot]; simp only [area2]; ring, by rw [hdot]; have := mul_pos hk0 hA'; linarith, ?_, ?_⟩
    · intro hl
      have e1 := hlen hl
      have e2 := euclid_sq p1 p2
      have : dot (k * (p2.2 - p1.2), -(k * (p2.1 - p1.1))) (k * (p2.2 - p1.2), -(k * (p2.1 - p1.1))) = (k * euclid p1 p2) ^ 2 := by
        rw [mul_pow, e2]; simp only [dot, sqd]; ring
      rw [this, e1, one_pow]
    · intro hq τ hτ
      obtain ⟨p1', hp1', n1'⟩ := n1
      obtain ⟨p2', hp2', n2'⟩ := n2
      rw [hp1, Option.some.injEq] at hp1'
      rw [hp2, Option.some.injEq] at hp2'
      subst hp1' hp2'
      have hmove : ∀ q : Pt, sqd (x + τ • ((k * (p2.2 - p1.2), -(k * (p2.1 - p1.1))) : Pt)) q - sqd (x + τ • ((k * (p2.2 - p1.2), -(k * (p2.1 - p1.1))) : Pt)) p1 =
          sqd x q - sqd x p1 - 2 * τ * dot (q - p1) (k * (p2.2 - p1.2), -(k * (p2.1 - p1.1))) := by
        intro q
        simp only [sqd, dot, Prod.fst_add, Prod.snd_add, Prod.fst_sub, Prod.snd_sub, Prod.smul_fst, Prod.smul_snd, smul_eq_mul]
        ring
      have hfirst : ∀ q ∈ ps, sqd (x + τ • ((k * (p2.2 - p1.2), -(k * (p2.1 - p1.1))) : Pt)) p1 ≤ sqd (x + τ • ((k * (p2.2 - p1.2), -(k * (p2.1 - p1.1))) : Pt)) q := by
        intro q hqm
        have e1 := hmove q
        have e2 := le_euclid.1 (n1' q hqm)
        have e3 := mul_nonneg hτ (neg_nonneg.2 (hq q hqm))
        linarith
      have hsame : sqd (x + τ • ((k * (p2.2 - p1.2), -(k * (p2.1 - p1.1))) : Pt)) p2 = sqd (x + τ • ((k * (p2.2 - p1.2), -(k * (p2.1 - p1.1))) : Pt)) p1 := by
        have e1 := hmove p2
        have e2 := le_euclid.1 (n1' p2 (List.mem_of_getElem? hp2))
        have e3 := le_euclid.1 (n2' p1 (List.mem_of_getElem? hp1))
        have e4 : dot (p2 - p1) (k * (p2.2 - p1.2), -(k * (p2.1 - p1.1))) = 0 := by rw [hdot]; simp only [area2]; ring
        rw [e4] at e1
        linarith
      exact ⟨⟨p1, hp1, fun q hqm => le_euclid.2 (hfirst q hqm)⟩, ⟨p2, hp2, fun q hqm => le_euclid.2 (by rw [hsame]; exact hfirst q hqm)⟩⟩

/-- **C133.**  The cells that `GetCell` returns hold only points of the cell: the vertices have the site as nearest one, and so has every point that the polygon contains.
(That the polygon holds all such points is not proved.) -/
theorem cell_partial {ps : List Pt} (hc : Clear ps) (hw : Wide ps) {d : Diagram} (hd : compute ps = .ret d) (s : ℤ) :
    ∃ c, getCell d s = .ret c ∧ (c = [] ∨ 3 ≤ c.length) ∧ (isCellInfinite d s = .ret true → c = []) ∧
      ∀ x, (x ∈ c ∨ Poly.contains c x = .ret true) → ∃ i : ℕ, s = i ∧ Nearest ps x i := by
  have hnil : ∀ x, ¬ (x ∈ ([] : List Pt) ∨ Poly.contains [] x = .ret true) := by
    rintro x (h | h)
    · cases h
    · rw [(Poly.contains_hull [] x (by simp)).2] at h; cases h
  by_cases hr : s < 0 ∨ (d.sites.length : ℤ) ≤ s
  · exact ⟨[], by rw [getCell, if_pos hr], .inl rfl, fun _ => rfl, fun x h => absurd h (hnil x)⟩
  obtain ⟨i, rfl⟩ : ∃ i : ℕ, s = i := ⟨s.toNat, by omega⟩
  have hi : i < d.sites.length := by omega
  obtain ⟨d', hd', t1, t2, t3, -⟩ := compute_total ps
  rw [hd, Outcome.ret.injEq] at hd'
  subst hd'
  rw [getCell, isCellInfinite, if_neg hr, if_neg hr, Int.toNat_natCast, cellAt]
  obtain ⟨b, hb⟩ : ∃ b, d.infinite[i]? = some b := ⟨_, List.getElem?_eq_getElem (by rw [t3, ← t1]; exact hi)⟩
  obtain ⟨c, hcell⟩ : ∃ c, d.cells[i]? = some c := ⟨_, List.getElem?_eq_getElem (by rw [t2, ← t1]; exact hi)⟩
  rw [index_ret hb, Outcome.bind_ret]
  cases b with
  | true => exact ⟨[], by rw [if_pos rfl], .inl rfl, fun _ => rfl, fun x h => absurd h (hnil x)⟩
  | false =>
    rw [if_neg (by simp), index_ret hcell, Outcome.bind_ret]
    by_cases h1 : c.length < 3
    · exact ⟨[], by rw [if_pos h1], .inl rfl, fun _ => rfl, fun x h => absurd h (hnil x)⟩
    rw [if_neg h1]
    by_cases h2 : (cellPoints d.vertices c).length < 3
    · exact ⟨[], by rw [if_pos h2], .inl rfl, fun _ => rfl, fun x h => absurd h (hnil x)⟩
    rw [if_neg h2]
    refine ⟨cellPoints d.vertices c, rfl, .inr (by omega), fun h => absurd h (by simp), ?_⟩
    have h3 : 3 ≤ ps.length := by
      by_contra hlt
      match ps, Nat.lt_of_not_le hlt with
      | [], _ => cases hd; simp [noCells] at hcell
      | [_], _ => cases hd; simp [noCells] at hb hcell; revert hb; cases i <;> simp
      | [_, _], _ => cases hd; revert hb; rcases i with _ | _ | i <;> simp
    obtain ⟨m, hm, hD⟩ := dual_of hc h3 hd
    rcases hD with ⟨-, rfl⟩ | hD
    · rw [noCells] at hb
      simp [List.getElem?_replicate] at hb
    have hvert : ∀ x ∈ cellPoints d.vertices c, Nearest ps x i := by
      intro x hx
      rw [cellPoints, List.mem_filterMap] at hx
      obtain ⟨v, hv, hvx⟩ := hx
      obtain ⟨t, ht, hcor⟩ := mem_siteTris ((hD.cell i c hcell).1 v hv)
      obtain ⟨y, hy, n1, n2, n3, -⟩ := tri_nearest hc hw hm hD ht
      rw [hvx, Option.some.injEq] at hy
      subst hy
      rcases hcor with h | h | h
      · rw [← h]; exact n1
      · rw [← h]; exact n2
      · rw [← h]; exact n3
    rintro x (hx | hx)
    · exact ⟨i, rfl, hvert x hx⟩
    · refine ⟨i, rfl, ?_⟩
      by_contra hn
      rw [(Poly.contains_hull _ x fun h => hn (convexHull_min (s := {p | p ∈ cellPoints d.vertices c}) hvert (nearest_convex ps i) h)).2] at hx
      cases hx

/-- **C133.**  Edges are complete: where three sites have a point at the same distance, with all other sites (and the corners of the auxiliary triangle) farther away, there is an edge for every two of
the three. -/
theorem edges_complete {ps : List Pt} (hc : Clear ps) {d : Diagram} (hd : compute ps = .ret d) (h3 : 3 ≤ ps.length) {a b c : Pt} (ha : a ∈ ps) (hb : b ∈ ps) (hcc : c ∈ ps)
    (hA : 0 < area2 a b c) (o : Pt) (r : ℝ) (r1 : euclid o a = r) (r2 : euclid o b = r) (r3 : euclid o c = r) (hfar : ∀ q ∈ work ps, q ≠ a → q ≠ b → q ≠ c → r < euclid o q) :
    ∀ x ∈ [(a, b), (b, c), (c, a)], ∃ e ∈ d.edges, (ps[e.site1]? = some x.1 ∧ ps[e.site2]? = some x.2) ∨ (ps[e.site1]? = some x.2 ∧ ps[e.site2]? = some x.1) := by
  obtain ⟨m, hm, hD⟩ := dual_of hc h3 hd
  obtain ⟨m', hm', -, -, -, h4⟩ := Del.delaunay_partial hc
  rw [hm, Outcome.ret.injEq] at hm'
  subst hm'
  obtain ⟨t, ht, hk⟩ := h4 h3 a ha b hb c hcc hA o r r1 r2 r3 hfar
  rcases hD with ⟨h0, -⟩ | hD
  · rw [h0] at ht; cases ht
  have key' : ∀ s ∈ Del.sides t, ∀ u v, ps[s.1]? = some u → ps[s.2]? = some v → ∃ e ∈ d.edges, (ps[e.site1]? = some u ∧ ps[e.site2]? = some v) ∨ (ps[e.site1]? = some v ∧ ps[e.site2]? = some u) := by
    intro s hs u v hu hv
    obtain ⟨e, he, hke⟩ := hD.all s (List.mem_flatMap.2 ⟨t, ht, hs⟩)
    refine ⟨e, he, ?_⟩
    rcases Del.key_eq hke with h | h
    · have e1 := congrArg Prod.fst h
      have e2 := congrArg Prod.snd h
      dsimp only at e1 e2
      rw [e1, e2]
      exact .inl ⟨hu, hv⟩
    · have e1 := congrArg Prod.fst h
      have e2 := congrArg Prod.snd h
      dsimp only [Prod.fst_swap, Prod.snd_swap] at e1 e2
      rw [e1, e2]
      exact .inr ⟨hv, hu⟩
  have hall : ∀ u v w, Corners ps t u v w → ∀ x ∈ [(u, v), (v, w), (w, u)], ∃ e ∈ d.edges, (ps[e.site1]? = some x.1 ∧ ps[e.site2]? = some x.2) ∨ (ps[e.site1]? = some x.2 ∧ ps[e.site2]? = some x.1) := by
    rintro u v w ⟨k1, k2, k3⟩ x hx
    simp only [List.mem_cons, List.not_mem_nil, or_false] at hx
    rcases hx with rfl | rfl | rfl
    · exact key' (t.1, t.2.1) (by simp [Del.sides]) _ _ k1 k2
    · exact key' (t.2.1, t.2.2) (by simp [Del.sides]) _ _ k2 k3
    · exact key' (t.2.2, t.1) (by simp [Del.sides]) _ _ k3 k1
  intro x hx
  simp only [List.mem_cons, List.not_mem_nil, or_false] at hx
  rcases hk with hk | hk | hk <;> refine hall _ _ _ hk x ?_ <;> simp only [List.mem_cons, List.not_mem_nil, or_false] <;> tauto

/-- **C133.**  Two sites: one edge without ends, perpendicular to the line of the sites; both cells are infinite. -/
theorem compute_two (p q : Pt) : ∃ d e, compute [p, q] = .ret d ∧ d.edges = [e] ∧ e.v1 = -1 ∧ e.v2 = -1 ∧ e.site1 = 0 ∧ e.site2 = 1 ∧ dot (q - p) e.dir = 0 ∧
    dot e.dir e.dir = euclid p q ^ 2 ∧ isCellInfinite d 0 = .ret true ∧ isCellInfinite d 1 = .ret true := by
  refine ⟨_, _, rfl, rfl, rfl, rfl, rfl, rfl, ?_, ?_, rfl, rfl⟩
  · simp only [dot, Prod.fst_sub, Prod.snd_sub]; ring
  · rw [euclid_sq]; simp only [dot, sqd]; ring

/-! ## The hypotheses hold for points with integer coordinates -/

theorem wide_of_int {ps : List Pt} (h : Del.IntPoints ps) : Wide ps := by
  intro a ha b hb c hc hA
  obtain ⟨⟨a1, e1, -⟩, ⟨a2, e2, -⟩⟩ := h.1 a ha
  obtain ⟨⟨b1, e3, -⟩, ⟨b2, e4, -⟩⟩ := h.1 b hb
  obtain ⟨⟨c1, e5, -⟩, ⟨c2, e6, -⟩⟩ := h.1 c hc
  have e : area2 a b c = (((b1 - a1) * (c2 - a2) - (b2 - a2) * (c1 - a1) : ℤ) : ℝ) := by
    simp only [area2, e1, e2, e3, e4, e5, e6]; push_cast; ring
  rw [e] at hA ⊢
  have h1 : (1 : ℤ) ≤ (b1 - a1) * (c2 - a2) - (b2 - a2) * (c1 - a1) := by exact_mod_cast hA
  have h2 : (1 : ℝ) ≤ (((b1 - a1) * (c2 - a2) - (b2 - a2) * (c1 - a1) : ℤ) : ℝ) := by exact_mod_cast h1
  linarith [show (1 : ℝ) / 10 ^ 14 ≤ 2 by norm_num]

theorem squareSites : Del.IntPoints [(0, 0), (4, 0), (4, 4), (0, 4), (2, 2)] := by
  refine ⟨fun p hp => ?_, (0, 0), by simp, (4, 0), by simp, by simp⟩
  simp only [List.mem_cons, List.not_mem_nil, or_false] at hp
  have k : ∀ i : ℕ, i < 5 → ∃ j : ℤ, (i : ℝ) = j ∧ |(i : ℝ)| ≤ 10 ^ 10 := fun i hi => ⟨i, by simp, by
    have : (i : ℝ) ≤ 5 := by exact_mod_cast hi.le
    rw [abs_of_nonneg (by positivity)]; norm_num; linarith⟩
  rcases hp with rfl | rfl | rfl | rfl | rfl
  · exact ⟨by simpa using k 0 (by norm_num), by simpa using k 0 (by norm_num)⟩
  · exact ⟨by simpa using k 4 (by norm_num), by simpa using k 0 (by norm_num)⟩
  · exact ⟨by simpa using k 4 (by norm_num), by simpa using k 4 (by norm_num)⟩
  · exact ⟨by simpa using k 0 (by norm_num), by simpa using k 4 (by norm_num)⟩
  · exact ⟨by simpa using k 2 (by norm_num), by simpa using k 2 (by norm_num)⟩

/-- The corners and the middle of a square. -/
example : Clear [(0, 0), (4, 0), (4, 4), (0, 4), (2, 2)] ∧ Wide [(0, 0), (4, 0), (4, 4), (0, 4), (2, 2)] :=
  ⟨Del.clear_of_int squareSites, wide_of_int squareSites⟩

end Verif.CompGeo.Vor
