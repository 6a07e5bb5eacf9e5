import Verif.Geom.Bodies3DProps

/-!
# Properties of the solid bodies: their surface meshes (C122)
-/

set_option autoImplicit false

namespace Verif.Geom.Bod

open S3 (Tri RectSurf TriSurf areaVec InPar IsPar mix)
open L3 (eucl)
open B3 (Box Sph)

/-! ## Specification -/

/-- The directed sides of a triangle. -/
def sides (t : Tri) : List (V3 ℝ × V3 ℝ) := [(t.p1, t.p2), (t.p2, t.p3), (t.p3, t.p1)]

open Classical in
/-- The mesh is closed and consistently oriented: every side is used as often in one direction as in the other. -/
def Oriented (m : List Tri) : Prop := ∀ a b, (m.flatMap sides).count (a, b) = (m.flatMap sides).count (b, a)

open Classical in
/-- The mesh is closed: every side belongs to an even number of triangles. -/
def Closed (m : List Tri) : Prop := ∀ a b, a ≠ b → Even ((m.flatMap sides).count (a, b) + (m.flatMap sides).count (b, a))

/-- Six times the signed volume of the tetrahedron of `c` and the triangle; positive if the vertices are counterclockwise seen from outside. -/
def outness (c : V3 ℝ) (t : Tri) : ℝ := V3.dot (areaVec t.p1 t.p2 t.p3) (V3.sub t.p1 c)

/-! ## Sums over the sides -/

/-- The sum of a function over the sides of a mesh. -/
def around {M : Type} [AddCommGroup M] (g : V3 ℝ → V3 ℝ → M) (t : Tri) : M := g t.p1 t.p2 + g t.p2 t.p3 + g t.p3 t.p1

theorem sum_sides {M : Type} [AddCommGroup M] (g : V3 ℝ → V3 ℝ → M) (m : List Tri) :
    ((m.flatMap sides).map fun e => g e.1 e.2).sum = (m.map (around g)).sum := by
  induction m with
  | nil => rfl
  | cons t m ih =>
    rw [List.flatMap_cons, List.map_append, List.sum_append, ih, List.map_cons, List.sum_cons]
    simp [sides, around, add_assoc]

open Classical in
theorem sum_single {M : Type} [AddCommMonoidWithOne M] (l : List (V3 ℝ × V3 ℝ)) (e : V3 ℝ × V3 ℝ) :
    (l.map fun x => if x = e then (1 : M) else 0).sum = (l.count e : M) := by
  induction l with
  | nil => simp
  | cons x l ih =>
    rw [List.map_cons, List.sum_cons, ih, List.count_cons]
    by_cases h : x = e
    · simp [h, add_comm]
    · simp [h]

theorem sum_map_sub' {α M : Type} [AddCommGroup M] (f g : α → M) (l : List α) : (l.map fun x => f x - g x).sum = (l.map f).sum - (l.map g).sum := by
  induction l with
  | nil => simp
  | cons x l ih => simp only [List.map_cons, List.sum_cons, ih]; abel

open Classical in
theorem oriented_of {m : List Tri} (h : ∀ g : V3 ℝ → V3 ℝ → ℤ, (∀ a b, g a b = -g b a) → (m.map (around g)).sum = 0) : Oriented m := by
  intro a b
  have := h (fun x y => (if (x, y) = (a, b) then 1 else 0) - (if (x, y) = (b, a) then 1 else 0)) (fun x y => by
    have e1 : ((x, y) = (a, b)) ↔ ((y, x) = (b, a)) := by simp only [Prod.mk.injEq]; tauto
    have e2 : ((x, y) = (b, a)) ↔ ((y, x) = (a, b)) := by simp only [Prod.mk.injEq]; tauto
    simp only [e1, e2]; ring)
  rw [← sum_sides] at this
  have e : (fun x : V3 ℝ × V3 ℝ => ((if (x.1, x.2) = (a, b) then (1 : ℤ) else 0) - (if (x.1, x.2) = (b, a) then 1 else 0))) =
      fun x => (if x = (a, b) then (1 : ℤ) else 0) - (if x = (b, a) then 1 else 0) := rfl
  rw [e, sum_map_sub', sum_single, sum_single] at this
  omega

open Classical in
theorem closed_of {m : List Tri} (h : ∀ g : V3 ℝ → V3 ℝ → ZMod 2, (∀ a b, g a b = g b a) → (m.map (around g)).sum = 0) : Closed m := by
  intro a b hab
  have := h (fun x y => (if (x, y) = (a, b) then 1 else 0) + (if (x, y) = (b, a) then 1 else 0)) (fun x y => by
    have e1 : ((x, y) = (a, b)) ↔ ((y, x) = (b, a)) := by simp only [Prod.mk.injEq]; tauto
    have e2 : ((x, y) = (b, a)) ↔ ((y, x) = (a, b)) := by simp only [Prod.mk.injEq]; tauto
    simp only [e1, e2]; ring)
  rw [← sum_sides] at this
  have e : (fun x : V3 ℝ × V3 ℝ => ((if (x.1, x.2) = (a, b) then (1 : ZMod 2) else 0) + (if (x.1, x.2) = (b, a) then 1 else 0))) =
      fun x => (if x = (a, b) then (1 : ZMod 2) else 0) + (if x = (b, a) then 1 else 0) := rfl
  rw [e, List.sum_map_add, sum_single, sum_single] at this
  rw [← ZMod.natCast_eq_zero_iff_even]
  push_cast; exact this

/-! ## Cubes -/

theorem vert0_eq (a : ℝ) : cubeVert0 a = (Cube.mk a ⟨0, 0, 0⟩).vert := by
  funext i
  fin_cases i <;> (simp [cubeVert0, Cube.vert]; try ring_nf)

/-- The triangles of `CubeWithTriangles3D`: a closed surface of twelve triangles oriented outwards, with vertices of the cube, whose areas add up to
`SurfaceArea` and whose tetrahedra from the centre add up to `Volume`. -/
theorem cube_triangles (c : Cube) (ha : 0 < c.a) :
    Oriented (triFaces c.vert) ∧ (∀ t ∈ triFaces c.vert, 0 < outness c.center t ∧ c.isInside t.p1 = true ∧ c.isInside t.p2 = true ∧ c.isInside t.p3 = true) ∧
    (∃ l : List ℝ, (triFaces c.vert).map Tri.area = l.map .ret ∧ l.sum = c.surfaceArea) ∧
    ((triFaces c.vert).map fun t => outness c.center t / 6).sum = c.volume := by
  have hin : ∀ i, c.isInside (c.vert i) = true := by
    intro i
    rw [Cube.isInside, decide_eq_true_iff]
    fin_cases i <;> simp [Cube.vert] <;> refine ⟨?_, ?_, ?_⟩ <;> linarith
  have hout : ∀ t ∈ triFaces c.vert, outness c.center t = c.a ^ 3 / 2 := by
    intro t ht
    simp only [triFaces, List.mem_cons, List.not_mem_nil, or_false] at ht
    rcases ht with rfl | rfl | rfl | rfl | rfl | rfl | rfl | rfl | rfl | rfl | rfl | rfl <;>
      simp only [outness, areaVec, V3.dot, V3.cross, V3.sub, Cube.vert, Matrix.cons_val] <;> ring
  have harea : ∀ t ∈ triFaces c.vert, t.area = .ret (c.a ^ 2 / 2) := by
    intro t ht
    rw [S3.area_spec]
    have : V3.norm (areaVec t.p1 t.p2 t.p3) = c.a ^ 2 := by
      refine (sq_eq_sq₀ (L3.norm_nonneg _) (by positivity)).mp ?_
      rw [L3.norm_sq]
      simp only [triFaces, List.mem_cons, List.not_mem_nil, or_false] at ht
      rcases ht with rfl | rfl | rfl | rfl | rfl | rfl | rfl | rfl | rfl | rfl | rfl | rfl <;>
        simp only [areaVec, V3.cross, V3.sub, Cube.vert, Matrix.cons_val] <;> ring
    rw [this]
  refine ⟨oriented_of fun g hg => ?_, fun t ht => ⟨by rw [hout t ht]; positivity, ?_⟩, ⟨List.replicate 12 (c.a ^ 2 / 2), ?_, ?_⟩, ?_⟩
  · simp only [triFaces, List.map_cons, List.map_nil, List.sum_cons, List.sum_nil, around]
    generalize c.vert 0 = v0, c.vert 1 = v1, c.vert 2 = v2, c.vert 3 = v3, c.vert 4 = v4, c.vert 5 = v5, c.vert 6 = v6, c.vert 7 = v7
    linear_combination hg v0 v3 + hg v3 v2 + hg v2 v0 + hg v2 v1 + hg v1 v0 + hg v4 v5 + hg v5 v6 + hg v6 v4 + hg v6 v7 + hg v7 v4 + hg v2 v6 + hg v6 v1 +
      hg v1 v5 + hg v0 v4 + hg v7 v0 + hg v7 v3 + hg v6 v3 + hg v0 v5
  · simp only [triFaces, List.mem_cons, List.not_mem_nil, or_false] at ht
    rcases ht with rfl | rfl | rfl | rfl | rfl | rfl | rfl | rfl | rfl | rfl | rfl | rfl <;> exact ⟨hin _, hin _, hin _⟩
  · rw [List.map_replicate, List.eq_replicate_iff]
    refine ⟨rfl, fun x hx => ?_⟩
    obtain ⟨t, ht, rfl⟩ := List.mem_map.mp hx
    exact harea t ht
  · rw [List.sum_replicate, Cube.surfaceArea, nsmul_eq_mul]; push_cast; ring
  · have : ((triFaces c.vert).map fun t => outness c.center t / 6) = List.replicate 12 (c.a ^ 3 / 12) := by
      rw [List.eq_replicate_iff]
      refine ⟨rfl, fun x hx => ?_⟩
      obtain ⟨t, ht, rfl⟩ := List.mem_map.mp hx
      rw [hout t ht]; ring
    rw [this, List.sum_replicate, Cube.volume, nsmul_eq_mul]; push_cast; ring

theorem rect_face {p1 p2 p3 p4 n : V3 ℝ} {a : ℝ} (ha : 0 < a) (hp : IsPar p1 p2 p3 p4) (hn : n.x ^ 2 + n.y ^ 2 + n.z ^ 2 = 1)
    (hA : areaVec p1 p2 p4 = V3.scale n (a ^ 2)) :
    ∃ s, RectSurf.new p1 p2 p3 p4 = .ret s ∧ s.normal = n ∧ s.area = a ^ 2 ∧
      ∀ q, (∃ u w, -s.maxX ≤ u ∧ u ≤ s.maxX ∧ -s.maxY ≤ w ∧ w ≤ s.maxY ∧ q = s.at u w) ↔ InPar p1 p2 p4 q := by
  have h0 : areaVec p1 p2 p4 ≠ ⟨0, 0, 0⟩ := by
    intro e
    rw [hA, V3.scale, V3.mk.injEq] at e
    have h2 : a ^ 2 ≠ 0 := by positivity
    obtain ⟨e1, e2, e3⟩ := e
    rw [(mul_eq_zero.mp e1).resolve_right h2, (mul_eq_zero.mp e2).resolve_right h2, (mul_eq_zero.mp e3).resolve_right h2] at hn
    norm_num at hn
  obtain ⟨s, h1, -, -, h2, -, -, -, -, h3, h4, h5, -⟩ := S3.rect_partial p1 p2 p3 p4 hp h0
  have hu := S3.unitVec_scale (show 0 < a ^ 2 by positivity) hn hA
  have harea : s.area = a ^ 2 := by rw [h3, hu.2]
  refine ⟨s, h1, ?_, harea, fun q => (h2 q).symm⟩
  rw [harea] at h5
  rw [hA] at h5
  simp only [V3.scale, V3.mk.injEq] at h5
  have h2' : a ^ 2 ≠ 0 := by positivity
  ext
  · exact (mul_right_cancel₀ h2' h5.1).symm
  · exact (mul_right_cancel₀ h2' h5.2.1).symm
  · exact (mul_right_cancel₀ h2' h5.2.2).symm

/-- The faces of `Cube3D`: their normals are the six outward directions, and each face consists of the points of the cube in its supporting plane;
the areas add up to `SurfaceArea`. -/
theorem cube_rects (c : Cube) (ha : 0 < c.a) :
    ∃ l, rectFaces c.vert = .ret l ∧ l.map RectSurf.normal = [⟨0, 0, -1⟩, ⟨0, 0, 1⟩, ⟨1, 0, 0⟩, ⟨-1, 0, 0⟩, ⟨0, -1, 0⟩, ⟨0, 1, 0⟩] ∧
      (l.map RectSurf.area).sum = c.surfaceArea ∧
      ∀ s ∈ l, ∀ q, (∃ u w, -s.maxX ≤ u ∧ u ≤ s.maxX ∧ -s.maxY ≤ w ∧ w ≤ s.maxY ∧ q = s.at u w) ↔
        c.isInside q = true ∧ V3.dot s.normal (V3.sub q c.center) = c.a / 2 := by
  obtain ⟨s1, e1, n1, a1, f1⟩ := rect_face (p1 := c.vert 0) (p2 := c.vert 3) (p3 := c.vert 2) (p4 := c.vert 1) (n := ⟨0, 0, -1⟩) ha
    (by simp only [IsPar, V3.add, Cube.vert, Matrix.cons_val, V3.mk.injEq]; refine ⟨?_, ?_, ?_⟩ <;> first | ring1 | trivial) (by norm_num)
    (by simp only [areaVec, V3.cross, V3.sub, V3.scale, Cube.vert, Matrix.cons_val, V3.mk.injEq]; refine ⟨?_, ?_, ?_⟩ <;> first | ring1 | trivial)
  obtain ⟨s2, e2, n2, a2, f2⟩ := rect_face (p1 := c.vert 4) (p2 := c.vert 5) (p3 := c.vert 6) (p4 := c.vert 7) (n := ⟨0, 0, 1⟩) ha
    (by simp only [IsPar, V3.add, Cube.vert, Matrix.cons_val, V3.mk.injEq]; refine ⟨?_, ?_, ?_⟩ <;> first | ring1 | trivial) (by norm_num)
    (by simp only [areaVec, V3.cross, V3.sub, V3.scale, Cube.vert, Matrix.cons_val, V3.mk.injEq]; refine ⟨?_, ?_, ?_⟩ <;> first | ring1 | trivial)
  obtain ⟨s3, e3, n3, a3, f3⟩ := rect_face (p1 := c.vert 0) (p2 := c.vert 1) (p3 := c.vert 5) (p4 := c.vert 4) (n := ⟨1, 0, 0⟩) ha
    (by simp only [IsPar, V3.add, Cube.vert, Matrix.cons_val, V3.mk.injEq]; refine ⟨?_, ?_, ?_⟩ <;> first | ring1 | trivial) (by norm_num)
    (by simp only [areaVec, V3.cross, V3.sub, V3.scale, Cube.vert, Matrix.cons_val, V3.mk.injEq]; refine ⟨?_, ?_, ?_⟩ <;> first | ring1 | trivial)
  obtain ⟨s4, e4, n4, a4, f4⟩ := rect_face (p1 := c.vert 3) (p2 := c.vert 7) (p3 := c.vert 6) (p4 := c.vert 2) (n := ⟨-1, 0, 0⟩) ha
    (by simp only [IsPar, V3.add, Cube.vert, Matrix.cons_val, V3.mk.injEq]; refine ⟨?_, ?_, ?_⟩ <;> first | ring1 | trivial) (by norm_num)
    (by simp only [areaVec, V3.cross, V3.sub, V3.scale, Cube.vert, Matrix.cons_val, V3.mk.injEq]; refine ⟨?_, ?_, ?_⟩ <;> first | ring1 | trivial)
  obtain ⟨s5, e5, n5, a5, f5⟩ := rect_face (p1 := c.vert 0) (p2 := c.vert 4) (p3 := c.vert 7) (p4 := c.vert 3) (n := ⟨0, -1, 0⟩) ha
    (by simp only [IsPar, V3.add, Cube.vert, Matrix.cons_val, V3.mk.injEq]; refine ⟨?_, ?_, ?_⟩ <;> first | ring1 | trivial) (by norm_num)
    (by simp only [areaVec, V3.cross, V3.sub, V3.scale, Cube.vert, Matrix.cons_val, V3.mk.injEq]; refine ⟨?_, ?_, ?_⟩ <;> first | ring1 | trivial)
  obtain ⟨s6, e6, n6, a6, f6⟩ := rect_face (p1 := c.vert 1) (p2 := c.vert 2) (p3 := c.vert 6) (p4 := c.vert 5) (n := ⟨0, 1, 0⟩) ha
    (by simp only [IsPar, V3.add, Cube.vert, Matrix.cons_val, V3.mk.injEq]; refine ⟨?_, ?_, ?_⟩ <;> first | ring1 | trivial) (by norm_num)
    (by simp only [areaVec, V3.cross, V3.sub, V3.scale, Cube.vert, Matrix.cons_val, V3.mk.injEq]; refine ⟨?_, ?_, ?_⟩ <;> first | ring1 | trivial)
  refine ⟨[s1, s2, s3, s4, s5, s6], ?_, ?_, ?_, ?_⟩
  · rw [rectFaces, e1, Outcome.bind_ret, e2, Outcome.bind_ret, e3, Outcome.bind_ret, e4, Outcome.bind_ret, e5, Outcome.bind_ret, e6, Outcome.bind_ret]
  · simp only [List.map_cons, List.map_nil, n1, n2, n3, n4, n5, n6]
  · simp only [List.map_cons, List.map_nil, a1, a2, a3, a4, a5, a6, List.sum_cons, List.sum_nil, Cube.surfaceArea]; ring
  · have ha' := ha.ne'
    intro s hs q
    simp only [List.mem_cons, List.not_mem_nil, or_false] at hs
    have key : ∀ x y z : ℝ, (c.isInside q = true ∧ x * (q.x - c.center.x) + y * (q.y - c.center.y) + z * (q.z - c.center.z) = c.a / 2) ↔
        ((-(c.a / 2) ≤ q.x - c.center.x ∧ q.x - c.center.x ≤ c.a / 2) ∧ (-(c.a / 2) ≤ q.y - c.center.y ∧ q.y - c.center.y ≤ c.a / 2) ∧
          (-(c.a / 2) ≤ q.z - c.center.z ∧ q.z - c.center.z ≤ c.a / 2)) ∧ x * (q.x - c.center.x) + y * (q.y - c.center.y) + z * (q.z - c.center.z) = c.a / 2 := by
      intro x y z; rw [cube_inside, abs_le, abs_le, abs_le]
    have unit : ∀ d : ℝ, -(c.a / 2) ≤ d → d ≤ c.a / 2 → 0 ≤ 1 / 2 + d / c.a ∧ 1 / 2 + d / c.a ≤ 1 ∧ 0 ≤ 1 / 2 - d / c.a ∧ 1 / 2 - d / c.a ≤ 1 := by
      intro d h1 h2
      have k1 : d / c.a ≤ 1 / 2 := by rw [div_le_iff₀ ha]; linarith
      have k2 : -(1 / 2) ≤ d / c.a := by rw [le_div_iff₀ ha]; linarith
      exact ⟨by linarith, by linarith, by linarith, by linarith⟩
    rcases hs with rfl | rfl | rfl | rfl | rfl | rfl
    · rw [f1, n1, V3.dot, V3.sub]; simp only; rw [key]
      constructor
      · rintro ⟨s, t, h1, h2, h3, h4, rfl⟩
        simp only [mix, Cube.vert, Matrix.cons_val]
        refine ⟨⟨⟨?_, ?_⟩, ⟨?_, ?_⟩, ?_, ?_⟩, ?_⟩ <;> nlinarith
      · rintro ⟨⟨⟨x1, x2⟩, ⟨y1, y2⟩, -, -⟩, hz⟩
        obtain ⟨ux1, ux2, ux3, ux4⟩ := unit _ x1 x2
        obtain ⟨uy1, uy2, uy3, uy4⟩ := unit _ y1 y2
        refine ⟨1 / 2 - (q.x - c.center.x) / c.a, 1 / 2 + (q.y - c.center.y) / c.a, ux3, ux4, uy1, uy2, ?_⟩
        simp only [mix, Cube.vert, Matrix.cons_val]
        ext <;> simp only <;> first | linear_combination hz | linear_combination -hz | (field_simp; ring1)
    · rw [f2, n2, V3.dot, V3.sub]; simp only; rw [key]
      constructor
      · rintro ⟨s, t, h1, h2, h3, h4, rfl⟩
        simp only [mix, Cube.vert, Matrix.cons_val]
        refine ⟨⟨⟨?_, ?_⟩, ⟨?_, ?_⟩, ?_, ?_⟩, ?_⟩ <;> nlinarith
      · rintro ⟨⟨⟨x1, x2⟩, ⟨y1, y2⟩, -, -⟩, hz⟩
        obtain ⟨ux1, ux2, ux3, ux4⟩ := unit _ x1 x2
        obtain ⟨uy1, uy2, uy3, uy4⟩ := unit _ y1 y2
        refine ⟨1 / 2 + (q.y - c.center.y) / c.a, 1 / 2 - (q.x - c.center.x) / c.a, uy1, uy2, ux3, ux4, ?_⟩
        simp only [mix, Cube.vert, Matrix.cons_val]
        ext <;> simp only <;> first | linear_combination hz | linear_combination -hz | (field_simp; ring1)
    · rw [f3, n3, V3.dot, V3.sub]; simp only; rw [key]
      constructor
      · rintro ⟨s, t, h1, h2, h3, h4, rfl⟩
        simp only [mix, Cube.vert, Matrix.cons_val]
        refine ⟨⟨⟨?_, ?_⟩, ⟨?_, ?_⟩, ?_, ?_⟩, ?_⟩ <;> nlinarith
      · rintro ⟨⟨-, ⟨x1, x2⟩, ⟨y1, y2⟩⟩, hz⟩
        obtain ⟨ux1, ux2, ux3, ux4⟩ := unit _ x1 x2
        obtain ⟨uy1, uy2, uy3, uy4⟩ := unit _ y1 y2
        refine ⟨1 / 2 + (q.y - c.center.y) / c.a, 1 / 2 + (q.z - c.center.z) / c.a, ux1, ux2, uy1, uy2, ?_⟩
        simp only [mix, Cube.vert, Matrix.cons_val]
        ext <;> simp only <;> first | linear_combination hz | linear_combination -hz | (field_simp; ring1)
    · rw [f4, n4, V3.dot, V3.sub]; simp only; rw [key]
      constructor
      · rintro ⟨s, t, h1, h2, h3, h4, rfl⟩
        simp only [mix, Cube.vert, Matrix.cons_val]
        refine ⟨⟨⟨?_, ?_⟩, ⟨?_, ?_⟩, ?_, ?_⟩, ?_⟩ <;> nlinarith
      · rintro ⟨⟨-, ⟨x1, x2⟩, ⟨y1, y2⟩⟩, hz⟩
        obtain ⟨ux1, ux2, ux3, ux4⟩ := unit _ x1 x2
        obtain ⟨uy1, uy2, uy3, uy4⟩ := unit _ y1 y2
        refine ⟨1 / 2 + (q.z - c.center.z) / c.a, 1 / 2 + (q.y - c.center.y) / c.a, uy1, uy2, ux1, ux2, ?_⟩
        simp only [mix, Cube.vert, Matrix.cons_val]
        ext <;> simp only <;> first | linear_combination hz | linear_combination -hz | (field_simp; ring1)
    · rw [f5, n5, V3.dot, V3.sub]; simp only; rw [key]
      constructor
      · rintro ⟨s, t, h1, h2, h3, h4, rfl⟩
        simp only [mix, Cube.vert, Matrix.cons_val]
        refine ⟨⟨⟨?_, ?_⟩, ⟨?_, ?_⟩, ?_, ?_⟩, ?_⟩ <;> nlinarith
      · rintro ⟨⟨⟨x1, x2⟩, -, ⟨y1, y2⟩⟩, hz⟩
        obtain ⟨ux1, ux2, ux3, ux4⟩ := unit _ x1 x2
        obtain ⟨uy1, uy2, uy3, uy4⟩ := unit _ y1 y2
        refine ⟨1 / 2 + (q.z - c.center.z) / c.a, 1 / 2 - (q.x - c.center.x) / c.a, uy1, uy2, ux3, ux4, ?_⟩
        simp only [mix, Cube.vert, Matrix.cons_val]
        ext <;> simp only <;> first | linear_combination hz | linear_combination -hz | (field_simp; ring1)
    · rw [f6, n6, V3.dot, V3.sub]; simp only; rw [key]
      constructor
      · rintro ⟨s, t, h1, h2, h3, h4, rfl⟩
        simp only [mix, Cube.vert, Matrix.cons_val]
        refine ⟨⟨⟨?_, ?_⟩, ⟨?_, ?_⟩, ?_, ?_⟩, ?_⟩ <;> nlinarith
      · rintro ⟨⟨⟨x1, x2⟩, -, ⟨y1, y2⟩⟩, hz⟩
        obtain ⟨ux1, ux2, ux3, ux4⟩ := unit _ x1 x2
        obtain ⟨uy1, uy2, uy3, uy4⟩ := unit _ y1 y2
        refine ⟨1 / 2 - (q.x - c.center.x) / c.a, 1 / 2 + (q.z - c.center.z) / c.a, ux3, ux4, uy1, uy2, ?_⟩
        simp only [mix, Cube.vert, Matrix.cons_val]
        ext <;> simp only <;> first | linear_combination hz | linear_combination -hz | (field_simp; ring1)

/-- A cube of side 0 of the class with rectangular faces cannot be constructed. -/
theorem cube_zero (c : Cube) (ha : c.a = 0) : rectFaces c.vert = .exn (.mml "GeometryError") := by
  have : areaVec (c.vert 0) (c.vert 3) (c.vert 2) = ⟨0, 0, 0⟩ := by
    simp only [areaVec, V3.cross, V3.sub, Cube.vert, Matrix.cons_val, ha, V3.mk.injEq]; refine ⟨?_, ?_, ?_⟩ <;> ring
  rw [rectFaces, (S3.rect_ok _ _ _ _).1 this, Outcome.bind_exn]

end Verif.Geom.Bod
