import Verif.CompGeo.HullLemmas
import Verif.CompGeo.HullSpec
import Mathlib.Analysis.Convex.KreinMilman
import Mathlib.Analysis.LocallyConvex.Separation
import Mathlib.Analysis.Convex.Topology

/-!
# From half-planes to convex hulls
-/

set_option autoImplicit false

namespace Verif.CompGeo

open Verif

theorem cross_eq (a b c : ℝ × ℝ) : cross a b c = area2 a b c := by
  simp only [cross, area2]
  ring

/-- A point where a linear function is smallest, and nowhere else, is a corner. -/
theorem extreme_of_exposed {s : Set (ℝ × ℝ)} {v : ℝ × ℝ} (f : (ℝ × ℝ) →ₗ[ℝ] ℝ) (hv : v ∈ s) (h : ∀ q ∈ s, q ≠ v → f v < f q) :
    v ∈ (convexHull ℝ s).extremePoints ℝ := by
  have hT : Convex ℝ {x : ℝ × ℝ | x = v ∨ f v < f x} := by
    intro x hx y hy a b ha hb hab
    rcases eq_or_lt_of_le ha with rfl | ha'
    · rw [zero_add] at hab
      simpa [hab] using hy
    rcases eq_or_lt_of_le hb with rfl | hb'
    · rw [add_zero] at hab
      simpa [hab] using hx
    have e : f (a • x + b • y) = a * f x + b * f y := by simp
    have e2 : f v = a * f v + b * f v := by rw [← add_mul, hab, one_mul]
    rcases hx with rfl | hx
    · rcases hy with rfl | hy
      · left
        rw [← add_smul, hab, one_smul]
      · right
        rw [e]
        nlinarith
    · right
      rw [e]
      rcases hy with rfl | hy <;> nlinarith
  have hsub : convexHull ℝ s ⊆ {x : ℝ × ℝ | x = v ∨ f v < f x} := by
    refine convexHull_min (fun q hq => ?_) hT
    by_cases hqv : q = v
    · exact Or.inl hqv
    · exact Or.inr (h q hq hqv)
  rw [mem_extremePoints]
  refine ⟨subset_convexHull ℝ s hv, ?_⟩
  rintro x1 hx1 x2 hx2 ⟨a, b, ha, hb, hab, hc⟩
  have e : f v = a * f x1 + b * f x2 := by rw [← hc]; simp
  have e2 : f v = a * f v + b * f v := by rw [← add_mul, hab, one_mul]
  have h1 := hsub hx1
  have h2 := hsub hx2
  rcases h1 with h1 | h1 <;> rcases h2 with h2 | h2
  · exact ⟨h1, h2⟩
  · rw [h1] at e
    nlinarith
  · rw [h2] at e
    nlinarith
  · nlinarith

/-- `v` is a left turn of a closed polygon with all the points on its left. -/
def Corner (pts : List (ℝ × ℝ)) (a v c : ℝ × ℝ) : Prop :=
  0 < cross a v c ∧ ∀ q ∈ pts, 0 ≤ cross a v q ∧ 0 ≤ cross v c q

/-- The sum of the distances from the two edges at a corner, up to a constant. -/
def turnFun (a v c : ℝ × ℝ) : (ℝ × ℝ) →ₗ[ℝ] ℝ where
  toFun q := (v.1 - a.1) * q.2 - (v.2 - a.2) * q.1 + ((c.1 - v.1) * q.2 - (c.2 - v.2) * q.1)
  map_add' x y := by simp; ring
  map_smul' x y := by simp; ring

theorem Corner.extreme {pts : List (ℝ × ℝ)} {a v c : ℝ × ℝ} (h : Corner pts a v c) (hv : v ∈ pts) :
    v ∈ (convexHull ℝ {p | p ∈ pts}).extremePoints ℝ := by
  refine extreme_of_exposed (turnFun a v c) hv fun q hq hne => ?_
  have h1 := h.2 q hq
  have e : turnFun a v c q - turnFun a v c v = cross a v q + cross v c q := by
    simp only [turnFun, LinearMap.coe_mk, AddHom.coe_mk, cross]
    ring
  have h2 : 0 < cross a v q + cross v c q := by
    rcases h1.1.lt_or_eq with h3 | h3
    · linarith [h1.2]
    rcases h1.2.lt_or_eq with h4 | h4
    · linarith
    exfalso
    apply hne
    have ht := h.1
    simp only [cross] at h3 h4 ht
    have k1 : (q.1 - v.1) * ((v.1 - a.1) * (c.2 - a.2) - (v.2 - a.2) * (c.1 - a.1)) = 0 := by
      linear_combination (v.1 - a.1) * h4 - (c.1 - v.1) * h3
    have k2 : (q.2 - v.2) * ((v.1 - a.1) * (c.2 - a.2) - (v.2 - a.2) * (c.1 - a.1)) = 0 := by
      linear_combination (v.2 - a.2) * h4 - (c.2 - v.2) * h3
    have m1 := (mul_eq_zero.mp k1).resolve_right ht.ne'
    have m2 := (mul_eq_zero.mp k2).resolve_right ht.ne'
    exact Prod.ext (by linarith) (by linarith)
  linarith

/-- If every vertex of a nonempty list is a corner with neighbours in the list, the list spans all the points. -/
theorem hull_of_corners {pts h : List (ℝ × ℝ)} (hne : h ≠ [])
    (hc : ∀ v ∈ h, ∃ a ∈ h, ∃ c ∈ h, Corner pts a v c) : convexHull ℝ {p | p ∈ pts} ⊆ convexHull ℝ {p | p ∈ h} := by
  refine convexHull_min (fun q hq => ?_) (convex_convexHull ℝ _)
  by_contra hqn
  have hfin : {p | p ∈ h}.Finite := List.finite_toSet h
  obtain ⟨f, u, hu, hfq⟩ := geometric_hahn_banach_closed_point (convex_convexHull ℝ {p | p ∈ h})
    (hfin.isClosed_convexHull ℝ) hqn
  obtain ⟨v, hv, hmax⟩ := Set.exists_max_image {p | p ∈ h} f hfin ⟨h.head hne, List.head_mem hne⟩
  obtain ⟨a, ha, c, hcm, ht, hl⟩ := hc v hv
  obtain ⟨l1, l2⟩ := hl q hq
  have h1 := hmax a ha
  have h2 := hmax c hcm
  have h3 : f v < f q := (hu v (subset_convexHull ℝ _ hv)).trans hfq
  have e : (cross a v c) • (q - v) = (cross a v q) • (c - v) + (cross v c q) • (a - v) := by
    refine Prod.ext ?_ ?_ <;> simp [cross] <;> ring
  have e2 : cross a v c * (f q - f v) = cross a v q * (f c - f v) + cross v c q * (f a - f v) := by
    have := congrArg f e
    simpa using this
  have h4 : 0 < cross a v c * (f q - f v) := mul_pos ht (by linarith)
  have h5 : cross a v q * (f c - f v) ≤ 0 := mul_nonpos_of_nonneg_of_nonpos l1 (by linarith)
  have h6 : cross v c q * (f a - f v) ≤ 0 := mul_nonpos_of_nonneg_of_nonpos l2 (by linarith)
  linarith

theorem corners_of_hull {pts h : List (ℝ × ℝ)} (hsub : ∀ v ∈ h, v ∈ pts)
    (hext : ∀ v ∈ h, v ∈ (convexHull ℝ {p | p ∈ pts}).extremePoints ℝ)
    (hspan : convexHull ℝ {p | p ∈ pts} ⊆ convexHull ℝ {p | p ∈ h}) :
    {p | p ∈ h} = (convexHull ℝ {p | p ∈ pts}).extremePoints ℝ := by
  have e : convexHull ℝ {p | p ∈ pts} = convexHull ℝ {p | p ∈ h} :=
    hspan.antisymm (convexHull_mono hsub)
  refine Set.Subset.antisymm hext ?_
  rw [e]
  exact extremePoints_convexHull_subset

/-- Points on a segment. -/
theorem isHull_segment {pts : List (ℝ × ℝ)} {o r : ℝ × ℝ} (ho : o ∈ pts) (hr : r ∈ pts) (hne : o ≠ r)
    (hseg : ∀ q ∈ pts, ∃ t : ℝ, 0 ≤ t ∧ t ≤ 1 ∧ q = o + t • (r - o)) : IsHull pts [o, r] where
  nodup := by simp [hne]
  corners := by
    have hpos : 0 < (r.1 - o.1) * (r.1 - o.1) + (r.2 - o.2) * (r.2 - o.2) := by
      by_contra hn
      apply hne
      have h1 := mul_self_nonneg (r.1 - o.1)
      have h2 := mul_self_nonneg (r.2 - o.2)
      have h3 := mul_self_eq_zero.mp (by linarith : (r.1 - o.1) * (r.1 - o.1) = 0)
      have h4 := mul_self_eq_zero.mp (by linarith : (r.2 - o.2) * (r.2 - o.2) = 0)
      exact Prod.ext (by linarith) (by linarith)
    let f : (ℝ × ℝ) →ₗ[ℝ] ℝ :=
      { toFun := fun q => (r.1 - o.1) * q.1 + (r.2 - o.2) * q.2
        map_add' := fun x y => by simp; ring
        map_smul' := fun x y => by simp; ring }
    have hf : ∀ t : ℝ, f (o + t • (r - o)) = f o + t * ((r.1 - o.1) * (r.1 - o.1) + (r.2 - o.2) * (r.2 - o.2)) := by
      intro t
      simp only [f, LinearMap.coe_mk, AddHom.coe_mk, Prod.fst_add, Prod.snd_add, Prod.smul_fst, Prod.smul_snd, Prod.fst_sub,
        Prod.snd_sub, smul_eq_mul]
      ring
    refine corners_of_hull ?_ ?_ ?_
    · intro v hv
      rcases List.mem_pair.mp hv with rfl | rfl <;> assumption
    · intro v hv
      rcases List.mem_pair.mp hv with rfl | rfl
      · refine extreme_of_exposed f ho fun q hq hqn => ?_
        obtain ⟨t, h0, h1, rfl⟩ := hseg q hq
        rw [hf]
        have : t ≠ 0 := by
          rintro rfl
          simp at hqn
        have : 0 < t := lt_of_le_of_ne h0 (Ne.symm this)
        nlinarith [mul_pos this hpos]
      · refine extreme_of_exposed (-f) hr fun q hq hqn => ?_
        obtain ⟨t, h0, h1, rfl⟩ := hseg q hq
        have : t ≠ 1 := by
          rintro rfl
          simp at hqn
        have h2 : t < 1 := lt_of_le_of_ne h1 this
        have h3 := hf 1
        rw [one_smul, add_sub_cancel] at h3
        rw [LinearMap.neg_apply, LinearMap.neg_apply, hf, h3]
        nlinarith [mul_pos (sub_pos.mpr h2) hpos]
    · refine convexHull_min (fun q hq => ?_) (convex_convexHull ℝ _)
      obtain ⟨t, h0, h1, rfl⟩ := hseg q hq
      have ho' : o ∈ convexHull ℝ {p | p ∈ [o, r]} := subset_convexHull ℝ _ (by simp)
      have hr' : r ∈ convexHull ℝ {p | p ∈ [o, r]} := subset_convexHull ℝ _ (by simp)
      have := (convex_convexHull ℝ {p | p ∈ [o, r]}) ho' hr' (by linarith : 0 ≤ 1 - t) h0 (by ring)
      convert this using 1
      rw [smul_sub, sub_smul, one_smul]
      abel
  left := by
    intro a b hab q hq
    obtain ⟨t, h0, h1, rfl⟩ := hseg q hq
    refine le_of_eq ?_
    have : (a = o ∧ b = r) ∨ (a = r ∧ b = o) := by
      have h : [a, b] <:+: [o, r, o] := hab
      rw [List.infix_cons_iff, List.infix_cons_iff] at h
      rcases h with h | h | h
      · left
        simpa using h
      · right
        simpa using h
      · have := h.length_le
        simp at this
    rcases this with ⟨rfl, rfl⟩ | ⟨rfl, rfl⟩ <;> simp [area2] <;> ring

theorem IsHull.congr {pts pts' h : List (ℝ × ℝ)} (hm : ∀ q, q ∈ pts ↔ q ∈ pts') (hh : IsHull pts h) : IsHull pts' h where
  nodup := hh.nodup
  corners := by
    rw [hh.corners]
    congr 2
    ext q
    exact hm q
  left a b hab q hq := hh.left a b hab q ((hm q).mpr hq)

theorem isHull_small (ps : List (ℝ × ℝ)) (hn : ps.Nodup) (hl : ps.length < 3) : IsHull ps ps := by
  match ps, hn, hl with
  | [], _, _ => exact ⟨by simp, by simp, by simp⟩
  | [a], _, _ =>
    refine ⟨by simp, by simp, ?_⟩
    intro x y hxy q hq
    have h : [x, y] <:+: [a, a] := hxy
    have : x = a ∧ y = a := by
      have := h.eq_of_length (by simp)
      simpa using this
    rw [this.1, this.2, List.mem_singleton.mp hq]
    simp [area2]
  | [a, b], hn, _ =>
    refine isHull_segment (by simp) (by simp) (by simpa using hn) fun q hq => ?_
    rcases List.mem_pair.mp hq with rfl | rfl
    · exact ⟨0, le_rfl, by norm_num, by simp⟩
    · exact ⟨1, by norm_num, le_rfl, by simp⟩

end Verif.CompGeo
