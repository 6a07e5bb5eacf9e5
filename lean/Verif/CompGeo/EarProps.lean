import Mathlib.Tactic
import Mathlib.Data.List.GetD
import Verif.CompGeo.Triangulation
import Verif.CompGeo.Winding

/-!
# Ear clipping
-/

set_option autoImplicit false

namespace Verif.CompGeo.Ear
open Wind (cr tri Inside InsideEq)

/-! ## Specification -/

/-- The sum of `f` over the edges of the path from `x` over the points of the list to `z`. -/
def pathSum {M : Type} [AddCommGroup M] (f : Pt → Pt → M) : Pt → List Pt → Pt → M
  | x, [], z => f x z
  | x, y :: r, z => f x y + pathSum f y r z

/-- The sum of `f` over the edges of the closed polygon. -/
def loopSum {M : Type} [AddCommGroup M] (f : Pt → Pt → M) : List Pt → M
  | [] => 0
  | a :: r => pathSum f a r a

/-- Twice the signed area of the polygon. -/
def shoelace (vs : List Pt) : ℝ := loopSum (fun a b => a.1 * b.2 - a.2 * b.1) vs

/-- How often the polygon winds about `q`. -/
noncomputable def winding (q : Pt) (vs : List Pt) : ℤ := loopSum (cr q) vs

/-- The polygon in counter-clockwise order. -/
def IsCCW (vs ws : List Pt) : Prop := (0 ≤ shoelace vs ∧ ws = vs) ∨ (shoelace vs < 0 ∧ ws = vs.reverse)

/-! ## Sums over polygons -/

section
variable {M : Type} [AddCommGroup M] {f : Pt → Pt → M}

/-- The sum over the edges of the triangles. -/
def triSum (f : Pt → Pt → M) (ts : List (Pt × Pt × Pt)) : M := (ts.map (fun t => f t.1 t.2.1 + f t.2.1 t.2.2 + f t.2.2 t.1)).sum

theorem pathSum_append (x y z : Pt) (l r : List Pt) : pathSum f x (l ++ y :: r) z = pathSum f x l y + pathSum f y r z := by
  induction l generalizing x with
  | nil => rfl
  | cons a l ih => rw [List.cons_append, pathSum, ih, pathSum, add_assoc]

theorem loopSum_rotate (l r : List Pt) : loopSum f (l ++ r) = loopSum f (r ++ l) := by
  match l, r with
  | [], r => simp
  | a :: l, [] => simp
  | a :: l, b :: r =>
    rw [List.cons_append, List.cons_append, loopSum, loopSum, pathSum_append, pathSum_append, add_comm]

theorem pathSum_last (x z w : Pt) (l : List Pt) : pathSum f x l z - f ((x :: l).getLast (by simp)) z = pathSum f x l w - f ((x :: l).getLast (by simp)) w := by
  induction l generalizing x with
  | nil => simp [pathSum]
  | cons a l ih =>
    have := ih a
    rw [pathSum, pathSum, List.getLast_cons (by simp), add_sub_assoc, add_sub_assoc, this]

/-- Cutting off the first corner. -/
theorem loopSum_cut (hf : ∀ a b, f a b = - f b a) (b c : Pt) (l : List Pt) :
    loopSum f (b :: c :: l) = (f ((c :: l).getLast (by simp)) b + f b c + f c ((c :: l).getLast (by simp))) + loopSum f (c :: l) := by
  rw [loopSum, loopSum, pathSum]
  have := pathSum_last (f := f) c b c l
  rw [hf c]
  rw [sub_eq_sub_iff_add_eq_add] at this
  generalize f ((c :: l).getLast (by simp)) b = u at *
  generalize f ((c :: l).getLast (by simp)) c = v at *
  have h2 : pathSum f c l b = pathSum f c l c + u - v := by rw [eq_sub_iff_add_eq, this]
  rw [h2]; abel

theorem loopSum_reverse (hf : ∀ a b, f a b = - f b a) (vs : List Pt) : loopSum f vs.reverse = - loopSum f vs := by
  have hp : ∀ (x z : Pt) (l : List Pt), pathSum f z l.reverse x = - pathSum f x l z := by
    intro x z l
    induction l generalizing x with
    | nil => rw [List.reverse_nil, pathSum, pathSum, hf]
    | cons a l ih => rw [List.reverse_cons, pathSum_append, ih, pathSum, pathSum, hf a x, neg_add, add_comm]
  match vs with
  | [] => simp [loopSum]
  | a :: r =>
    rw [List.reverse_cons, loopSum_rotate, List.singleton_append, loopSum, loopSum, hp]

theorem fan_sum (hf : ∀ a b, f a b = - f b a) : ∀ vs : List Pt, 2 ≤ vs.length → triSum f (fan vs) = loopSum f vs
  | [], h => by simp at h
  | [_], h => by simp at h
  | [a, b], _ => by rw [fan]; simp [triSum, loopSum, pathSum, hf a b]; all_goals simp
  | a :: b :: c :: r, _ => by
    have ih := fan_sum hf (a :: c :: r) (by simp)
    rw [fan, triSum, List.map_cons, List.sum_cons]
    rw [triSum] at ih
    rw [ih]
    simp only [loopSum, pathSum, hf a c]
    abel
termination_by vs => vs.length

theorem fan_length : ∀ vs : List Pt, (fan vs).length = vs.length - 2
  | [] => by rw [fan]; rfl; all_goals simp
  | [_] => by rw [fan]; rfl; all_goals simp
  | [a, b] => by rw [fan]; rfl; all_goals simp
  | a :: b :: c :: r => by
    rw [fan, List.length_cons, fan_length (a :: c :: r)]; simp
termination_by vs => vs.length

theorem fan_mem : ∀ vs : List Pt, ∀ t ∈ fan vs, t.1 ∈ vs ∧ t.2.1 ∈ vs ∧ t.2.2 ∈ vs
  | [] => by rw [fan]; simp; all_goals simp
  | [_] => by rw [fan]; simp; all_goals simp
  | [a, b] => by rw [fan]; simp; all_goals simp
  | a :: b :: c :: r => by
    intro t ht
    rw [fan] at ht
    rcases List.mem_cons.1 ht with rfl | ht
    · simp
    · obtain ⟨h1, h2, h3⟩ := fan_mem (a :: c :: r) t ht
      have : ∀ x, x ∈ a :: c :: r → x ∈ a :: b :: c :: r := by intro x hx; simp only [List.mem_cons] at hx ⊢; tauto
      exact ⟨this _ h1, this _ h2, this _ h3⟩
termination_by vs => vs.length

end

/-! ## One ear -/

theorem split_at (vs : List Pt) (i : ℕ) (h : i < vs.length) : ∃ l b r, vs = l ++ b :: r ∧ l.length = i :=
  ⟨vs.take i, vs[i], vs.drop (i + 1), by rw [← List.drop_eq_getElem_cons h, List.take_append_drop], by rw [List.length_take]; omega⟩

/-- The corners read at index `i`: the vertex, the first of those after it, and the last. -/
theorem corners_at {vs l r : List Pt} {b : Pt} (hv : vs = l ++ b :: r) (h : 2 ≤ vs.length) :
    ∃ c m, r ++ l = c :: m ∧ Outcome.index vs ((l.length + vs.length - 1) % vs.length) = .ret ((c :: m).getLast (by simp)) ∧
      Outcome.index vs l.length = .ret b ∧ Outcome.index vs ((l.length + 1) % vs.length) = .ret c ∧ vs.eraseIdx l.length = l ++ r := by
  obtain ⟨c, m, hm⟩ : ∃ c m, r ++ l = c :: m := by
    cases hrl : r ++ l with
    | nil =>
      have : r.length + l.length = 0 := by rw [← List.length_append, hrl]; rfl
      rw [hv] at h; simp at h; omega
    | cons c m => exact ⟨c, m, rfl⟩
  have hrot : vs.rotate l.length = b :: c :: m := by rw [hv, List.rotate_append_length_eq, List.cons_append, hm]
  have hlen : vs.length = m.length + 2 := by
    have := congrArg List.length hrot
    rw [List.length_rotate] at this; simpa using this
  have hget : ∀ j < vs.length, vs[(j + l.length) % vs.length]? = (b :: c :: m)[j]? := by
    intro j hj
    rw [← hrot, List.getElem?_rotate hj]
  refine ⟨c, m, hm, ?_, ?_, ?_, ?_⟩
  · have := hget (vs.length - 1) (by omega)
    rw [show vs.length - 1 + l.length = l.length + vs.length - 1 by omega] at this
    rw [Outcome.index, this, hlen]
    have : (b :: c :: m)[m.length + 2 - 1]? = some ((c :: m).getLast (by simp)) := by
      rw [show m.length + 2 - 1 = (c :: m).length - 1 + 1 by simp, List.getElem?_cons_succ, ← List.getLast?_eq_getElem?, List.getLast?_eq_some_getLast]
    rw [this]
  · rw [Outcome.index, hv, List.getElem?_append_right le_rfl, Nat.sub_self]; rfl
  · have := hget 1 (by omega)
    rw [add_comm] at this
    rw [Outcome.index, this]; rfl
  · rw [hv, List.eraseIdx_append_of_length_le le_rfl, Nat.sub_self]; rfl

/-- The areas and the inside test agree with those of the specification. -/
theorem cross_eq (a b c : Pt) : cross a b c = area2 a b c := by rw [cross, area2]; ring

theorem noneInside_ret {vs : List Pt} {p i n : ℕ} {a b c : Pt} : ∀ {j k : ℕ}, j + k ≤ vs.length → ∃ r, noneInside vs p i n a b c j k = .ret r ∧
      (r = true ↔ ∀ m, j ≤ m → m < j + k → m ≠ p → m ≠ i → m ≠ n → ∀ q, vs[m]? = some q → inTri q a b c = false)
  | j, 0, _ => ⟨true, rfl, by simp; omega⟩
  | j, k + 1, h => by
    obtain ⟨r, hr, hs⟩ := noneInside_ret (vs := vs) (p := p) (i := i) (n := n) (a := a) (b := b) (c := c) (j := j + 1) (k := k) (by omega)
    rw [noneInside]
    by_cases hj : j = p ∨ j = i ∨ j = n
    · rw [if_pos hj, hr]
      refine ⟨r, rfl, hs.trans ⟨fun H m h1 h2 h3 h4 h5 q hq => ?_, fun H m h1 h2 h3 h4 h5 q hq => H m (by omega) (by omega) h3 h4 h5 q hq⟩⟩
      refine H m ?_ (by omega) h3 h4 h5 q hq
      rcases Nat.lt_or_ge j m with h | h
      · omega
      · have : m = j := by omega
        subst this; tauto
    · have hlt : j < vs.length := by omega
      rw [if_neg hj, Outcome.index, List.getElem?_eq_getElem hlt, Outcome.bind_ret]
      cases ht : inTri vs[j] a b c
      · rw [if_neg (by simp), hr]
        refine ⟨r, rfl, hs.trans ⟨fun H m h1 h2 h3 h4 h5 q hq => ?_, fun H m h1 h2 h3 h4 h5 q hq => H m (by omega) (by omega) h3 h4 h5 q hq⟩⟩
        rcases Nat.lt_or_ge j m with h | h
        · exact H m h (by omega) h3 h4 h5 q hq
        · have : m = j := by omega
          subst this
          rw [List.getElem?_eq_getElem hlt, Option.some.injEq] at hq
          rw [← hq, ht]
      · rw [if_pos rfl]
        refine ⟨false, rfl, by simp, fun H => ?_⟩
        push Not at hj
        have := H j le_rfl (by omega) hj.1 hj.2.1 hj.2.2 _ (List.getElem?_eq_getElem hlt)
        rw [ht] at this; exact this.symm

/-- `isEar` decides by the area of the corner and the other vertices. -/
theorem isEar_ret {vs : List Pt} {i : ℕ} (hi : i < vs.length) (h : 2 ≤ vs.length) : ∃ a b c, earAt vs i = .ret (a, b, c) ∧
    ∃ r, isEar vs i = .ret r ∧ (r = true ↔ geomEps < area2 a b c ∧
      ∀ m, m ≠ (i + vs.length - 1) % vs.length → m ≠ i → m ≠ (i + 1) % vs.length → ∀ q, vs[m]? = some q → inTri q a b c = false) := by
  obtain ⟨l, b, r, hv, rfl⟩ := split_at vs i hi
  obtain ⟨c, m, hm, h1, h2, h3, h4⟩ := corners_at hv h
  refine ⟨_, b, c, by rw [earAt, h1, Outcome.bind_ret, h2, Outcome.bind_ret, h3, Outcome.bind_ret], ?_⟩
  rw [isEar, h1, Outcome.bind_ret, h2, Outcome.bind_ret, h3, Outcome.bind_ret, cross_eq]
  by_cases hc : area2 ((c :: m).getLast (by simp)) b c ≤ geomEps
  · rw [if_pos hc]
    exact ⟨false, rfl, by simp; intro h; exact absurd hc (not_le.2 h)⟩
  · rw [if_neg hc]
    obtain ⟨x, hx, hs⟩ := noneInside_ret (vs := vs) (p := (l.length + vs.length - 1) % vs.length) (i := l.length) (n := (l.length + 1) % vs.length)
      (a := (c :: m).getLast (by simp)) (b := b) (c := c) (j := 0) (k := vs.length) (by omega)
    refine ⟨x, hx, hs.trans ⟨fun H => ⟨not_le.1 hc, fun m h1 h2 h3 q hq => ?_⟩, fun H m _ _ h1 h2 h3 q hq => H.2 m h1 h2 h3 q hq⟩⟩
    have := (List.getElem?_eq_some_iff.1 hq).1
    exact H m (by omega) (by omega) h1 h2 h3 q hq

theorem findEar_ret {vs : List Pt} (h : 2 ≤ vs.length) : ∀ {i k : ℕ}, i + k ≤ vs.length → ∃ o, findEar vs i k = .ret o ∧ ∀ j ∈ o, j < vs.length ∧ isEar vs j = .ret true
  | i, 0, _ => ⟨none, rfl, by simp⟩
  | i, k + 1, hk => by
    obtain ⟨_, _, _, _, r, hr, _⟩ := isEar_ret (vs := vs) (i := i) (by omega) h
    rw [findEar, hr, Outcome.bind_ret]
    cases r
    · rw [if_neg (by simp)]
      exact findEar_ret h (by omega)
    · rw [if_pos rfl]
      refine ⟨some i, rfl, fun j hj => ?_⟩
      rw [Option.mem_some_iff] at hj
      subst hj
      exact ⟨by omega, hr⟩

/-! ## The loop -/

/-- What the clipping loop guarantees for every list of vertices. -/
theorem clip_ret : ∀ {k : ℕ} {vs : List Pt}, 3 ≤ vs.length → vs.length ≤ k + 2 → ∃ ts, clip k vs = .ret ts ∧ ts.length + 2 = vs.length ∧
    (∀ t ∈ ts, t.1 ∈ vs ∧ t.2.1 ∈ vs ∧ t.2.2 ∈ vs) ∧
    ∀ (M : Type) [AddCommGroup M] (f : Pt → Pt → M), (∀ a b, f a b = - f b a) → triSum f ts = loopSum f vs
  | 0, vs, h3, hk => by omega
  | k + 1, vs, h3, hk => by
    rw [clip]
    by_cases h4 : 3 < vs.length
    · rw [if_pos h4]
      obtain ⟨o, ho, hs⟩ := findEar_ret (vs := vs) (by omega) (i := 0) (k := vs.length) (by omega)
      rw [ho, Outcome.bind_ret]
      match o, hs with
      | none, _ =>
        refine ⟨fan vs, rfl, by rw [fan_length]; omega, fan_mem vs, fun M _ f hf => fan_sum hf vs (by omega)⟩
      | some i, hs =>
        obtain ⟨hi, he⟩ := hs i rfl
        obtain ⟨l, b, r, hv, rfl⟩ := split_at vs i hi
        obtain ⟨c, m, hm, h1, h2, h3', h4'⟩ := corners_at hv (by omega)
        have hlr : (l ++ r).length + 1 = vs.length := by rw [hv]; simp; omega
        obtain ⟨ts, e1, e2, e3, e4⟩ := clip_ret (k := k) (vs := l ++ r) (by omega) (by omega)
        simp only [earAt, h1, h2, h3', h4', Outcome.bind_ret, e1]
        have hsub : ∀ x ∈ l ++ r, x ∈ vs := by
          intro x hx; rw [hv]; simp only [List.mem_append, List.mem_cons] at hx ⊢; tauto
        have hcm : ∀ x ∈ c :: m, x ∈ vs := by
          intro x hx; rw [← hm] at hx; exact hsub x (by simp only [List.mem_append] at hx ⊢; tauto)
        refine ⟨_, rfl, by rw [List.length_cons]; omega, ?_, ?_⟩
        · intro t ht
          rcases List.mem_cons.1 ht with rfl | ht
          · exact ⟨hcm _ (List.getLast_mem _), by rw [hv]; simp, hcm _ (by simp)⟩
          · obtain ⟨g1, g2, g3⟩ := e3 t ht
            exact ⟨hsub _ g1, hsub _ g2, hsub _ g3⟩
        · intro M _ f hf
          have := e4 M f hf
          rw [triSum] at this
          rw [triSum, List.map_cons, List.sum_cons, this, loopSum_rotate l r, hv, loopSum_rotate l (b :: r), List.cons_append, hm, loopSum_cut hf b c m]
    · have e3 : vs.length = 3 := by omega
      rw [if_neg h4, if_pos e3]
      match vs, e3 with
      | [a, b, c], _ =>
        refine ⟨[(a, b, c)], rfl, rfl, by simp, fun M _ f hf => ?_⟩
        simp only [triSum, loopSum, pathSum, List.map_cons, List.map_nil, List.sum_cons, List.sum_nil, add_zero]
        abel

/-! ## The signed area -/

theorem pathSum_eq {M : Type} [AddCommGroup M] (f : Pt → Pt → M) (x z : Pt) (l : List Pt) :
    pathSum f x l z = ∑ j ∈ Finset.range (l.length + 1), f ((x :: l ++ [z]).getD j 0) ((x :: l ++ [z]).getD (j + 1) 0) := by
  induction l generalizing x with
  | nil => simp [pathSum]
  | cons a l ih => rw [List.length_cons, Finset.sum_range_succ', pathSum, ih, add_comm]; rfl

theorem loopSum_eq {M : Type} [AddCommGroup M] (f : Pt → Pt → M) (vs : List Pt) :
    loopSum f vs = ∑ j ∈ Finset.range vs.length, f (vs.getD j 0) (vs.getD ((j + 1) % vs.length) 0) := by
  match vs with
  | [] => simp [loopSum]
  | a :: r =>
    rw [loopSum, pathSum_eq, List.length_cons]
    refine Finset.sum_congr rfl (fun j hj => ?_)
    rw [Finset.mem_range] at hj
    rw [List.getD_append _ _ _ _ (by simpa using hj)]
    rcases Nat.lt_or_ge (j + 1) (r.length + 1) with h | h
    · rw [Nat.mod_eq_of_lt h, List.getD_append _ _ _ _ (by simpa using h)]
    · have : j + 1 = r.length + 1 := by omega
      rw [this, Nat.mod_self, List.getD_append_right _ _ _ _ (by simp)]
      simp

theorem area_ret (vs : List Pt) : forRange vs.length (0 : ℝ) (areaStep vs) = .ret (shoelace vs) := by
  obtain ⟨s, h1, h2⟩ := forRange_rule
    (fun i s => s = ∑ j ∈ Finset.range i, ((vs.getD j 0).1 * (vs.getD ((j + 1) % vs.length) 0).2 - (vs.getD j 0).2 * (vs.getD ((j + 1) % vs.length) 0).1))
    vs.length (0 : ℝ) (areaStep vs) (by simp)
    (fun i s hi hs => by
      have hm : (i + 1) % vs.length < vs.length := Nat.mod_lt _ (by omega)
      refine ⟨_, by rw [areaStep, Outcome.index, List.getElem?_eq_getElem hi, Outcome.bind_ret, Outcome.index, List.getElem?_eq_getElem hm, Outcome.bind_ret], ?_⟩
      rw [Finset.sum_range_succ, hs, List.getD_eq_getElem _ _ hi, List.getD_eq_getElem _ _ hm]
      ring)
  rw [h1, h2, shoelace, loopSum_eq]

theorem shoe_anti (a b : Pt) : a.1 * b.2 - a.2 * b.1 = - (b.1 * a.2 - b.2 * a.1) := by ring

theorem shoelace_reverse (vs : List Pt) : shoelace vs.reverse = - shoelace vs := loopSum_reverse shoe_anti vs

/-- `earClip` clips the polygon in counter-clockwise order. -/
theorem earClip_eq {vs : List Pt} (h : 4 ≤ vs.length) : ∃ ws, IsCCW vs ws ∧ earClip vs = clip vs.length ws ∧ ws.length = vs.length ∧ (∀ x, x ∈ ws → x ∈ vs) := by
  rw [earClip, if_neg (by omega), if_neg (by omega), area_ret, Outcome.bind_ret]
  by_cases hs : shoelace vs < 0
  · exact ⟨vs.reverse, Or.inr ⟨hs, rfl⟩, by rw [if_pos hs], by simp, by simp⟩
  · exact ⟨vs, Or.inl ⟨not_lt.1 hs, rfl⟩, by rw [if_neg hs], rfl, by simp⟩

theorem IsCCW.area {vs ws : List Pt} (h : IsCCW vs ws) : shoelace ws = |shoelace vs| := by
  rcases h with ⟨h, rfl⟩ | ⟨h, rfl⟩
  · rw [abs_of_nonneg h]
  · rw [shoelace_reverse, abs_of_neg h]

theorem IsCCW.unique {vs ws us : List Pt} (h : IsCCW vs ws) (h' : IsCCW vs us) : us = ws := by
  rcases h with ⟨h, rfl⟩ | ⟨h, rfl⟩ <;> rcases h' with ⟨h', rfl⟩ | ⟨h', rfl⟩
  · rfl
  · linarith
  · linarith
  · rfl

/-! ## The property -/

/-- **C129.** A list of fewer than three vertices gives no triangle, and a triangle gives itself. -/
theorem earClip_small (a b c : Pt) : earClip [] = .ret [] ∧ earClip [a] = .ret [] ∧ earClip [a, b] = .ret [] ∧ earClip [a, b, c] = .ret [(a, b, c)] := by
  refine ⟨?_, ?_, ?_, ?_⟩ <;> simp [earClip, Outcome.index]

/-- **C129.** For every polygon, simple or not, `EarClipTriangulation` returns two triangles fewer than there are vertices; their corners are
vertices, their signed areas add up to the area of the polygon, and about every point their winding numbers add up to that of the polygon. -/
theorem earClip_spec {vs : List Pt} (h : 4 ≤ vs.length) : ∃ ts ws, earClip vs = .ret ts ∧ IsCCW vs ws ∧ ts.length = vs.length - 2 ∧
    (∀ t ∈ ts, t.1 ∈ vs ∧ t.2.1 ∈ vs ∧ t.2.2 ∈ vs) ∧
    (ts.map (fun t => area2 t.1 t.2.1 t.2.2)).sum = |shoelace vs| ∧
    ∀ q, (ts.map (fun t => tri q t.1 t.2.1 t.2.2)).sum = winding q ws := by
  obtain ⟨ws, hw, he, hl, hm⟩ := earClip_eq h
  obtain ⟨ts, h1, h2, h3, h4⟩ := clip_ret (k := vs.length) (vs := ws) (by omega) (by omega)
  refine ⟨ts, ws, by rw [he, h1], hw, by omega, fun t ht => ?_, ?_, fun q => ?_⟩
  · obtain ⟨g1, g2, g3⟩ := h3 t ht
    exact ⟨hm _ g1, hm _ g2, hm _ g3⟩
  · rw [← hw.area, shoelace, ← h4 ℝ _ shoe_anti, triSum]
    congr 2
    funext t
    simp only [area2]; ring
  · rw [winding, ← h4 ℤ (cr q) (Wind.cr_anti q), triSum]
    rfl

/-- Sums of zeros and ones. -/
theorem sum_cases {α : Type} (g : α → ℤ) : ∀ (ts : List α), (∀ t ∈ ts, g t = 0 ∨ g t = 1) → 0 ≤ (ts.map g).sum ∧ ((ts.map g).sum = 0 → ∀ t ∈ ts, g t ≠ 1) ∧
    (1 ≤ (ts.map g).sum → ∃ t ∈ ts, g t = 1) ∧ ((ts.map g).sum = 1 → ts.Pairwise (fun t u => ¬ (g t = 1 ∧ g u = 1)))
  | [], _ => by simp
  | t :: ts, h => by
    obtain ⟨i0, i1, i2, i3⟩ := sum_cases g ts (fun u hu => h u (by simp [hu]))
    rw [List.map_cons, List.sum_cons]
    have ht := h t (by simp)
    refine ⟨by omega, fun hs u hu => ?_, fun hs => ?_, fun hs => ?_⟩
    · rcases List.mem_cons.1 hu with rfl | hu
      · omega
      · exact i1 (by omega) u hu
    · rcases ht with ht | ht
      · obtain ⟨u, hu, hg⟩ := i2 (by omega)
        exact ⟨u, by simp [hu], hg⟩
      · exact ⟨t, by simp, ht⟩
    · rw [List.pairwise_cons]
      rcases ht with ht | ht
      · exact ⟨fun u _ hc => by omega, i3 (by omega)⟩
      · have h0 := i1 (by omega)
        exact ⟨fun u hu hc => h0 u hu hc.2, List.Pairwise.imp_of_mem (fun hu _ _ hc => h0 _ hu hc.1) (List.pairwise_of_forall (l := ts) (R := fun _ _ => True) (fun _ _ => trivial))⟩

/-- **C129.** If the triangles returned are counter-clockwise, they are a triangulation: a point about which the polygon does not wind is inside
none of them; a point about which it winds is in one of them; and if it winds once, the point is not inside two. -/
theorem earClip_cover {vs ws : List Pt} {ts : List (Pt × Pt × Pt)} (h : 4 ≤ vs.length) (he : earClip vs = .ret ts) (hw : IsCCW vs ws)
    (hc : ∀ t ∈ ts, 0 < area2 t.1 t.2.1 t.2.2) (q : Pt) :
    0 ≤ winding q ws ∧ (winding q ws = 0 → ∀ t ∈ ts, ¬ Inside q t.1 t.2.1 t.2.2) ∧ (winding q ws ≠ 0 → ∃ t ∈ ts, InsideEq q t.1 t.2.1 t.2.2) ∧
    (winding q ws = 1 → ts.Pairwise (fun t u => ¬ (Inside q t.1 t.2.1 t.2.2 ∧ Inside q u.1 u.2.1 u.2.2))) := by
  obtain ⟨ts', ws', e1, e2, -, -, -, e3⟩ := earClip_spec h
  rw [he, Outcome.ret.injEq] at e1
  subst e1
  have := hw.unique e2
  subst this
  rw [← e3 q]
  obtain ⟨s0, s1, s2, s3⟩ := sum_cases (fun t : Pt × Pt × Pt => tri q t.1 t.2.1 t.2.2) ts (fun t ht => (Wind.tri_cases (hc t ht)).1)
  refine ⟨s0, fun hz t ht hi => s1 hz t ht ((Wind.tri_cases (hc t ht)).2.2 hi), fun hz => ?_, fun h1 => ?_⟩
  · obtain ⟨t, ht, h1⟩ := s2 (by omega)
    exact ⟨t, ht, (Wind.tri_cases (hc t ht)).2.1 h1⟩
  · exact (s3 h1).imp_of_mem (fun ht hu hn hi => hn ⟨(Wind.tri_cases (hc _ ht)).2.2 hi.1, (Wind.tri_cases (hc _ hu)).2.2 hi.2⟩)

/-! ## Convex polygons -/

/-- The polygon is convex and counter-clockwise: any three vertices, in order, turn left by more than the tolerance. -/
def Convex (ws : List Pt) : Prop := ∀ x y z : Pt, List.Sublist [x, y, z] ws → geomEps < area2 x y z

theorem geomEps_pos : (0 : ℝ) < geomEps := by norm_num [geomEps]

/-- The first vertex of a convex polygon is an ear. -/
theorem convex_ear {b c d e : Pt} {r : List Pt} (h : Convex (b :: c :: d :: e :: r)) : isEar (b :: c :: d :: e :: r) 0 = .ret true := by
  set vs := b :: c :: d :: e :: r with hvs
  obtain ⟨c', m, hm, h1, h2, h3, h4⟩ := corners_at (vs := vs) (l := []) (b := b) (r := c :: d :: e :: r) rfl (by simp [hvs])
  obtain ⟨a, b', c'', g1, x, g2, g3⟩ := isEar_ret (vs := vs) (i := 0) (by simp [hvs]) (by simp [hvs])
  rw [List.append_nil] at hm
  simp only [List.length_nil] at h1 h2 h3
  rw [earAt, h1, Outcome.bind_ret, h2, Outcome.bind_ret, h3, Outcome.bind_ret, Outcome.ret.injEq] at g1
  have ga : (c' :: m).getLast (by simp) = a := congrArg Prod.fst g1
  have gb : b = b' := congrArg (fun t : Pt × Pt × Pt => t.2.1) g1
  have gc : c' = c'' := congrArg (fun t : Pt × Pt × Pt => t.2.2) g1
  have hc' : c = c' := (List.cons.inj hm).1
  have hm' : d :: e :: r = m := (List.cons.inj hm).2
  rw [← gb, ← gc] at g3
  clear gb gc g1
  subst hc'; subst hm'
  have hla : (d :: e :: r).getLast (by simp) = a := by rw [← ga]; rfl
  have hsp : d :: e :: r = (d :: e :: r).dropLast ++ [a] := by rw [← hla, List.dropLast_append_getLast]
  have hx : x = true := by
    refine g3.2 ⟨?_, fun j hj1 hj2 hj3 q hq => ?_⟩
    · have := h b c a (by
        rw [hvs]
        refine List.Sublist.cons_cons _ (List.Sublist.cons_cons _ ?_)
        rw [hsp]; exact List.sublist_append_right _ _)
      rwa [Wind.area2_rot] at this
    · have hlen : vs.length = r.length + 4 := by simp [hvs]
      have hjl := (List.getElem?_eq_some_iff.1 hq).1
      rw [hlen] at hj1 hj3 hjl
      rw [show 0 + (r.length + 4) - 1 = r.length + 3 by omega, Nat.mod_eq_of_lt (by omega)] at hj1
      rw [Nat.mod_eq_of_lt (by omega)] at hj3
      obtain ⟨j', rfl⟩ : ∃ j', j = j' + 2 := ⟨j - 2, by omega⟩
      have hq' : (d :: e :: r)[j']? = some q := by simpa [hvs] using hq
      have hqm : q ∈ (d :: e :: r).dropLast := by
        rw [hsp, List.getElem?_append_left (by simp; omega)] at hq'
        exact List.mem_of_getElem? hq'
      have hsub : List.Sublist [b, c, q, a] vs := by
        rw [hvs]
        refine List.Sublist.cons_cons _ (List.Sublist.cons_cons _ ?_)
        rw [hsp]
        exact List.Sublist.append (l₁ := [q]) (List.singleton_sublist.2 hqm) (List.Sublist.refl [a])
      have k1 := h c q a ((List.sublist_cons_self b [c, q, a]).trans hsub)
      have k2 := h b q a (List.Sublist.trans (List.Sublist.cons_cons _ (List.sublist_cons_self c [q, a])) hsub)
      rw [inTri, cross_eq, cross_eq, cross_eq]
      have e1 : area2 c a q = - area2 c q a := by simp only [area2]; ring
      have e2 : area2 a b q = area2 b q a := by simp only [area2]; ring
      rw [e1, e2]
      have : (-area2 c q a < -geomEps) := by linarith
      simp [this, k2]
  rw [g2, hx]

theorem clip_convex : ∀ {k : ℕ} {vs : List Pt}, 3 ≤ vs.length → vs.length ≤ k + 2 → Convex vs → ∃ ts, clip k vs = .ret ts ∧ ∀ t ∈ ts, 0 < area2 t.1 t.2.1 t.2.2
  | 0, vs, h3, hk, _ => by omega
  | k + 1, vs, h3, hk, hc => by
    match vs, h3 with
    | [a, b, c], _ =>
      refine ⟨[(a, b, c)], rfl, ?_⟩
      simp only [List.mem_singleton, forall_eq]
      exact geomEps_pos.trans (hc a b c (List.Sublist.refl _))
    | b :: c :: d :: e :: r, _ =>
      have hear := convex_ear hc
      obtain ⟨ts, h1, h2⟩ := clip_convex (k := k) (vs := c :: d :: e :: r) (by simp) (by simp at hk ⊢; omega)
        (fun x y z hs => hc x y z (hs.trans (List.sublist_cons_self _ _)))
      obtain ⟨x, y, z, g1, w, g2, g3⟩ := isEar_ret (vs := b :: c :: d :: e :: r) (i := 0) (by simp) (by simp)
      rw [hear, Outcome.ret.injEq] at g2
      have hf : findEar (b :: c :: d :: e :: r) 0 (b :: c :: d :: e :: r).length = .ret (some 0) := by
        rw [List.length_cons, findEar, hear, Outcome.bind_ret, if_pos rfl]
      rw [clip, if_pos (by simp), hf]
      simp only [Outcome.bind_ret, g1, List.eraseIdx_zero, List.tail_cons, h1]
      refine ⟨_, rfl, fun t ht => ?_⟩
      rcases List.mem_cons.1 ht with rfl | ht
      · exact geomEps_pos.trans (g3.1 g2.symm).1
      · exact h2 t ht

/-- **C129.** For a convex polygon, in either order, the triangles are counter-clockwise, so `earClip_cover` applies. -/
theorem earClip_convex {ws vs : List Pt} (h : 4 ≤ ws.length) (hc : Convex ws) (hv : vs = ws ∨ vs = ws.reverse) :
    IsCCW vs ws ∧ ∃ ts, earClip vs = .ret ts ∧ ∀ t ∈ ts, 0 < area2 t.1 t.2.1 t.2.2 := by
  have hl : vs.length = ws.length := by rcases hv with rfl | rfl <;> simp
  obtain ⟨ts, h1, h2⟩ := clip_convex (k := ws.length) (vs := ws) (by omega) (by omega) hc
  have hpos : 0 < shoelace ws := by
    obtain ⟨ts', g1, g2, -, g3⟩ := clip_ret (k := ws.length) (vs := ws) (by omega) (by omega)
    rw [h1, Outcome.ret.injEq] at g1
    subst g1
    rw [shoelace, ← g3 ℝ _ shoe_anti, triSum]
    refine List.sum_pos _ (fun x hx => ?_) ?_
    · obtain ⟨t, ht, rfl⟩ := List.mem_map.1 hx
      have := h2 t ht
      simp only [area2] at this
      linarith
    · intro h0
      rw [List.map_eq_nil_iff] at h0
      rw [h0] at g2; simp at g2; omega
  have hw : IsCCW vs ws := by
    rcases hv with rfl | rfl
    · exact Or.inl ⟨hpos.le, rfl⟩
    · exact Or.inr ⟨by rw [shoelace_reverse]; linarith, by simp⟩
  refine ⟨hw, ts, ?_, h2⟩
  obtain ⟨ws', hw', he, -, -⟩ := earClip_eq (vs := vs) (by omega)
  have := hw.unique hw'
  subst this
  rw [he, hl, h1]

/-- A non-trivial case: the square, clockwise. -/
example : Convex [(0, 0), (1, 0), (1, 1), (0, 1)] ∧ [(0, 1), (1, 1), (1, 0), (0, 0)] = ([(0, 0), (1, 0), (1, 1), (0, 1)] : List Pt).reverse := by
  refine ⟨fun x y z h => ?_, rfl⟩
  have hmem : ([x, y, z] : List Pt) ∈ ([(0, 0), (1, 0), (1, 1), (0, 1)] : List Pt).sublists := List.mem_sublists.2 h
  simp [List.sublists, List.sublistsAux] at hmem
  rcases hmem with ⟨rfl, rfl, rfl⟩ | ⟨rfl, rfl, rfl⟩ | ⟨rfl, rfl, rfl⟩ | ⟨rfl, rfl, rfl⟩ <;> norm_num [area2, geomEps]

/-- A non-trivial case of `earClip_cover`: the dart, which is not convex. -/
example : earClip [(-2, -1), (0, 0), (2, -1), (0, 3)] = .ret [((0, 3), (-2, -1), (0, 0)), ((0, 0), (2, -1), (0, 3))] ∧
    0 < area2 (0, 3) (-2, -1) (0, 0) ∧ 0 < area2 (0, 0) (2, -1) (0, 3) := by
  refine ⟨?_, by norm_num [area2], by norm_num [area2]⟩
  obtain ⟨ws, hw, he, -, -⟩ := earClip_eq (vs := [(-2, -1), (0, 0), (2, -1), (0, 3)]) (by simp)
  have hs : (0 : ℝ) ≤ shoelace [(-2, -1), (0, 0), (2, -1), (0, 3)] := by
    simp only [shoelace, loopSum, pathSum]; norm_num
  have hu := hw.unique (Or.inl ⟨hs, rfl⟩)
  subst hu
  rw [he]
  have hf : isEar [(-2, -1), (0, 0), (2, -1), (0, 3)] 0 = .ret true := by
    simp [isEar, Outcome.index, cross, geomEps, noneInside, inTri]; norm_num
  simp only [List.length_cons, List.length_nil, Nat.zero_add, Nat.reduceAdd]
  rw [clip, if_pos (by simp)]
  simp [findEar, hf, earAt, Outcome.index, clip]

/-- **C129, where the code disagrees.** For this simple polygon, a dart of size 10⁻⁶, no corner turns by more than the absolute tolerance; the fan
returned has a clockwise triangle, which lies outside of the polygon: its inner points have winding number zero. -/
theorem earClip_wrong : ∃ (b c d a q : Pt) (ts : List (Pt × Pt × Pt)), earClip [b, c, d, a] = .ret ts ∧ (b, c, d) ∈ ts ∧ Inside q d c b ∧ winding q [b, c, d, a] = 0 ∧
    0 < area2 d a b ∧ Inside c d a b := by
  refine ⟨(-2 / 10 ^ 6, -1 / 10 ^ 6), (0, 0), (2 / 10 ^ 6, -1 / 10 ^ 6), (0, 3 / 10 ^ 6), (0, -1 / (2 * 10 ^ 6)),
    [((-2 / 10 ^ 6, -1 / 10 ^ 6), (0, 0), (2 / 10 ^ 6, -1 / 10 ^ 6)), ((-2 / 10 ^ 6, -1 / 10 ^ 6), (2 / 10 ^ 6, -1 / 10 ^ 6), (0, 3 / 10 ^ 6))], ?_, ?_, ?_, ?_, ?_, ?_⟩
  rotate_left
  · exact List.mem_cons_self
  · norm_num [Inside, area2]
  · simp only [winding, loopSum, pathSum, cr, Wind.up, area2]; norm_num
  · norm_num [area2]
  · norm_num [Inside, area2]
  · obtain ⟨ws, hw, he, -, -⟩ := earClip_eq (vs := [(-2 / 10 ^ 6, -1 / 10 ^ 6), (0, 0), (2 / 10 ^ 6, -1 / 10 ^ 6), (0, 3 / 10 ^ 6)]) (by simp)
    have hs : (0 : ℝ) ≤ shoelace [(-2 / 10 ^ 6, -1 / 10 ^ 6), (0, 0), (2 / 10 ^ 6, -1 / 10 ^ 6), (0, 3 / 10 ^ 6)] := by
      simp only [shoelace, loopSum, pathSum]; norm_num
    have hu := hw.unique (Or.inl ⟨hs, rfl⟩)
    subst hu
    rw [he]
    have hf : ∀ i < 4, isEar [(-2 / 10 ^ 6, -1 / 10 ^ 6), (0, 0), (2 / 10 ^ 6, -1 / 10 ^ 6), (0, 3 / 10 ^ 6)] i = .ret false := by
      intro i hi
      interval_cases i <;> (simp [isEar, Outcome.index, cross, geomEps]; norm_num)
    have hfe : findEar [(-2 / 10 ^ 6, -1 / 10 ^ 6), (0, 0), (2 / 10 ^ 6, -1 / 10 ^ 6), (0, 3 / 10 ^ 6)] 0 4 = .ret none := by
      simp [findEar, hf]
    simp only [List.length_cons, List.length_nil, Nat.zero_add, Nat.reduceAdd]
    rw [clip]
    simp only [List.length_cons, List.length_nil, Nat.zero_add, Nat.reduceAdd, hfe, Outcome.bind_ret]
    rw [if_pos (by norm_num)]
    simp [fan]

end Verif.CompGeo.Ear
