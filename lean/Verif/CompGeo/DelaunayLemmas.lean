import Mathlib.Tactic
import Verif.CompGeo.Triangulation
import Verif.CompGeo.Winding

/-!
# The invariant of the incremental Delaunay triangulation
-/

set_option autoImplicit false

namespace Verif.CompGeo.Del
open Wind (up cr tri Inside InsideEq area2_swap area2_rot area2_split)

/-! ## The map from edges -/

theorem keyLt_iff (k l : ℕ × ℕ) : keyLt k l = true ↔ k.1 < l.1 ∨ (k.1 = l.1 ∧ k.2 < l.2) := by simp [keyLt]

section Maps
variable {β : Type}

/-- The values under a key. -/
def get (m : List ((ℕ × ℕ) × List β)) (k : ℕ × ℕ) : List β := (m.filter (fun g => g.1 = k)).flatMap Prod.snd

/-- The keys increase. -/
def Sorted (m : List ((ℕ × ℕ) × List β)) : Prop := m.Pairwise (fun g h => keyLt g.1 h.1 = true)

theorem get_cons (g : (ℕ × ℕ) × List β) (m : List ((ℕ × ℕ) × List β)) (k : ℕ × ℕ) : get (g :: m) k = (if g.1 = k then g.2 else []) ++ get m k := by
  rw [get, get, List.filter_cons]
  by_cases h : g.1 = k <;> simp [h]

theorem enter_sorted {m : List ((ℕ × ℕ) × List β)} (h : Sorted m) (k : ℕ × ℕ) (x : β) :
    Sorted (enter m k x) ∧ ∀ g ∈ enter m k x, g.1 = k ∨ ∃ g' ∈ m, g'.1 = g.1 := by
  induction m with
  | nil => exact ⟨List.pairwise_singleton _ _, fun g hg => Or.inl (by rw [enter, List.mem_singleton] at hg; rw [hg])⟩
  | cons a r ih =>
    obtain ⟨l, xs⟩ := a
    rw [Sorted, List.pairwise_cons] at h
    rw [enter]
    by_cases h1 : k = l
    · rw [if_pos h1]
      refine ⟨List.pairwise_cons.2 h, fun g hg => ?_⟩
      rcases List.mem_cons.1 hg with h | h
      · exact Or.inl (by rw [h, h1])
      · exact Or.inr ⟨g, by simp [h], rfl⟩
    · rw [if_neg h1]
      by_cases h2 : keyLt k l = true
      · rw [if_pos h2]
        refine ⟨List.pairwise_cons.2 ⟨fun g hg => ?_, List.pairwise_cons.2 h⟩, fun g hg => ?_⟩
        · rcases List.mem_cons.1 hg with hg | hg
          · rw [hg]; exact h2
          · have := h.1 g hg
            rw [keyLt_iff] at this h2 ⊢; simp only at this h2 ⊢; omega
        · rcases List.mem_cons.1 hg with hg | hg
          · exact Or.inl (by rw [hg])
          · exact Or.inr ⟨g, hg, rfl⟩
      · rw [if_neg h2]
        obtain ⟨i1, i2⟩ := ih h.2
        refine ⟨List.pairwise_cons.2 ⟨fun g hg => ?_, i1⟩, fun g hg => ?_⟩
        · rcases i2 g hg with h3 | ⟨g', hg', h3⟩
          · rw [h3, keyLt_iff]
            rw [keyLt_iff] at h2
            have : ¬ (k.1 = l.1 ∧ k.2 = l.2) := fun e => h1 (Prod.ext e.1 e.2)
            simp only; omega
          · rw [← h3]; exact h.1 g' hg'
        · rcases List.mem_cons.1 hg with hg | hg
          · exact Or.inr ⟨g, by simp [hg], rfl⟩
          · rcases i2 g hg with h3 | ⟨g', hg', h3⟩
            · exact Or.inl h3
            · exact Or.inr ⟨g', by simp [hg'], h3⟩

theorem keyLt_ne {k l : ℕ × ℕ} (h : keyLt k l = true) : k ≠ l := by
  rintro rfl; rw [keyLt_iff] at h; omega

theorem get_nil_of {m : List ((ℕ × ℕ) × List β)} {k : ℕ × ℕ} (h : ∀ g ∈ m, g.1 ≠ k) : get m k = [] := by
  rw [get, List.filter_eq_nil_iff.2 (fun g hg => by simpa using h g hg)]; rfl

theorem enter_get {m : List ((ℕ × ℕ) × List β)} (h : Sorted m) (k l : ℕ × ℕ) (x : β) :
    get (enter m k x) l = get m l ++ (if k = l then [x] else []) := by
  induction m with
  | nil => rw [enter, get_cons]; simp [get]
  | cons a r ih =>
    obtain ⟨l', xs⟩ := a
    rw [Sorted, List.pairwise_cons] at h
    rw [enter]
    by_cases h1 : k = l'
    · rw [if_pos h1, get_cons, get_cons]
      by_cases h2 : l' = l
      · have : get r l = [] := get_nil_of (fun g hg => by rw [← h2]; exact (keyLt_ne (h.1 g hg)).symm)
        simp [h1, h2, this]
      · simp [h1, h2]
    · rw [if_neg h1]
      by_cases h2 : keyLt k l' = true
      · rw [if_pos h2, get_cons]
        by_cases h3 : k = l
        · have : get ((l', xs) :: r) l = [] := get_nil_of (fun g hg => by
            rw [← h3]
            rcases List.mem_cons.1 hg with hg | hg
            · rw [hg]; exact (keyLt_ne h2).symm
            · have h4 := h.1 g hg
              have : keyLt k g.1 = true := by rw [keyLt_iff] at *; simp only at *; omega
              exact (keyLt_ne this).symm)
          simp [h3, this]
        · simp [h3]
      · rw [if_neg h2, get_cons, get_cons, ih h.2, List.append_assoc]

theorem enter_nonempty {m : List ((ℕ × ℕ) × List β)} (h : ∀ g ∈ m, g.2 ≠ []) (k : ℕ × ℕ) (x : β) : ∀ g ∈ enter m k x, g.2 ≠ [] := by
  induction m with
  | nil => intro g hg; rw [enter, List.mem_singleton] at hg; rw [hg]; simp
  | cons a r ih =>
    obtain ⟨l, xs⟩ := a
    intro g hg
    rw [enter] at hg
    by_cases h1 : k = l
    · rw [if_pos h1] at hg
      rcases List.mem_cons.1 hg with hg | hg
      · rw [hg]; simp
      · exact h g (by simp [hg])
    · rw [if_neg h1] at hg
      by_cases h2 : keyLt k l = true
      · rw [if_pos h2] at hg
        rcases List.mem_cons.1 hg with hg | hg
        · rw [hg]; simp
        · exact h g hg
      · rw [if_neg h2] at hg
        rcases List.mem_cons.1 hg with hg | hg
        · exact h g (by simp [hg])
        · exact ih (fun g hg => h g (by simp [hg])) g hg

theorem enter_sum {M : Type} [AddCommMonoid M] (φ : β → M) (m : List ((ℕ × ℕ) × List β)) (k : ℕ × ℕ) (x : β) :
    ((enter m k x).map (fun g => (g.2.map φ).sum)).sum = (m.map (fun g => (g.2.map φ).sum)).sum + φ x := by
  induction m with
  | nil => simp [enter]
  | cons a r ih =>
    obtain ⟨l, xs⟩ := a
    rw [enter]
    by_cases h1 : k = l
    · rw [if_pos h1]; simp only [List.map_cons, List.sum_cons, List.map_append, List.sum_append, List.map_nil, List.sum_nil, add_zero]; abel
    · rw [if_neg h1]
      by_cases h2 : keyLt k l = true
      · rw [if_pos h2]; simp only [List.map_cons, List.sum_cons, List.map_nil, List.sum_nil, add_zero]; abel
      · rw [if_neg h2]; simp only [List.map_cons, List.sum_cons, ih]; abel

theorem enterAll_snoc (xs : List ((ℕ × ℕ) × β)) (x : (ℕ × ℕ) × β) : enterAll (xs ++ [x]) = enter (enterAll xs) x.1 x.2 := by
  rw [enterAll, List.foldl_append]; rfl

theorem enterAll_spec (xs : List ((ℕ × ℕ) × β)) :
    Sorted (enterAll xs) ∧ (∀ g ∈ enterAll xs, g.2 ≠ []) ∧ ∀ k, get (enterAll xs) k = (xs.filter (fun x => x.1 = k)).map Prod.snd := by
  induction xs using List.reverseRecOn with
  | nil => exact ⟨List.Pairwise.nil, by simp [enterAll], fun k => rfl⟩
  | append_singleton xs x ih =>
    obtain ⟨h1, h2, h3⟩ := ih
    rw [enterAll_snoc]
    refine ⟨(enter_sorted h1 _ _).1, enter_nonempty h2 _ _, fun k => ?_⟩
    rw [enter_get h1, h3, List.filter_append, List.map_append]
    by_cases h : x.1 = k <;> simp [h]

theorem enterAll_sum {M : Type} [AddCommMonoid M] (φ : β → M) (xs : List ((ℕ × ℕ) × β)) :
    ((enterAll xs).map (fun g => (g.2.map φ).sum)).sum = (xs.map (fun x => φ x.2)).sum := by
  induction xs using List.reverseRecOn with
  | nil => rfl
  | append_singleton xs x ih =>
    rw [enterAll_snoc, enter_sum, ih]; simp

theorem get_of_mem {m : List ((ℕ × ℕ) × List β)} (h : Sorted m) {g : (ℕ × ℕ) × List β} (hg : g ∈ m) : get m g.1 = g.2 := by
  induction m with
  | nil => simp at hg
  | cons a r ih =>
    rw [Sorted, List.pairwise_cons] at h
    rw [get_cons]
    rcases List.mem_cons.1 hg with e | e
    · rw [e, if_pos rfl, get_nil_of (fun g hg => (keyLt_ne (h.1 g hg)).symm), List.append_nil]
    · rw [if_neg (keyLt_ne (h.1 g e)), List.nil_append, ih h.2 e]

/-- The entries of the map: one for every key entered, with all the values entered under it, in order. -/
theorem mem_enterAll (xs : List ((ℕ × ℕ) × β)) (k : ℕ × ℕ) (vs : List β) :
    (k, vs) ∈ enterAll xs ↔ vs = (xs.filter (fun x => x.1 = k)).map Prod.snd ∧ vs ≠ [] := by
  obtain ⟨h1, h2, h3⟩ := enterAll_spec xs
  constructor
  · intro h
    exact ⟨by rw [← h3]; exact (get_of_mem h1 h).symm, h2 _ h⟩
  · rintro ⟨h, h0⟩
    rw [← h3] at h
    have : ∃ g ∈ enterAll xs, g.1 = k := by
      by_contra hc
      push Not at hc
      exact h0 (h.trans (get_nil_of hc))
    obtain ⟨g, hg, e⟩ := this
    have h4 := get_of_mem h1 hg
    rw [e, ← h] at h4
    rw [show (k, vs) = g from Prod.ext e.symm h4]
    exact hg

end Maps

/-! ## The boundary of the bad triangles -/

/-- All directed edges of the triangles. -/
def edgesOf (T : List Tri) : List (ℕ × ℕ) := T.flatMap sides

theorem key_eq {e e' : ℕ × ℕ} (h : key e = key e') : e = e' ∨ e = e'.swap := by
  rw [key, key, Prod.mk.injEq] at h
  rcases e with ⟨a, b⟩; rcases e' with ⟨c, d⟩
  simp only [Prod.mk.injEq, Prod.swap] at *
  omega

theorem key_swap (e : ℕ × ℕ) : key e.swap = key e := by rw [key, key, Prod.fst_swap, Prod.snd_swap, min_comm, max_comm]

theorem group_spec {E : List (ℕ × ℕ)} {k : ℕ × ℕ} {vs : List (ℕ × ℕ)} (h : (k, vs) ∈ enterAll (E.map (fun e => (key e, e)))) :
    vs = E.filter (fun e => key e = k) ∧ vs ≠ [] := by
  rw [mem_enterAll] at h
  refine ⟨h.1.trans ?_, h.2⟩
  rw [List.filter_map, List.map_map]
  show List.map (fun e => e) _ = _
  rw [List.map_id']; rfl

theorem mem_boundary {B : List Tri} {e : ℕ × ℕ} (h : e ∈ boundary B) (hl : ∀ e ∈ edgesOf B, e.1 ≠ e.2) : e ∈ edgesOf B ∧ e.swap ∉ edgesOf B := by
  rw [boundary, List.mem_filterMap] at h
  obtain ⟨⟨k, vs⟩, hg, h⟩ := h
  obtain ⟨h1, -⟩ := group_spec hg
  simp only at h
  by_cases hv : vs.length = 1
  · rw [if_pos hv] at h
    obtain ⟨x, rfl⟩ := List.length_eq_one_iff.1 hv
    rw [List.getLast?_singleton, Option.some.injEq] at h
    subst h
    have hx : x ∈ [x] := by simp
    rw [h1, List.mem_filter] at hx
    refine ⟨hx.1, fun hs => ?_⟩
    have : x.swap ∈ [x] := by
      rw [h1, List.mem_filter]
      exact ⟨hs, by rw [key_swap]; exact hx.2⟩
    rw [List.mem_singleton] at this
    exact hl x hx.1 (congrArg Prod.snd this)
  · rw [if_neg hv] at h; simp at h

theorem boundary_sum {B : List Tri} (hn : (edgesOf B).Nodup) {f : ℕ × ℕ → ℤ} (hf : ∀ e, f e = - f e.swap) :
    ((boundary B).map f).sum = ((edgesOf B).map f).sum := by
  have h1 : ((edgesOf B).map f).sum = ((enterAll ((edgesOf B).map (fun e => (key e, e)))).map (fun g => (g.2.map f).sum)).sum := by
    rw [enterAll_sum, List.map_map]; rfl
  have hgen : ∀ (m : List ((ℕ × ℕ) × List (ℕ × ℕ))) (φ : (ℕ × ℕ) × List (ℕ × ℕ) → Option (ℕ × ℕ)),
      ((m.filterMap φ).map f).sum = (m.map (fun g => ((φ g).map f).getD 0)).sum := by
    intro m φ
    induction m with
    | nil => rfl
    | cons a r ih =>
      rw [List.filterMap_cons, List.map_cons, List.sum_cons]
      cases h : φ a with
      | none => simp [ih]
      | some b => simp [ih]
  rw [h1, boundary, hgen]
  congr 1
  apply List.map_congr_left
  rintro ⟨k, vs⟩ hg
  obtain ⟨h2, h3⟩ := group_spec hg
  have hnd : vs.Nodup := h2 ▸ hn.filter _
  have hk : ∀ e ∈ vs, key e = k := fun e he => by rw [h2, List.mem_filter] at he; simpa using he.2
  match vs, h3, hnd, hk with
  | [x], _, _, _ => simp
  | [x, y], _, hnd, hk =>
    have hxy : x ≠ y := by simpa using hnd
    have : y = x.swap := ((key_eq ((hk y (by simp)).trans (hk x (by simp)).symm)).resolve_left hxy.symm)
    simp [this, hf x]
  | x :: y :: z :: r, _, hnd, hk =>
    exfalso
    have hxy : x ≠ y := by rintro rfl; simp at hnd
    have hxz : x ≠ z := by rintro rfl; simp at hnd
    have hyz : y ≠ z := by rintro rfl; simp at hnd
    have e1 : y = x.swap := ((key_eq ((hk y (by simp)).trans (hk x (by simp)).symm)).resolve_left hxy.symm)
    have e2 : z = x.swap := ((key_eq ((hk z (by simp)).trans (hk x (by simp)).symm)).resolve_left hxz.symm)
    exact hyz (e1.trans e2.symm)

/-! ## Circles through two points -/

/-- The power of `z` with respect to the circle with diameter `a b`. -/
def pwr (a b z : Pt) : ℝ := (z.1 - a.1) * (z.1 - b.1) + (z.2 - a.2) * (z.2 - b.2)

theorem det_eq (p a b c : Pt) : det p a b c = pwr a b c * area2 a b p - area2 a b c * pwr a b p := by
  simp only [det, pwr, area2]; ring

theorem det_rot (p a b c : Pt) : det p b c a = det p a b c := by simp only [det]; ring

/-- `p` inside the circle of the triangle `a b w`, not inside that of `b a u` on the other side: then `p` is left of `a b`. -/
theorem left_of {a b w u p : Pt} (hw : 0 < area2 a b w) (hu : area2 a b u < 0) (hwu : det u a b w ≤ 0) (hp : 0 < det p a b w) (hpu : det p b a u ≤ 0) :
    0 < area2 a b p := by
  rw [det_eq] at hwu hp
  have e : det p b a u = area2 a b u * pwr a b p - pwr a b u * area2 a b p := by simp only [det, pwr, area2]; ring
  rw [e] at hpu
  generalize area2 a b w = Aw at *
  generalize area2 a b u = Au at *
  generalize area2 a b p = Ap at *
  generalize pwr a b w = Nw at *
  generalize pwr a b u = Nu at *
  generalize pwr a b p = Np at *
  by_contra hc
  push Not at hc
  -- Nw Au ≤ Aw Nu, Aw Np < Nw Ap, Au Np ≤ Nu Ap
  have h1 : Aw * (Au * Np) ≤ Aw * (Nu * Ap) := mul_le_mul_of_nonneg_left (by linarith) hw.le
  have h2 : (Aw * Nu) * Ap ≤ (Nw * Au) * Ap := mul_le_mul_of_nonpos_right (by linarith) hc
  have h3 : Au * (Nw * Ap) < Au * (Aw * Np) := mul_lt_mul_of_neg_left (by linarith) hu
  nlinarith

/-- The circle of the new triangle contains no point that neither of the circles of its neighbours contains. -/
theorem new_empty {a b w u p q : Pt} (hw : 0 < area2 a b w) (hu : area2 a b u < 0) (hp : 0 < det p a b w) (hpu : det p b a u ≤ 0) (hAp : 0 < area2 a b p)
    (hqw : det q a b w ≤ 0) (hqu : det q b a u ≤ 0) : det q a b p ≤ 0 := by
  have e : ∀ p, det p b a u = area2 a b u * pwr a b p - pwr a b u * area2 a b p := fun p => by simp only [det, pwr, area2]; ring
  rw [e] at hpu hqu
  rw [det_eq] at hp hqw ⊢
  generalize area2 a b w = Aw at *
  generalize area2 a b u = Au at *
  generalize area2 a b p = Ap at *
  generalize area2 a b q = Aq at *
  generalize pwr a b w = Nw at *
  generalize pwr a b u = Nu at *
  generalize pwr a b p = Np at *
  generalize pwr a b q = Nq at *
  rcases le_or_gt 0 Aq with hq | hq
  · have h1 : (Aw * Np) * Aq ≤ (Nw * Ap) * Aq := mul_le_mul_of_nonneg_right (by linarith) hq
    have h2 : Ap * (Nw * Aq) ≤ Ap * (Aw * Nq) := mul_le_mul_of_nonneg_left (by linarith) hAp.le
    have h3 : Aw * (Np * Aq - Ap * Nq) ≤ 0 := by nlinarith
    exact nonpos_of_mul_nonpos_right h3 hw
  · have h1 : (Nu * Ap) * Aq ≤ (Au * Np) * Aq := mul_le_mul_of_nonpos_right (by linarith) hq.le
    have h2 : Ap * (Au * Nq) ≤ Ap * (Nu * Aq) := mul_le_mul_of_nonneg_left (by linarith) hAp.le
    have h3 : 0 ≤ Au * (Np * Aq - Ap * Nq) := by nlinarith
    by_contra hc
    push Not at hc
    nlinarith [mul_neg_of_neg_of_pos hu hc]

/-- The same at the border, where all points are on the left. -/
theorem new_empty_border {a b w p q : Pt} (hw : 0 < area2 a b w) (hp : 0 < det p a b w) (hAp : 0 < area2 a b p) (hAq : 0 ≤ area2 a b q)
    (hqw : det q a b w ≤ 0) : det q a b p ≤ 0 := by
  rw [det_eq] at hp hqw ⊢
  generalize area2 a b w = Aw at *
  generalize area2 a b p = Ap at *
  generalize area2 a b q = Aq at *
  have h1 : (Aw * pwr a b p) * Aq ≤ (pwr a b w * Ap) * Aq := mul_le_mul_of_nonneg_right (by linarith) hAq
  have h2 : Ap * (pwr a b w * Aq) ≤ Ap * (Aw * pwr a b q) := mul_le_mul_of_nonneg_left (by linarith) hAp.le
  have h3 : Aw * (pwr a b p * Aq - Ap * pwr a b q) ≤ 0 := by nlinarith
  exact nonpos_of_mul_nonpos_right h3 hw

end Verif.CompGeo.Del
