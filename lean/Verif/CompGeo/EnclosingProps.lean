import Mathlib.Tactic
import Verif.CompGeo.Enclosing
import Verif.CompGeo.TriangleProps

/-!
# Properties of the smallest enclosing circle (C126)
-/

set_option autoImplicit false

namespace Verif.CompGeo.MEC
open CB
open Tri hiding Pt

/-! ## Specification -/

/-- The disc with centre `z` and radius `r` has all the points. -/
def Encloses (z : Pt) (r : ℝ) (ps : List Pt) : Prop := ∀ p ∈ ps, euclid z p ≤ r

/-- The circle with centre `z` and radius `r` is the smallest one with all the points, and the only one of its size. -/
def Smallest (z : Pt) (r : ℝ) (ps : List Pt) : Prop :=
  Encloses z r ps ∧ ∀ z' r', Encloses z' r' ps → r ≤ r' ∧ (r' = r → z' = z)

/-- The circles the algorithm may try: the origin, a point, a circle with two points as a diameter, a circle through three points not on a line. -/
inductive Candidate (ps : List Pt) : Pt → ℝ → Prop
  | origin : Candidate ps (0, 0) 0
  | point {a : Pt} : a ∈ ps → Candidate ps a 0
  | diameter {a b : Pt} : a ∈ ps → b ∈ ps → Candidate ps ((a.1 + b.1) / 2, (a.2 + b.2) / 2) (euclid a b / 2)
  | through {a b c z : Pt} {r : ℝ} : a ∈ ps → b ∈ ps → c ∈ ps → area2 a b c ≠ 0 → euclid z a = r → euclid z b = r → euclid z c = r → Candidate ps z r

/-- No decision of the algorithm falls within its tolerance: a point outside a candidate circle is outside by more than `10⁻¹⁰`, and triples of points are
on a line or twice their doubled area is at least `10⁻¹⁰`. -/
structure Clear (ps : List Pt) : Prop where
  gap : ∀ z r, Candidate ps z r → ∀ p ∈ ps, euclid z p ≤ r ∨ r + geomEps < euclid z p
  flat : ∀ a ∈ ps, ∀ b ∈ ps, ∀ c ∈ ps, area2 a b c = 0 ∨ geomEps ≤ 2 * |area2 a b c|

/-! ## Discs with points on the boundary -/

/-- The power of a point. -/
def pw (c : CB.Circle) (p : Pt) : ℝ := (c.center.1 - p.1) ^ 2 + (c.center.2 - p.2) ^ 2 - c.radius ^ 2

/-- The disc has the points `ps` and its boundary the points `b`. -/
structure Qual (c : CB.Circle) (ps b : List Pt) : Prop where
  nonneg : 0 ≤ c.radius
  inside : ∀ p ∈ ps, pw c p ≤ 0
  bound : ∀ q ∈ b, pw c q = 0

theorem pw_le {c : CB.Circle} (h : 0 ≤ c.radius) (p : Pt) : pw c p ≤ 0 ↔ euclid c.center p ≤ c.radius := by
  rw [pw, ← euclid_sq, sub_nonpos]
  exact ⟨fun h1 => (sq_le_sq₀ (euclid_nonneg _ _) h).1 h1, fun h1 => (sq_le_sq₀ (euclid_nonneg _ _) h).2 h1⟩

theorem pw_eq {c : CB.Circle} (h : 0 ≤ c.radius) (p : Pt) : pw c p = 0 ↔ euclid c.center p = c.radius := by
  rw [pw, ← euclid_sq, sub_eq_zero]
  exact ⟨fun h1 => (pow_left_inj₀ (euclid_nonneg _ _) h (by norm_num)).1 h1, fun h1 => by rw [h1]⟩

/-- Between two discs with the same points, one of which lacks `p`, there is a disc with `p` on the boundary. -/
theorem blend {c0 c : CB.Circle} {ps b : List Pt} {p : Pt} (h0 : Qual c0 ps b) (h : Qual c ps b) (hle : c0.radius ≤ c.radius) (hp0 : 0 < pw c0 p) (hp : pw c p ≤ 0) :
    ∃ c', Qual c' ps (b ++ [p]) ∧ c'.radius ≤ c.radius := by
  have hd : 0 < pw c0 p - pw c p := by linarith
  set t := pw c0 p / (pw c0 p - pw c p) with ht
  have ht0 : 0 ≤ t := by positivity
  have ht1 : t ≤ 1 := by rw [ht, div_le_one hd]; linarith
  have hz : (1 - t) * pw c0 p + t * pw c p = 0 := by rw [ht]; field_simp; ring
  set z : Pt := ((1 - t) * c0.center.1 + t * c.center.1, (1 - t) * c0.center.2 + t * c.center.2) with hzd
  have key : ∀ x : Pt, (1 - t) * pw c0 x + t * pw c x = (z.1 - x.1) ^ 2 + (z.2 - x.2) ^ 2 -
      ((1 - t) * c0.radius ^ 2 + t * c.radius ^ 2 - t * (1 - t) * ((c.center.1 - c0.center.1) ^ 2 + (c.center.2 - c0.center.2) ^ 2)) := fun x => by
    simp only [pw, hzd]; ring
  have hr : euclid z p ^ 2 = (1 - t) * c0.radius ^ 2 + t * c.radius ^ 2 - t * (1 - t) * ((c.center.1 - c0.center.1) ^ 2 + (c.center.2 - c0.center.2) ^ 2) := by
    rw [euclid_sq]; linarith [key p]
  have hpw : ∀ x, pw ⟨z, euclid z p⟩ x = (1 - t) * pw c0 x + t * pw c x := fun x => by
    rw [key x, ← hr]; rfl
  refine ⟨⟨z, euclid z p⟩, ⟨euclid_nonneg _ _, fun x hx => ?_, fun x hx => ?_⟩, ?_⟩
  · rw [hpw]
    nlinarith [h0.inside x hx, h.inside x hx, mul_nonneg ht0 (neg_nonneg.2 (h.inside x hx)), mul_nonneg (sub_nonneg.2 ht1) (neg_nonneg.2 (h0.inside x hx))]
  · rcases List.mem_append.1 hx with hx | hx
    · rw [hpw, h0.bound x hx, h.bound x hx]; ring
    · rw [List.mem_singleton.1 hx, hpw, hz]
  · refine (sq_le_sq₀ (euclid_nonneg _ _) h.nonneg).1 ?_
    rw [hr]
    have e1 : c0.radius ^ 2 ≤ c.radius ^ 2 := (sq_le_sq₀ h0.nonneg h.nonneg).2 hle
    have e2 : 0 ≤ t * (1 - t) * ((c.center.1 - c0.center.1) ^ 2 + (c.center.2 - c0.center.2) ^ 2) :=
      mul_nonneg (mul_nonneg ht0 (sub_nonneg.2 ht1)) (by positivity)
    nlinarith [mul_nonneg (sub_nonneg.2 ht1) (sub_nonneg.2 e1)]

/-- Two smallest discs with the same points are the same. -/
theorem unique {c0 c : CB.Circle} {ps : List Pt} (hne : ps ≠ []) (h0 : Qual c0 ps []) (h : Qual c ps []) (he : c0.radius = c.radius)
    (hmin : ∀ c', Qual c' ps [] → c0.radius ≤ c'.radius) : c.center = c0.center := by
  by_contra hz
  have hd : 0 < (c.center.1 - c0.center.1) ^ 2 + (c.center.2 - c0.center.2) ^ 2 := by
    have := euclid_pos hz
    rw [← euclid_sq]; positivity
  set z : Pt := ((c0.center.1 + c.center.1) / 2, (c0.center.2 + c.center.2) / 2) with hzd
  set ρ := c0.radius ^ 2 - ((c.center.1 - c0.center.1) ^ 2 + (c.center.2 - c0.center.2) ^ 2) / 4 with hρ
  have key : ∀ x : Pt, (pw c0 x + pw c x) / 2 = (z.1 - x.1) ^ 2 + (z.2 - x.2) ^ 2 - ρ := fun x => by
    simp only [pw, hzd, hρ, ← he]; ring
  obtain ⟨x, hx⟩ := List.exists_mem_of_ne_nil _ hne
  have hρ0 : 0 ≤ ρ := by nlinarith [key x, h0.inside x hx, h.inside x hx, sq_nonneg (z.1 - x.1), sq_nonneg (z.2 - x.2)]
  have hq : Qual ⟨z, Real.sqrt ρ⟩ ps [] := ⟨Real.sqrt_nonneg _, fun y hy => by
    have : pw ⟨z, Real.sqrt ρ⟩ y = (pw c0 y + pw c y) / 2 := by rw [key y, pw, Real.sq_sqrt hρ0]
    rw [this]; linarith [h0.inside y hy, h.inside y hy], by simp⟩
  have h1 := hmin _ hq
  have h2 : Real.sqrt ρ < c0.radius := by
    rw [Real.sqrt_lt' (lt_of_le_of_ne h0.nonneg fun h3 => by rw [← h3] at hρ; nlinarith)]
    rw [hρ]; linarith
  exact absurd h1 (not_le.2 h2)

/-! ## Circles through the points of the boundary -/

theorem not_flat {c : CB.Circle} {p q r : Pt} (hp : pw c p = 0) (hq : pw c q = 0) (hr : pw c r = 0) (h1 : p ≠ q) (h2 : p ≠ r) (h3 : q ≠ r) : area2 p q r ≠ 0 := by
  intro h0
  have e1 : 2 * ((q.1 - p.1) * (c.center.1 - p.1) + (q.2 - p.2) * (c.center.2 - p.2)) = (q.1 - p.1) ^ 2 + (q.2 - p.2) ^ 2 := by
    simp only [pw] at hp hq; linarith
  have e2 : 2 * ((r.1 - p.1) * (c.center.1 - p.1) + (r.2 - p.2) * (c.center.2 - p.2)) = (r.1 - p.1) ^ 2 + (r.2 - p.2) ^ 2 := by
    simp only [pw] at hp hr; linarith
  have e3 : (q.1 - p.1) * (r.2 - p.2) = (q.2 - p.2) * (r.1 - p.1) := by simp only [area2] at h0; linarith
  obtain ⟨t, ht1, ht2⟩ : ∃ t, r.1 - p.1 = t * (q.1 - p.1) ∧ r.2 - p.2 = t * (q.2 - p.2) := by
    by_cases hx : q.1 - p.1 = 0
    · have hy : q.2 - p.2 ≠ 0 := fun hy => h1 (Prod.ext (by linarith) (by linarith))
      refine ⟨(r.2 - p.2) / (q.2 - p.2), ?_, by field_simp⟩
      rw [hx, zero_mul] at e3
      rw [hx, mul_zero]
      rcases mul_eq_zero.1 e3.symm with h | h
      · exact absurd h hy
      · exact h
    · refine ⟨(r.1 - p.1) / (q.1 - p.1), by field_simp, ?_⟩
      field_simp
      linarith
  have hu : 0 < (q.1 - p.1) ^ 2 + (q.2 - p.2) ^ 2 := by
    have := euclid_pos (Ne.symm h1)
    rw [← euclid_sq]; positivity
  rw [ht1, ht2] at e2
  have e4 : t * (t - 1) * ((q.1 - p.1) ^ 2 + (q.2 - p.2) ^ 2) = 0 := by linear_combination t * e1 - e2
  rcases mul_eq_zero.1 e4 with h | h
  · rcases mul_eq_zero.1 h with h | h
    · rw [h, zero_mul] at ht1 ht2
      exact h2 (Prod.ext (by linarith) (by linarith))
    · rw [show t = 1 by linarith, one_mul] at ht1 ht2
      exact h3 (Prod.ext (by linarith) (by linarith))
  · exact hu.ne' h

theorem from3_eq {c : CB.Circle} {p q r : Pt} (h0 : 0 ≤ c.radius) (hp : pw c p = 0) (hq : pw c q = 0) (hr : pw c r = 0) (ha : geomEps ≤ 2 * |area2 p q r|)
    (ha0 : area2 p q r ≠ 0) : from3 p q r = some c := by
  have hden : den3 p q r = 2 * area2 p q r := by simp only [den3, area2]; ring
  have hd0 : den3 p q r ≠ 0 := by rw [hden]; exact mul_ne_zero two_ne_zero ha0
  have e1 : 2 * ((q.1 - p.1) * (c.center.1 - p.1) + (q.2 - p.2) * (c.center.2 - p.2)) = (q.1 - p.1) ^ 2 + (q.2 - p.2) ^ 2 := by
    simp only [pw] at hp hq; linarith
  have e2 : 2 * ((r.1 - p.1) * (c.center.1 - p.1) + (r.2 - p.2) * (c.center.2 - p.2)) = (r.1 - p.1) ^ 2 + (r.2 - p.2) ^ 2 := by
    simp only [pw] at hp hr; linarith
  have o1 : (off3 p q r).1 = c.center.1 - p.1 := by
    simp only [off3]
    rw [div_eq_iff hd0, den3]
    linear_combination (-(r.2 - p.2)) * e1 + (q.2 - p.2) * e2
  have o2 : (off3 p q r).2 = c.center.2 - p.2 := by
    simp only [off3]
    rw [div_eq_iff hd0, den3]
    linear_combination (r.1 - p.1) * e1 - (q.1 - p.1) * e2
  rw [from3, if_neg (by rw [hden, abs_mul, abs_two]; linarith), o1, o2]
  have : Real.sqrt ((c.center.1 - p.1) * (c.center.1 - p.1) + (c.center.2 - p.2) * (c.center.2 - p.2)) = c.radius := by
    rw [show (c.center.1 - p.1) * (c.center.1 - p.1) + (c.center.2 - p.2) * (c.center.2 - p.2) = c.radius ^ 2 by simp only [pw] at hp; linarith, Real.sqrt_sq h0]
  rw [this, add_sub_cancel, add_sub_cancel]

/-- Among the discs with one or two given points on the boundary, `base` is the smallest. -/
theorem base_min (b : List Pt) (hb : b.length ≤ 2) : Qual (base b) [] b ∧ ∀ c, Qual c [] b → (base b).radius ≤ c.radius := by
  match b, hb with
  | [], _ => exact ⟨⟨le_rfl, by simp, by simp⟩, fun c h => h.nonneg⟩
  | [p], _ => exact ⟨⟨le_rfl, by simp, by simp [pw, base]⟩, fun c h => h.nonneg⟩
  | [p, q], _ =>
    have hr : (base [p, q]).radius = euclid p q / 2 := by rw [base, from2, dist2_eq]
    have hc : (base [p, q]).center = ((p.1 + q.1) / 2, (p.2 + q.2) / 2) := rfl
    refine ⟨⟨by rw [hr]; exact div_nonneg (euclid_nonneg _ _) (by norm_num), by simp, fun x hx => ?_⟩, fun c h => ?_⟩
    · rw [pw, hr, hc, div_pow, euclid_sq]
      simp only [List.mem_cons, List.not_mem_nil, or_false] at hx
      rcases hx with rfl | rfl <;> ring
    · have h1 := h.bound p (by simp)
      have h2 := h.bound q (by simp)
      rw [hr]
      refine (sq_le_sq₀ (div_nonneg (euclid_nonneg _ _) (by norm_num)) h.nonneg).1 ?_
      rw [div_pow, euclid_sq]
      simp only [pw] at h1 h2
      nlinarith [sq_nonneg (2 * c.center.1 - p.1 - q.1), sq_nonneg (2 * c.center.2 - p.2 - q.2)]

theorem base_candidate {A b : List Pt} (hb : b.length ≤ 2) (hA : ∀ x ∈ b, x ∈ A) : Candidate A (base b).center (base b).radius := by
  match b, hb with
  | [], _ => exact Candidate.origin
  | [p], _ => exact Candidate.point (hA p (by simp))
  | [p, q], _ =>
    rw [show (base [p, q]).radius = euclid p q / 2 by rw [base, from2, dist2_eq]]
    exact Candidate.diameter (hA p (by simp)) (hA q (by simp))

/-- For three points on the boundary of some disc, `base` is this disc. -/
theorem base_three {A b : List Pt} (hcl : Clear A) (hb : b.length = 3) (hA : ∀ x ∈ b, x ∈ A) (hnd : b.Nodup) {ps : List Pt} {c : CB.Circle} (h : Qual c ps b) :
    base b = c ∧ Candidate A c.center c.radius := by
  match b, hb with
  | [p, q, r], _ =>
    have hp := h.bound p (by simp)
    have hq := h.bound q (by simp)
    have hr := h.bound r (by simp)
    simp only [List.nodup_cons, List.mem_cons, List.not_mem_nil, or_false, not_or, not_false_eq_true, List.nodup_nil, and_true] at hnd
    have ha := not_flat hp hq hr hnd.1.1 hnd.1.2 hnd.2
    have hg := (hcl.flat p (hA p (by simp)) q (hA q (by simp)) r (hA r (by simp))).resolve_left ha
    refine ⟨by rw [base, from3_eq h.nonneg hp hq hr hg ha]; rfl, ?_⟩
    exact Candidate.through (hA p (by simp)) (hA q (by simp)) (hA r (by simp)) ha ((pw_eq h.nonneg p).1 hp) ((pw_eq h.nonneg q).1 hq) ((pw_eq h.nonneg r).1 hr)

/-! ## The algorithm -/

theorem swap_spec (hd tl : List Pt) (i n : ℕ) (hn : hd.length = n + 1) (hi : i < n + 1) :
    ∃ h p, swap (hd ++ tl) i n = .ret (h ++ p :: tl) ∧ h.length = n ∧ (h ++ [p]).Perm hd := by
  have hi' : i < hd.length := by omega
  have hn' : n < hd.length := by omega
  have e1 : Outcome.index (hd ++ tl) i = .ret hd[i] := by
    rw [Outcome.index, List.getElem?_append_left hi', List.getElem?_eq_getElem hi']
  have e2 : Outcome.index (hd ++ tl) n = .ret hd[n] := by
    rw [Outcome.index, List.getElem?_append_left hn', List.getElem?_eq_getElem hn']
  have e3 : swap (hd ++ tl) i n = .ret (((hd.set i hd[n]).set n hd[i]) ++ tl) := by
    rw [swap, e1, Outcome.bind_ret, e2, Outcome.bind_ret, Outcome.store, if_pos (by rw [List.length_append]; omega), Outcome.bind_ret, Outcome.store,
      if_pos (by rw [List.length_set, List.length_append]; omega), List.set_append_left _ _ hi', List.set_append_left _ _ (by rw [List.length_set]; exact hn')]
  have hperm : ((hd.set i hd[n]).set n hd[i]).Perm hd := List.set_set_perm hi' hn'
  generalize (hd.set i hd[n]).set n hd[i] = l at e3 hperm
  have hl : l.length = n + 1 := by rw [hperm.length_eq, hn]
  have hne : l ≠ [] := by intro h; rw [h] at hl; simp at hl
  refine ⟨l.dropLast, l.getLast hne, ?_, by rw [List.length_dropLast, hl]; rfl, by rw [List.dropLast_append_getLast hne]; exact hperm⟩
  rw [e3]
  congr 1
  conv_lhs => rw [← List.dropLast_append_getLast hne]
  rw [List.append_assoc]; rfl

theorem isInside_iff {A : List Pt} (hcl : Clear A) {c : CB.Circle} (hc : Candidate A c.center c.radius) (h0 : 0 ≤ c.radius) {p : Pt} (hp : p ∈ A) :
    isInside p c = true ↔ pw c p ≤ 0 := by
  have heps : (0 : ℝ) < geomEps := by norm_num [geomEps]
  rw [pw_le h0, isInside, decide_eq_true_eq, dist2_eq, Lines.euclid_comm]
  constructor
  · intro h
    rcases hcl.gap _ _ hc p hp with h1 | h1
    · exact h1
    · exact absurd h (not_le.2 h1)
  · intro h; linarith

theorem welzl_spec (pick : ℕ → ℕ → ℕ) (hpick : ∀ k n, 0 < n → pick k n < n) {A : List Pt} (hcl : Clear A) :
    ∀ n b hd tl k, hd.length = n → b.length ≤ 3 → b.Nodup → (∀ x ∈ hd, x ∈ A) → (∀ x ∈ b, x ∈ A) → (∃ c, Qual c hd b) →
      ∃ c hd' k', welzl pick n b (hd ++ tl) k = .ret (c, hd' ++ tl, k') ∧ hd'.Perm hd ∧ Qual c hd b ∧ (∀ c', Qual c' hd b → c.radius ≤ c'.radius) ∧
        Candidate A c.center c.radius := by
  intro n
  have three : ∀ b hd : List Pt, b.length = 3 → b.Nodup → (∀ x ∈ b, x ∈ A) → (∃ c, Qual c hd b) →
      Qual (base b) hd b ∧ (∀ c', Qual c' hd b → (base b).radius ≤ c'.radius) ∧ Candidate A (base b).center (base b).radius := by
    rintro b hd h3 hnd hA ⟨c, hc⟩
    obtain ⟨e, hcand⟩ := base_three hcl h3 hA hnd hc
    rw [e]
    exact ⟨hc, fun c' hc' => by rw [← (base_three hcl h3 hA hnd hc').1, e], hcand⟩
  induction n with
  | zero =>
    intro b hd tl k hlen hb3 hnd hhd hbA hex
    have hnil : hd = [] := List.eq_nil_of_length_eq_zero hlen
    subst hnil
    rcases Nat.lt_or_ge b.length 3 with h | h
    · have := base_min b (by omega)
      exact ⟨base b, [], k, rfl, List.Perm.refl _, this.1, this.2, base_candidate (by omega) hbA⟩
    · obtain ⟨h1, h2, h3⟩ := three b [] (by omega) hnd hbA hex
      exact ⟨base b, [], k, rfl, List.Perm.refl _, h1, h2, h3⟩
  | succ n ih =>
    intro b hd tl k hlen hb3 hnd hhd hbA hex
    rw [welzl]
    by_cases h3 : b.length = 3
    · rw [if_pos h3]
      obtain ⟨h1, h2, h4⟩ := three b hd h3 hnd hbA hex
      exact ⟨base b, hd, k, rfl, List.Perm.refl _, h1, h2, h4⟩
    · rw [if_neg h3]
      obtain ⟨h, p, hsw, hl, hperm⟩ := swap_spec hd tl (pick k (n + 1)) n hlen (hpick _ _ (by omega))
      have hmem : ∀ x, x ∈ hd ↔ x ∈ h ∨ x = p := fun x => by rw [← hperm.mem_iff]; simp
      have hpA : p ∈ A := hhd p ((hmem p).2 (Or.inr rfl))
      have hhA : ∀ x ∈ h, x ∈ A := fun x hx => hhd x ((hmem x).2 (Or.inl hx))
      have hidx : Outcome.index (h ++ p :: tl) n = .ret p := by
        rw [Outcome.index, List.getElem?_append_right (by omega), hl, Nat.sub_self]; rfl
      have weaken : ∀ c, Qual c hd b → Qual c h b := fun c hc => ⟨hc.nonneg, fun x hx => hc.inside x ((hmem x).2 (Or.inl hx)), hc.bound⟩
      obtain ⟨c1, h1, k1, hw, hp1, hq1, hmin1, hcand1⟩ := ih b h (p :: tl) (k + 1) hl hb3 hnd hhA hbA (hex.imp weaken)
      rw [hsw, Outcome.bind_ret, hidx, Outcome.bind_ret, hw, Outcome.bind_ret]
      by_cases hin : isInside p c1 = true
      · rw [if_pos hin]
        have hpw := (isInside_iff hcl hcand1 hq1.nonneg hpA).1 hin
        refine ⟨c1, h1 ++ [p], k1, by rw [List.append_assoc]; rfl, (hp1.append_right [p]).trans hperm, ⟨hq1.nonneg, fun x hx => ?_, hq1.bound⟩,
          fun c' hc' => hmin1 c' (weaken c' hc'), hcand1⟩
        rcases (hmem x).1 hx with hx | rfl
        · exact hq1.inside x hx
        · exact hpw
      · rw [if_neg hin]
        have hpw : 0 < pw c1 p := by
          rw [← not_le]; exact fun h => hin ((isInside_iff hcl hcand1 hq1.nonneg hpA).2 h)
        have hstep : ∀ c, Qual c hd b → ∃ c', Qual c' h (b ++ [p]) ∧ c'.radius ≤ c.radius := fun c hc =>
          blend hq1 (weaken c hc) (hmin1 c (weaken c hc)) hpw (hc.inside p ((hmem p).2 (Or.inr rfl)))
        have hpb : p ∉ b := fun hpb => by rw [hq1.bound p hpb] at hpw; exact lt_irrefl _ hpw
        obtain ⟨c0, hc0⟩ := hex
        obtain ⟨c2, h2, k2, hw2, hp2, hq2, hmin2, hcand2⟩ := ih (b ++ [p]) h1 (p :: tl) k1 (by rw [hp1.length_eq, hl]) (by simp; omega)
          (by rw [List.nodup_append]
              refine ⟨hnd, by simp, ?_⟩
              intro a ha c hc
              rw [List.mem_singleton.1 hc]
              rintro rfl
              exact hpb ha) (fun x hx => hhA x (hp1.mem_iff.1 hx))
          (fun x hx => by rcases List.mem_append.1 hx with hx | hx
                          · exact hbA x hx
                          · rw [List.mem_singleton.1 hx]; exact hpA)
          (by obtain ⟨c', hc', -⟩ := hstep c0 hc0
              exact ⟨c', ⟨hc'.nonneg, fun x hx => hc'.inside x (hp1.mem_iff.1 hx), hc'.bound⟩⟩)
        refine ⟨c2, h2 ++ [p], k2, by simp only [hw2, List.append_assoc]; rfl, ((hp2.trans hp1).append_right [p]).trans hperm,
          ⟨hq2.nonneg, fun x hx => ?_, fun x hx => hq2.bound x (by simp [hx])⟩, fun c' hc' => ?_, hcand2⟩
        · rcases (hmem x).1 hx with hx | rfl
          · exact hq2.inside x (hp1.mem_iff.2 hx)
          · exact (hq2.bound _ (by simp)).le
        · obtain ⟨c'', hc'', hle⟩ := hstep c' hc'
          exact (hmin2 c'' ⟨hc''.nonneg, fun x hx => hc''.inside x (hp1.mem_iff.1 hx), hc''.bound⟩).trans hle

/-! ## Theorems -/

/-- **C126, partial.**  For every order of the points after shuffling and every sequence of random draws, the circle returned is the smallest circle with all
points, if no decision falls within the tolerance.  Missing: the other sets of points, for which the circle may miss a point (`minCircle_wrong`). -/
theorem minCircle_partial (pick : ℕ → ℕ → ℕ) (hpick : ∀ k n, 0 < n → pick k n < n) (ps ps' : List Pt) (hperm : ps'.Perm ps) (hne : ps ≠ []) (hcl : Clear ps) :
    ∃ c, minCircle pick ps ps' = .ret c ∧ Smallest c.center c.radius ps := by
  have smallest : ∀ c : CB.Circle, Qual c ps [] → (∀ c', Qual c' ps [] → c.radius ≤ c'.radius) → Smallest c.center c.radius ps := by
    intro c hq hmin
    refine ⟨fun p hp => (pw_le hq.nonneg p).1 (hq.inside p hp), fun z' r' he => ?_⟩
    obtain ⟨x, hx⟩ := List.exists_mem_of_ne_nil _ hne
    have hr : 0 ≤ r' := (euclid_nonneg _ _).trans (he x hx)
    have hq' : Qual ⟨z', r'⟩ ps [] := ⟨hr, fun p hp => (pw_le (c := ⟨z', r'⟩) hr p).2 (he p hp), by simp⟩
    exact ⟨hmin _ hq', fun h => unique hne hq hq' h.symm hmin⟩
  have big : ∃ c, Qual c ps [] := by
    obtain ⟨M, hM⟩ : ∃ M : ℝ, 0 ≤ M ∧ ∀ p ∈ ps, euclid (0, 0) p ≤ M := by
      refine ⟨(ps.map fun p => euclid (0, 0) p).sum, List.sum_nonneg (by simp only [List.mem_map]; rintro _ ⟨p, -, rfl⟩; exact euclid_nonneg _ _), fun p hp => ?_⟩
      exact List.single_le_sum (by simp only [List.mem_map]; rintro _ ⟨p, -, rfl⟩; exact euclid_nonneg _ _) _ (List.mem_map_of_mem hp)
    exact ⟨⟨(0, 0), M⟩, ⟨hM.1, fun p hp => (pw_le (c := ⟨(0, 0), M⟩) hM.1 p).2 (hM.2 p hp), by simp⟩⟩
  match ps, hne with
  | [p], _ =>
    refine ⟨⟨p, 0⟩, by rw [minCircle, CB.Circle.new, if_neg (lt_irrefl _)], smallest ⟨p, 0⟩ ⟨le_rfl, by simp [pw], by simp⟩ fun c' h => h.nonneg⟩
  | p :: q :: tl, _ =>
    obtain ⟨c, hd', k', hw, -, hq, hmin, -⟩ := welzl_spec pick hpick hcl ps'.length [] ps' [] 0 rfl (by simp) (by simp) (fun x hx => hperm.mem_iff.1 hx) (by simp)
      (by obtain ⟨c, hc⟩ := big
          exact ⟨c, ⟨hc.nonneg, fun x hx => hc.inside x (hperm.mem_iff.1 hx), hc.bound⟩⟩)
    rw [List.append_nil] at hw
    refine ⟨c, ?_, smallest c ⟨hq.nonneg, fun x hx => hq.inside x (hperm.mem_iff.2 hx), by simp⟩ fun c' hc' =>
      hmin c' ⟨hc'.nonneg, fun x hx => hc'.inside x (hperm.mem_iff.1 hx), by simp⟩⟩
    rw [minCircle, ← hperm.length_eq, hw, Outcome.bind_ret, CB.Circle.new, if_neg (not_lt.2 hq.nonneg)]
    all_goals simp

theorem base_nonneg (b : List Pt) : 0 ≤ (base b).radius := by
  have h2 : ∀ p q : Pt, 0 ≤ (from2 p q).radius := fun p q => by
    rw [show (from2 p q).radius = euclid p q / 2 by rw [from2, dist2_eq]]; exact div_nonneg (euclid_nonneg _ _) (by norm_num)
  match b with
  | [] => exact le_rfl
  | [p] => exact le_rfl
  | [p, q] => exact h2 p q
  | p :: q :: r :: _ =>
    rw [base, from3]
    by_cases h : |den3 p q r| < geomEps
    · rw [if_pos h, Option.getD_none, farthest2]
      by_cases h3 : dist2 p r ≤ dist2 p q ∧ dist2 q r ≤ dist2 p q
      · rw [if_pos h3]; exact h2 _ _
      · rw [if_neg h3]
        by_cases h4 : dist2 q r ≤ dist2 p r
        · rw [if_pos h4]; exact h2 _ _
        · rw [if_neg h4]; exact h2 _ _
    · rw [if_neg h]; exact Real.sqrt_nonneg _

theorem welzl_total (pick : ℕ → ℕ → ℕ) (hpick : ∀ k n, 0 < n → pick k n < n) :
    ∀ n b hd tl k, hd.length = n → ∃ c hd' k', welzl pick n b (hd ++ tl) k = .ret (c, hd' ++ tl, k') ∧ hd'.Perm hd ∧ 0 ≤ c.radius := by
  intro n
  induction n with
  | zero => intro b hd tl k _; exact ⟨base b, hd, k, rfl, List.Perm.refl _, base_nonneg b⟩
  | succ n ih =>
    intro b hd tl k hlen
    rw [welzl]
    by_cases h3 : b.length = 3
    · rw [if_pos h3]; exact ⟨base b, hd, k, rfl, List.Perm.refl _, base_nonneg b⟩
    · rw [if_neg h3]
      obtain ⟨h, p, hsw, hl, hperm⟩ := swap_spec hd tl (pick k (n + 1)) n hlen (hpick _ _ (by omega))
      have hidx : Outcome.index (h ++ p :: tl) n = .ret p := by
        rw [Outcome.index, List.getElem?_append_right (by omega), hl, Nat.sub_self]; rfl
      obtain ⟨c1, h1, k1, hw, hp1, hr1⟩ := ih b h (p :: tl) (k + 1) hl
      rw [hsw, Outcome.bind_ret, hidx, Outcome.bind_ret, hw, Outcome.bind_ret]
      by_cases hin : isInside p c1 = true
      · rw [if_pos hin]
        exact ⟨c1, h1 ++ [p], k1, by rw [List.append_assoc]; rfl, (hp1.append_right [p]).trans hperm, hr1⟩
      · rw [if_neg hin]
        obtain ⟨c2, h2, k2, hw2, hp2, hr2⟩ := ih (b ++ [p]) h1 (p :: tl) k1 (by rw [hp1.length_eq, hl])
        exact ⟨c2, h2 ++ [p], k2, by simp only [hw2, List.append_assoc]; rfl, ((hp2.trans hp1).append_right [p]).trans hperm, hr2⟩

/-- **C126.**  For all points, orders and draws the call returns a circle; no element out of range is read and no exception thrown. -/
theorem minCircle_total (pick : ℕ → ℕ → ℕ) (hpick : ∀ k n, 0 < n → pick k n < n) (ps ps' : List Pt) (hperm : ps'.Perm ps) :
    ∃ c, minCircle pick ps ps' = .ret c ∧ 0 ≤ c.radius := by
  match ps with
  | [] => exact ⟨⟨(0, 0), 0⟩, by rw [minCircle, CB.Circle.new, if_neg (lt_irrefl _)], le_rfl⟩
  | [p] => exact ⟨⟨p, 0⟩, by rw [minCircle, CB.Circle.new, if_neg (lt_irrefl _)], le_rfl⟩
  | p :: q :: tl =>
    obtain ⟨c, hd', k', hw, -, hr⟩ := welzl_total pick hpick ps'.length [] ps' [] 0 rfl
    rw [List.append_nil] at hw
    refine ⟨c, ?_, hr⟩
    rw [minCircle, ← hperm.length_eq, hw, Outcome.bind_ret, CB.Circle.new, if_neg (not_lt.2 hr)]
    all_goals simp

/-! ## Points with small integer coordinates -/

/-- All points have integer coordinates of absolute value at most 20. -/
def Grid (ps : List Pt) : Prop := ∀ p ∈ ps, ∃ m n : ℤ, p = ((m : ℝ), (n : ℝ)) ∧ |(m : ℝ)| ≤ 20 ∧ |(n : ℝ)| ≤ 20

theorem mulb {a b A B : ℝ} (h1 : |a| ≤ A) (h2 : |b| ≤ B) : |a * b| ≤ A * B := by
  rw [abs_mul]; exact mul_le_mul h1 h2 (abs_nonneg _) ((abs_nonneg _).trans h1)

theorem addb {a b A B : ℝ} (h1 : |a| ≤ A) (h2 : |b| ≤ B) : |a + b| ≤ A + B := (abs_add_le _ _).trans (add_le_add h1 h2)

theorem subb {a b A B : ℝ} (h1 : |a| ≤ A) (h2 : |b| ≤ B) : |a - b| ≤ A + B := (abs_sub _ _).trans (add_le_add h1 h2)

theorem far_out {z p : Pt} {r δ B : ℝ} (hr : 0 ≤ r) (hB : r ≤ B) (hd : r ^ 2 + δ ≤ (z.1 - p.1) ^ 2 + (z.2 - p.2) ^ 2) (hδ : geomEps * (2 * B + geomEps) < δ) :
    r + geomEps < euclid z p := by
  have heps : (0 : ℝ) < geomEps := by norm_num [geomEps]
  refine (sq_lt_sq₀ (by linarith) (euclid_nonneg _ _)).1 ?_
  rw [euclid_sq]
  nlinarith [mul_le_mul_of_nonneg_left hB heps.le]

theorem int_pos {x : ℝ} {k : ℤ} (h : x = k) (h0 : 0 < x) : 1 ≤ x := by
  rw [h] at h0 ⊢
  exact_mod_cast (by exact_mod_cast h0 : (0 : ℤ) < k)

theorem int_abs {x : ℝ} {k : ℤ} (h : x = k) (h0 : x ≠ 0) : 1 ≤ |x| := by
  rw [h] at h0 ⊢
  have : k ≠ 0 := by exact_mod_cast h0
  exact_mod_cast Int.one_le_abs this

theorem half_bound {A w N : ℝ} (hA : 1 ≤ |A|) (hw : 2 * A * w = N) (hN : |N| ≤ 256000) : w ^ 2 ≤ 128000 ^ 2 := by
  rw [← hw, abs_mul, abs_mul, abs_two] at hN
  have : |w| ≤ 128000 := by nlinarith [abs_nonneg w]
  rw [← sq_abs]
  exact (sq_le_sq₀ (abs_nonneg _) (by norm_num)).2 this

theorem quot_low {F A : ℝ} (hF : 0 < F) (hA : |A| ≤ 3200) (h : 1 ≤ |F * A|) : 1 / 3200 ≤ F := by
  rw [abs_mul, abs_of_pos hF] at h
  rw [div_le_iff₀ (by norm_num)]
  linarith [mul_le_mul_of_nonneg_left hA hF.le]

theorem grid_clear {ps : List Pt} (hg : Grid ps) : Clear ps := by
  have heps : (0 : ℝ) < geomEps := by norm_num [geomEps]
  have hint : ∀ a ∈ ps, ∀ b ∈ ps, ∀ c ∈ ps, ∃ k : ℤ, area2 a b c = k := by
    intro a ha b hb c hc
    obtain ⟨m1, n1, rfl, -, -⟩ := hg a ha
    obtain ⟨m2, n2, rfl, -, -⟩ := hg b hb
    obtain ⟨m3, n3, rfl, -, -⟩ := hg c hc
    exact ⟨m1 * (n2 - n3) + m2 * (n3 - n1) + m3 * (n1 - n2), by simp only [area2]; push_cast; ring⟩
  refine ⟨fun z r hc p hp => ?_, fun a ha b hb c hc => ?_⟩
  · rcases le_or_gt (euclid z p) r with h | h
    · exact Or.inl h
    right
    have hr0 : 0 ≤ r := by
      cases hc with
      | origin => exact le_rfl
      | point _ => exact le_rfl
      | diameter _ _ => exact div_nonneg (euclid_nonneg _ _) (by norm_num)
      | through _ _ _ _ h1 _ _ => rw [← h1]; exact euclid_nonneg _ _
    have hF : 0 < (z.1 - p.1) ^ 2 + (z.2 - p.2) ^ 2 - r ^ 2 := by
      rw [← euclid_sq, sub_pos]; exact (sq_lt_sq₀ hr0 (euclid_nonneg _ _)).2 h
    obtain ⟨m, n, rfl, hm, hn⟩ := hg p hp
    cases hc with
    | origin =>
      have := int_pos (k := m ^ 2 + n ^ 2) (by push_cast; ring) hF
      exact far_out (δ := 1) (B := 0) le_rfl le_rfl (by linarith) (by norm_num [geomEps])
    | point ha =>
      obtain ⟨m1, n1, rfl, -, -⟩ := hg _ ha
      have := int_pos (k := (m1 - m) ^ 2 + (n1 - n) ^ 2) (by push_cast; ring) hF
      exact far_out (δ := 1) (B := 0) le_rfl le_rfl (by linarith) (by norm_num [geomEps])
    | diameter ha hb =>
      obtain ⟨m1, n1, rfl, hm1, hn1⟩ := hg _ ha
      obtain ⟨m2, n2, rfl, hm2, hn2⟩ := hg _ hb
      have e := euclid_sq ((m1 : ℝ), (n1 : ℝ)) ((m2 : ℝ), (n2 : ℝ))
      have hr2 : (euclid ((m1 : ℝ), (n1 : ℝ)) ((m2 : ℝ), (n2 : ℝ)) / 2) ^ 2 = ((m1 - m2 : ℝ) ^ 2 + (n1 - n2 : ℝ) ^ 2) / 4 := by rw [div_pow, e]; norm_num
      rw [hr2] at hF
      simp only at hF
      have := int_pos (k := (m1 + m2 - 2 * m) ^ 2 + (n1 + n2 - 2 * n) ^ 2 - ((m1 - m2) ^ 2 + (n1 - n2) ^ 2)) (x := 4 * (((m1 + m2 : ℝ) / 2 - m) ^ 2 + ((n1 + n2 : ℝ) / 2 - n) ^ 2 -
        ((m1 - m2 : ℝ) ^ 2 + (n1 - n2 : ℝ) ^ 2) / 4)) (by push_cast; ring) (by linarith)
      refine far_out (δ := 1 / 4) (B := 40) hr0 ?_ (by rw [hr2]; simp only; linarith) (by norm_num [geomEps])
      refine (sq_le_sq₀ hr0 (by norm_num)).1 ?_
      rw [hr2]
      have q1 := mulb (subb hm1 hm2) (subb hm1 hm2)
      have q2 := mulb (subb hn1 hn2) (subb hn1 hn2)
      linarith [le_abs_self ((m1 - m2 : ℝ) * (m1 - m2)), le_abs_self ((n1 - n2 : ℝ) * (n1 - n2)), pow_two (m1 - m2 : ℝ), pow_two (n1 - n2 : ℝ)]
    | through ha hb hcm hne h1 h2 h3 =>
      rename_i a b c
      obtain ⟨ka, hka⟩ := hint _ ha _ hb _ hcm
      obtain ⟨m1, n1, rfl, hm1, hn1⟩ := hg _ ha
      obtain ⟨m2, n2, rfl, hm2, hn2⟩ := hg _ hb
      obtain ⟨m3, n3, rfl, hm3, hn3⟩ := hg _ hcm
      have hA1 := int_abs hka hne
      have s1 := euclid_sq z ((m1 : ℝ), (n1 : ℝ)); have s2 := euclid_sq z ((m2 : ℝ), (n2 : ℝ)); have s3 := euclid_sq z ((m3 : ℝ), (n3 : ℝ))
      rw [h1] at s1; rw [h2] at s2; rw [h3] at s3
      simp only at s1 s2 s3 hF
      set A := area2 ((m1 : ℝ), (n1 : ℝ)) ((m2 : ℝ), (n2 : ℝ)) ((m3 : ℝ), (n3 : ℝ)) with hA
      have hAd : A = (m2 - m1 : ℝ) * (n3 - n1) - (n2 - n1) * (m3 - m1) := by rw [hA]; simp only [area2]; ring
      set N1 : ℝ := (n3 - n1) * ((m2 - m1) * (m2 - m1) + (n2 - n1) * (n2 - n1)) - (n2 - n1) * ((m3 - m1) * (m3 - m1) + (n3 - n1) * (n3 - n1)) with hN1
      set N2 : ℝ := (m2 - m1) * ((m3 - m1) * (m3 - m1) + (n3 - n1) * (n3 - n1)) - (m3 - m1) * ((m2 - m1) * (m2 - m1) + (n2 - n1) * (n2 - n1)) with hN2
      have w1 : 2 * A * (z.1 - m1) = N1 := by
        rw [hAd, hN1]; linear_combination (n3 - n1 : ℝ) * (s2 - s1) - (n2 - n1 : ℝ) * (s3 - s1)
      have w2 : 2 * A * (z.2 - n1) = N2 := by
        rw [hAd, hN2]; linear_combination (m2 - m1 : ℝ) * (s3 - s1) - (m3 - m1 : ℝ) * (s2 - s1)
      set F := (z.1 - m) ^ 2 + (z.2 - n) ^ 2 - r ^ 2 with hFd
      have hFA : F * A = ((m - m1 : ℝ) ^ 2 + (n - n1 : ℝ) ^ 2) * A - ((m - m1) * N1 + (n - n1) * N2) := by
        rw [hFd, s1, ← w1, ← w2]; ring
      have hk : F * A = (((m - m1) ^ 2 + (n - n1) ^ 2) * ka -
          ((m - m1) * ((n3 - n1) * ((m2 - m1) * (m2 - m1) + (n2 - n1) * (n2 - n1)) - (n2 - n1) * ((m3 - m1) * (m3 - m1) + (n3 - n1) * (n3 - n1))) +
            (n - n1) * ((m2 - m1) * ((m3 - m1) * (m3 - m1) + (n3 - n1) * (n3 - n1)) - (m3 - m1) * ((m2 - m1) * (m2 - m1) + (n2 - n1) * (n2 - n1)))) : ℤ) := by
        rw [hFA, hka, hN1, hN2]; push_cast; ring
      have hFA1 := int_abs hk (mul_ne_zero hF.ne' hne)
      have hAb : |A| ≤ 3200 := by
        rw [hAd]
        exact (subb (mulb (subb hm2 hm1) (subb hn3 hn1)) (mulb (subb hn2 hn1) (subb hm3 hm1))).trans (by norm_num)
      have hNb1 : |N1| ≤ 256000 := by
        rw [hN1]
        exact (subb (mulb (subb hn3 hn1) (addb (mulb (subb hm2 hm1) (subb hm2 hm1)) (mulb (subb hn2 hn1) (subb hn2 hn1))))
          (mulb (subb hn2 hn1) (addb (mulb (subb hm3 hm1) (subb hm3 hm1)) (mulb (subb hn3 hn1) (subb hn3 hn1))))).trans (by norm_num)
      have hNb2 : |N2| ≤ 256000 := by
        rw [hN2]
        exact (subb (mulb (subb hm2 hm1) (addb (mulb (subb hm3 hm1) (subb hm3 hm1)) (mulb (subb hn3 hn1) (subb hn3 hn1))))
          (mulb (subb hm3 hm1) (addb (mulb (subb hm2 hm1) (subb hm2 hm1)) (mulb (subb hn2 hn1) (subb hn2 hn1))))).trans (by norm_num)
      have hFl : 1 / 3200 ≤ F := quot_low hF hAb hFA1
      have hw1 := half_bound hA1 w1 hNb1
      have hw2 := half_bound hA1 w2 hNb2
      refine far_out (δ := 1 / 3200) (B := 200000) hr0 ?_ (by simp only; linarith) (by norm_num [geomEps])
      exact (sq_le_sq₀ hr0 (by norm_num)).1 (by rw [s1]; linarith)
  · obtain ⟨k, hk⟩ := hint a ha b hb c hc
    by_cases h0 : area2 a b c = 0
    · exact Or.inl h0
    · right
      have := int_abs hk h0
      have : (geomEps : ℝ) ≤ 1 := by norm_num [geomEps]
      linarith

/-- **C126, partial.**  For points with integer coordinates of absolute value at most 20, for every shuffle and every sequence of draws, the result is the
smallest enclosing circle.  Missing: coordinates in general, see `minCircle_partial`. -/
theorem minCircle_grid_partial (pick : ℕ → ℕ → ℕ) (hpick : ∀ k n, 0 < n → pick k n < n) (ps ps' : List Pt) (hperm : ps'.Perm ps) (hne : ps ≠ []) (hg : Grid ps) :
    ∃ c, minCircle pick ps ps' = .ret c ∧ Smallest c.center c.radius ps := minCircle_partial pick hpick ps ps' hperm hne (grid_clear hg)

/-- A case of the theorems: the smallest circle about the corners of the triangle with the sides 6, 8 and 10 and a point inside has the radius 5. -/
example (pick : ℕ → ℕ → ℕ) (hpick : ∀ k n, 0 < n → pick k n < n) :
    ∃ c, minCircle pick [(0, 0), (6, 0), (0, 8), (1, 1)] [(1, 1), (0, 8), (6, 0), (0, 0)] = .ret c ∧ c.radius = 5 ∧ c.center = (3, 4) := by
  have hg : Grid [(0, 0), (6, 0), (0, 8), (1, 1)] := by
    intro p hp
    simp only [List.mem_cons, List.not_mem_nil, or_false] at hp
    rcases hp with rfl | rfl | rfl | rfl
    · exact ⟨0, 0, by norm_num⟩
    · exact ⟨6, 0, by norm_num, by norm_num [abs_le], by norm_num⟩
    · exact ⟨0, 8, by norm_num, by norm_num, by norm_num [abs_le]⟩
    · exact ⟨1, 1, by norm_num⟩
  obtain ⟨c, h1, h2, h3⟩ := minCircle_grid_partial pick hpick [(0, 0), (6, 0), (0, 8), (1, 1)] [(1, 1), (0, 8), (6, 0), (0, 0)]
    (List.reverse_perm [(0, 0), (6, 0), (0, 8), (1, 1)]) (by simp) hg
  have he : Encloses (3, 4) 5 [(0, 0), (6, 0), (0, 8), (1, 1)] := by
    intro p hp
    simp only [List.mem_cons, List.not_mem_nil, or_false] at hp
    rcases hp with rfl | rfl | rfl | rfl <;> (rw [euclid, Real.sqrt_le_iff]; norm_num)
  obtain ⟨h4, h5⟩ := h3 (3, 4) 5 he
  have h6 := h2 (6, 0) (by simp)
  have h7 := h2 (0, 8) (by simp)
  have h8 : (5 : ℝ) ≤ c.radius := by
    have e1 := euclid_sq c.center (6, 0)
    have e2 := euclid_sq c.center (0, 8)
    have n1 := euclid_nonneg c.center (6, 0)
    have n2 := euclid_nonneg c.center (0, 8)
    have f1 := mul_self_le_mul_self n1 h6
    have f2 := mul_self_le_mul_self n2 h7
    refine (sq_le_sq₀ (by norm_num) (n1.trans h6)).1 ?_
    simp only at e1 e2
    nlinarith [sq_nonneg (c.center.1 - 3), sq_nonneg (c.center.2 - 4)]
  have h9 : c.radius = 5 := le_antisymm h4 h8
  exact ⟨c, h1, h9, (h5 h9.symm).symm⟩

/-! ## Points close together -/

theorem inside_iff (p : Pt) (c : CB.Circle) : isInside p c = true ↔ euclid p c.center ≤ c.radius + geomEps := by rw [isInside, decide_eq_true_eq, dist2_eq]

theorem not_inside {p : Pt} {c : CB.Circle} (h0 : 0 ≤ c.radius) (h : (c.radius + geomEps) ^ 2 < (p.1 - c.center.1) ^ 2 + (p.2 - c.center.2) ^ 2) : isInside p c = false := by
  have heps : (0 : ℝ) < geomEps := by norm_num [geomEps]
  rw [← Bool.not_eq_true, inside_iff, not_le]
  refine (sq_lt_sq₀ (by linarith) (euclid_nonneg _ _)).1 ?_
  rw [euclid_sq]; exact h

theorem not_inside_le {p : Pt} {c : CB.Circle} {B : ℝ} (h0 : 0 ≤ c.radius) (hB : c.radius ≤ B) (h : (B + geomEps) ^ 2 < (p.1 - c.center.1) ^ 2 + (p.2 - c.center.2) ^ 2) :
    isInside p c = false := by
  have heps : (0 : ℝ) < geomEps := by norm_num [geomEps]
  refine not_inside h0 (lt_of_le_of_lt ?_ h)
  exact (sq_le_sq₀ (by linarith) (by linarith)).2 (by linarith)

theorem from2_radius (p q : Pt) {B : ℝ} (hB : 0 ≤ B) (h : (p.1 - q.1) ^ 2 + (p.2 - q.2) ^ 2 ≤ (2 * B) ^ 2) : 0 ≤ (from2 p q).radius ∧ (from2 p q).radius ≤ B := by
  have h1 : (from2 p q).radius = euclid p q / 2 := by rw [from2, dist2_eq]
  have h2 : euclid p q ≤ 2 * B := by rw [euclid, Real.sqrt_le_iff]; exact ⟨by linarith, h⟩
  rw [h1]
  exact ⟨div_nonneg (euclid_nonneg _ _) (by norm_num), by linarith⟩

/-- One call with the draw that leaves the points in place. -/
theorem welzl_stay {n : ℕ} {b ps : List Pt} {k k' : ℕ} {p : Pt} {c : CB.Circle} (hb : b.length ≠ 3) (hp : ps[n]? = some p)
    (h : welzl (fun _ n => n - 1) n b ps (k + 1) = .ret (c, ps, k')) :
    welzl (fun _ n => n - 1) (n + 1) b ps k = if isInside p c then .ret (c, ps, k') else welzl (fun _ n => n - 1) n (b ++ [p]) ps k' := by
  have hn : n < ps.length := (List.getElem?_eq_some_iff.1 hp).1
  have hi : Outcome.index ps n = .ret p := by rw [Outcome.index, hp]
  have hset : ps.set n p = ps := by
    obtain ⟨h1, h2⟩ := List.getElem?_eq_some_iff.1 hp
    rw [← h2, List.set_getElem_self]
  have hsw : swap ps n n = .ret ps := by
    rw [swap, hi, Outcome.bind_ret, Outcome.bind_ret, Outcome.store, if_pos hn, Outcome.bind_ret, hset, Outcome.store, if_pos hn, hset]
  rw [welzl, if_neg hb, Nat.add_sub_cancel, hsw, Outcome.bind_ret, hi, Outcome.bind_ret, h, Outcome.bind_ret]

/-- **C126, a disagreement.**  For three points about `10⁻⁶` apart there are draws for which the circle returned misses one of the points by more than half
of its radius: the three points count as collinear, and the circle about the two that are farthest apart is taken. -/
theorem minCircle_wrong : ∃ (pick : ℕ → ℕ → ℕ) (ps : List Pt) (c : CB.Circle), (∀ k n, 0 < n → pick k n < n) ∧ minCircle pick ps ps = .ret c ∧
    ∃ p ∈ ps, 1.5 * c.radius < euclid c.center p := by
  set e : ℝ := 1 / 10 ^ 6 with he
  set p0 : Pt := (0, 0) with h0
  set p1 : Pt := (2 * e, 0) with h1
  set p2 : Pt := (e, 2 * e) with h2
  have i0 : isInside p0 (base []) = true := by
    rw [inside_iff, base, euclid]; norm_num [geomEps, h0]
  have i1 : isInside p1 (base []) = false := not_inside_le (B := 0) le_rfl le_rfl (by norm_num [base, geomEps, h1, he])
  have i2 : isInside p0 (base [p1]) = false := not_inside_le (B := 0) le_rfl le_rfl (by norm_num [base, geomEps, h0, h1, he])
  have r10 := from2_radius p1 p0 (B := 12 / 10 ^ 7) (by norm_num) (by norm_num [h0, h1, he])
  have r20 := from2_radius p2 p0 (B := 12 / 10 ^ 7) (by norm_num) (by norm_num [h0, h2, he])
  have r21 := from2_radius p2 p1 (B := 12 / 10 ^ 7) (by norm_num) (by norm_num [h1, h2, he])
  have i3 : isInside p2 (base [p1, p0]) = false := not_inside_le r10.1 r10.2 (by norm_num [base, from2, geomEps, h0, h1, h2, he])
  have i4 : isInside p0 (base [p2]) = false := not_inside_le (B := 0) le_rfl le_rfl (by norm_num [base, geomEps, h0, h2, he])
  have i5 : isInside p1 (base [p2, p0]) = false := not_inside_le r20.1 r20.2 (by norm_num [base, from2, geomEps, h0, h1, h2, he])
  have i6 : isInside p0 (base [p2, p1]) = false := not_inside_le r21.1 r21.2 (by norm_num [base, from2, geomEps, h0, h1, h2, he])
  have w1 : ∀ k, welzl (fun _ n => n - 1) 1 [] [p0, p1, p2] k = .ret (base [], [p0, p1, p2], k + 1) := fun k => by
    rw [welzl_stay (c := base []) (k' := k + 1) (p := p0) (by simp) (by simp) rfl, if_pos i0]
  have w2 : ∀ k, welzl (fun _ n => n - 1) 1 [p1] [p0, p1, p2] k = .ret (base [p1, p0], [p0, p1, p2], k + 1) := fun k => by
    rw [welzl_stay (c := base [p1]) (k' := k + 1) (p := p0) (by simp) (by simp) rfl, i2]; rfl
  have w3 : ∀ k, ∃ k', welzl (fun _ n => n - 1) 2 [] [p0, p1, p2] k = .ret (base [p1, p0], [p0, p1, p2], k') := fun k =>
    ⟨_, by rw [welzl_stay (c := base []) (p := p1) (by simp) (by simp) (w1 (k + 1)), i1]; exact w2 _⟩
  have w4 : ∀ k, welzl (fun _ n => n - 1) 1 [p2] [p0, p1, p2] k = .ret (base [p2, p0], [p0, p1, p2], k + 1) := fun k => by
    rw [welzl_stay (c := base [p2]) (k' := k + 1) (p := p0) (by simp) (by simp) rfl, i4]; rfl
  have w5 : ∀ k, welzl (fun _ n => n - 1) 1 [p2, p1] [p0, p1, p2] k = .ret (base [p2, p1, p0], [p0, p1, p2], k + 1) := fun k => by
    rw [welzl_stay (c := base [p2, p1]) (k' := k + 1) (p := p0) (by simp) (by simp) rfl, i6]; rfl
  have w6 : ∀ k, ∃ k', welzl (fun _ n => n - 1) 2 [p2] [p0, p1, p2] k = .ret (base [p2, p1, p0], [p0, p1, p2], k') := fun k =>
    ⟨_, by rw [welzl_stay (c := base [p2, p0]) (p := p1) (by simp) (by simp) (w4 (k + 1)), i5]; exact w5 _⟩
  have w7 : ∃ k', welzl (fun _ n => n - 1) 3 [] [p0, p1, p2] 0 = .ret (base [p2, p1, p0], [p0, p1, p2], k') := by
    obtain ⟨k1, hk1⟩ := w3 1
    obtain ⟨k2, hk2⟩ := w6 k1
    exact ⟨k2, by rw [welzl_stay (c := base [p1, p0]) (p := p2) (by simp) (by simp) hk1, i3]; exact hk2⟩
  have hb : base [p2, p1, p0] = from2 p2 p1 := by
    have hf : from3 p2 p1 p0 = none := by
      rw [from3, if_pos]
      norm_num [den3, geomEps, h0, h1, h2, he, abs_of_pos, abs_of_neg]
    rw [base, hf, Option.getD_none, farthest2, if_pos]
    simp only [dist2]
    exact ⟨Real.sqrt_le_sqrt (by norm_num [h0, h1, h2, he]), Real.sqrt_le_sqrt (by norm_num [h0, h1, h2, he])⟩
  obtain ⟨k', hw⟩ := w7
  refine ⟨fun _ n => n - 1, [p0, p1, p2], from2 p2 p1, fun k n h => Nat.sub_lt h one_pos, ?_, p0, by simp, ?_⟩
  · rw [minCircle, show [p0, p1, p2].length = 3 from rfl, hw, Outcome.bind_ret, hb, CB.Circle.new, if_neg (not_lt.2 r21.1)]
    all_goals simp
  · have hr : (from2 p2 p1).radius ^ 2 = 5 / 4 * e ^ 2 := by
      rw [show (from2 p2 p1).radius = euclid p2 p1 / 2 by rw [from2, dist2_eq], div_pow, euclid_sq]
      simp only [h1, h2]; ring
    refine (sq_lt_sq₀ (mul_nonneg (by norm_num) r21.1) (euclid_nonneg _ _)).1 ?_
    rw [mul_pow, hr, euclid_sq]
    norm_num [from2, h0, h1, h2, he]

end Verif.CompGeo.MEC
