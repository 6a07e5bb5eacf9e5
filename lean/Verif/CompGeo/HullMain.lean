import Verif.CompGeo.HullChain

/-!
# The result of the monotone chain
-/

set_option autoImplicit false

namespace Verif.CompGeo

open Verif

theorem isChain_pairwise {σ : ℝ} {seen s : List (ℝ × ℝ)} (h : s.IsChain (Good σ seen)) : s.Pairwise fun b a => Lt σ a b := by
  have h1 : s.IsChain fun b a => Lt σ a b := h.imp fun _ _ hg => hg.1
  haveI : IsTrans (ℝ × ℝ) fun b a => Lt σ a b := ⟨fun a b c hab hbc => Lt.trans hbc hab⟩
  exact h1.pairwise

/-- Two chains which share their ends only form the hull. -/
theorem isHull_chains {ps u base : List (ℝ × ℝ)} {o r : ℝ × ℝ} (ho : o ∈ ps) (hr : r ∈ ps) (hor : Lt 1 o r)
    (hfirst : ∀ q ∈ ps, q = o ∨ Lt 1 o q) (hlast : ∀ q ∈ ps, q = r ∨ Lt 1 q r)
    (hl : Inv 1 o ps (r :: base)) (hu : Inv (-1) r ps (o :: u)) : IsHull ps (u ++ base).reverse := by
  have hd : Dir 1 := Or.inl rfl
  have hd' : Dir (-1) := Or.inr rfl
  have hne : o ≠ r := hor.ne
  -- both chains have at least two points
  have hb : base ≠ [] := by
    rintro rfl
    have := hl.bottom
    simp at this
    exact hne this.symm
  have hbl : base.getLast? = some o := by
    have := hl.bottom
    cases base with
    | nil => exact absurd rfl hb
    | cons x base => rwa [List.getLast?_cons_cons] at this
  have hun : u ≠ [] := by
    rintro rfl
    have := hu.bottom
    simp at this
    exact hne this
  have hul : u.getLast? = some r := by
    have := hu.bottom
    cases u with
    | nil => exact absurd rfl hun
    | cons x u => rwa [List.getLast?_cons_cons] at this
  obtain ⟨a0, base', rfl⟩ := List.exists_cons_of_ne_nil hb
  obtain ⟨u0, u', rfl⟩ := List.exists_cons_of_ne_nil hun
  -- the whole stack
  have hS : (o :: (u0 :: u') ++ a0 :: base').IsChain fun b a => ∀ q ∈ ps, 0 ≤ cross a b q := by
    rw [List.isChain_append]
    refine ⟨hu.good.imp fun _ _ h => h.2, ?_, ?_⟩
    · exact (hl.good.imp fun _ _ h => h.2).tail
    · intro x hx y hy
      rw [hu.bottom] at hx
      cases hx
      cases hy
      exact (List.isChain_cons_cons.mp hl.good).1.2
  have hpl := isChain_pairwise hl.good
  have hpu := isChain_pairwise hu.good
  have hedge : ∀ a b, Edge (u0 :: u' ++ a0 :: base').reverse a b → [b, a] <:+: o :: (u0 :: u') ++ a0 :: base' := by
    intro a b hab
    have h1 : (u0 :: u' ++ a0 :: base').reverse.take 1 = [o] := by
      have h2 : (u0 :: u' ++ a0 :: base').getLast? = some o := by
        rw [List.getLast?_append, hbl]
        rfl
      have h3 : (u0 :: u' ++ a0 :: base').reverse.head? = some o := by rw [List.head?_reverse, h2]
      cases h4 : (u0 :: u' ++ a0 :: base').reverse with
      | nil => rw [h4] at h3; simp at h3
      | cons x t =>
        rw [h4] at h3
        simp at h3
        simp [h3]
    rw [Edge, h1] at hab
    have h5 : [b, a].reverse <:+: (o :: (u0 :: u') ++ a0 :: base').reverse := by
      simpa using hab
    exact List.reverse_infix.mp h5
  have hsub : ∀ v ∈ (u0 :: u' ++ a0 :: base').reverse, v ∈ ps := by
    intro v hv
    rw [List.mem_reverse, List.mem_append] at hv
    rcases hv with hv | hv
    · exact hu.sub v (List.mem_cons_of_mem _ hv)
    · exact hl.sub v (List.mem_cons_of_mem _ hv)
  have hleft : ∀ a b, Edge (u0 :: u' ++ a0 :: base').reverse a b → ∀ q ∈ ps, 0 ≤ area2 a b q := by
    intro a b hab q hq
    rw [← cross_eq]
    exact chain_infix hS (hedge a b hab) q hq
  have hnodup : (u0 :: u' ++ a0 :: base').reverse.Nodup := by
    rw [List.nodup_reverse, List.nodup_append]
    refine ⟨(hpu.imp fun h => h.ne.symm).tail, (hpl.imp fun h => h.ne.symm).tail, ?_⟩
    rintro v hv w hw rfl
    have hvr : Lt 1 v r := (List.pairwise_cons.mp hpl).1 v hw
    have hvo : Lt 1 o v := by
      have := (List.pairwise_cons.mp hpu).1 v hv
      simpa using this.neg
    rcases exists_triple r (a0 :: base') v hw with h | ⟨p, n, h⟩
    · rw [hbl] at h
      exact hvo.ne (by simpa using h)
    rcases exists_triple o (u0 :: u') v hv with h' | ⟨p', n', h'⟩
    · rw [hul] at h'
      exact hvr.ne (by simpa using h'.symm)
    obtain ⟨i1, i2, m1, m2, m3⟩ := mem_triple h
    obtain ⟨-, j2, -, -, -⟩ := mem_triple h'
    have g1 := chain_infix hl.good i1
    have g2 := chain_infix hl.good i2
    have g3 := chain_infix hu.good j2
    refine not_both (n' := n') g2.1 g1.1 ?_ (turns_infix hl.turns h) (g3.2 n (hl.sub n m3)) (g3.2 p (hl.sub p m1))
    simpa using g3.1.neg
  by_cases hcol : ∀ q ∈ ps, cross o r q = 0
  · -- all points on a line
    have hall : ∀ x ∈ ps, ∀ y ∈ ps, ∀ z ∈ ps, cross x y z = 0 := fun x hx y hy z hz =>
      collinear_any hne (hcol x hx) (hcol y hy) (hcol z hz)
    have e1 : base' = [] := by
      cases base' with
      | nil => rfl
      | cons b t =>
        have := hl.turns.1
        rw [hall b (hl.sub b (by simp)) a0 (hl.sub a0 (by simp)) r hr] at this
        exact absurd this (lt_irrefl _)
    have e2 : u' = [] := by
      cases u' with
      | nil => rfl
      | cons b t =>
        have := hu.turns.1
        rw [hall b (hu.sub b (by simp)) u0 (hu.sub u0 (by simp)) o ho] at this
        exact absurd this (lt_irrefl _)
    subst e1 e2
    have e3 : a0 = o := by simpa using hbl
    have e4 : u0 = r := by simpa using hul
    subst e3 e4
    refine isHull_segment ho hr hne fun q hq => ?_
    have h0 := hcol q hq
    simp only [cross] at h0
    have hoq : a0.1 < q.1 ∨ a0.1 = q.1 ∧ a0.2 ≤ q.2 := by
      rcases hfirst q hq with rfl | h | ⟨h, h'⟩
      · exact Or.inr ⟨rfl, le_rfl⟩
      · exact Or.inl (by simpa using h)
      · simp only [one_mul] at h h'
        exact Or.inr ⟨by linarith, by linarith⟩
    have hqr : q.1 < u0.1 ∨ q.1 = u0.1 ∧ q.2 ≤ u0.2 := by
      rcases hlast q hq with rfl | h | ⟨h, h'⟩
      · exact Or.inr ⟨rfl, le_rfl⟩
      · exact Or.inl (by simpa using h)
      · simp only [one_mul] at h h'
        exact Or.inr ⟨by linarith, by linarith⟩
    have hq1 : a0.1 ≤ q.1 := by rcases hoq with h | ⟨h, -⟩ <;> linarith
    have hq2 : q.1 ≤ u0.1 := by rcases hqr with h | ⟨h, -⟩ <;> linarith
    rcases hor with h | ⟨h, h'⟩
    · simp only [one_mul] at h
      have hp : 0 < u0.1 - a0.1 := h
      refine ⟨(q.1 - a0.1) / (u0.1 - a0.1), div_nonneg (by linarith) hp.le, (div_le_one hp).mpr (by linarith), Prod.ext ?_ ?_⟩
      · simp
        field_simp
        ring
      · simp
        field_simp
        linarith
    · simp only [one_mul] at h h'
      have hp : 0 < u0.2 - a0.2 := h'
      have hq3 : q.1 = a0.1 := by linarith
      have hq4 : a0.2 ≤ q.2 := by
        rcases hoq with h3 | ⟨-, h3⟩
        · linarith
        · exact h3
      have hq5 : q.2 ≤ u0.2 := by
        rcases hqr with h3 | ⟨-, h3⟩
        · linarith
        · exact h3
      refine ⟨(q.2 - a0.2) / (u0.2 - a0.2), div_nonneg (by linarith) hp.le, (div_le_one hp).mpr (by linarith), Prod.ext ?_ ?_⟩
      · simp [h, hq3]
      · simp
        field_simp
        ring
  · -- a proper polygon
    push Not at hcol
    obtain ⟨q0, hq0, hq0'⟩ := hcol
    have hjr : ∀ c, [c, r] <:+ o :: u0 :: u' → 0 < cross a0 r c := by
      intro c hc
      have g1 := (List.isChain_cons_cons.mp hl.good).1
      have g2 := chain_infix hu.good hc.isInfix
      have hcm : c ∈ ps := hu.sub c (hc.subset (by simp))
      refine lt_of_le_of_ne (g1.2 c hcm) fun h0 => hq0' ?_
      have hc' : Lt 1 c r := by simpa using g2.1.neg
      have hz : ∀ q ∈ ps, cross a0 r q = 0 := fun q hq => flat hd g1.1 hc' h0.symm (g1.2 q hq) (g2.2 q hq)
      exact collinear_any g1.1.ne (hz o ho) (hz r hr) (hz q0 hq0)
    have hT : Turns (o :: (u0 :: u') ++ a0 :: base') := by
      refine turns_append _ _ hu.turns hl.turns hu.bottom fun c a hc ha => ?_
      have : a = a0 := by simpa using ha.symm
      rw [this]
      exact hjr c hc
    have hcorner : ∀ v ∈ (u0 :: u' ++ a0 :: base').reverse, ∃ a ∈ (u0 :: u' ++ a0 :: base').reverse,
        ∃ c ∈ (u0 :: u' ++ a0 :: base').reverse, Corner ps a v c := by
      have hom : o ∈ (u0 :: u' ++ a0 :: base').reverse := by
        rw [List.mem_reverse]
        exact List.mem_append_right _ (List.mem_of_getLast? hbl)
      have hmem : ∀ x ∈ o :: (u0 :: u') ++ a0 :: base', x ∈ (u0 :: u' ++ a0 :: base').reverse := by
        intro x hx
        rcases List.mem_cons.mp hx with rfl | hx
        · exact hom
        · exact List.mem_reverse.mpr hx
      intro v hv
      rw [List.mem_reverse] at hv
      rcases exists_triple o (u0 :: u' ++ a0 :: base') v hv with h | ⟨p, n, h⟩
      · have hvo : v = o := by
          rw [List.getLast?_append, hbl] at h
          simpa using h.symm
        subst hvo
        -- the turn at the first point
        have hy : ∃ y, [y, v] <:+: r :: a0 :: base' := by
          have h1 : (r :: a0 :: base') = (r :: a0 :: base').dropLast ++ [v] := by
            have := List.dropLast_append_getLast? v hl.bottom
            exact this.symm
          have h2 : (r :: a0 :: base').dropLast ≠ [] := by simp
          obtain ⟨l, y, hl'⟩ := List.eq_nil_or_concat (r :: a0 :: base').dropLast |>.resolve_left h2
          refine ⟨y, ?_⟩
          rw [h1, hl']
          exact ⟨l, [], by simp⟩
        obtain ⟨y, hy⟩ := hy
        have g1 := chain_infix hl.good hy
        have g2 := (List.isChain_cons_cons.mp hu.good).1
        have hym : y ∈ r :: a0 :: base' := hy.subset (by simp)
        have hyp := hl.sub y hym
        refine ⟨u0, hmem _ (by simp), y, hmem _ ?_, lt_of_le_of_ne (g2.2 y hyp) fun h0 => hq0' ?_, fun q hq => ⟨g2.2 q hq, g1.2 q hq⟩⟩
        · rcases List.mem_cons.mp hym with rfl | hym
          · exact List.mem_append_left _ (List.mem_cons_of_mem _ (List.mem_of_getLast? hul))
          · exact List.mem_append_right _ hym
        · have hz : ∀ q ∈ ps, cross u0 v q = 0 := fun q hq => flat hd' g2.1 g1.1.neg h0.symm (g2.2 q hq) (g1.2 q hq)
          exact collinear_any g2.1.ne (hz v ho) (hz r hr) (hz q0 hq0)
      · obtain ⟨i1, i2, m1, m2, m3⟩ := mem_triple h
        exact ⟨n, hmem n m3, p, hmem p m1, turns_infix hT h, fun q hq => ⟨chain_infix hS i2 q hq, chain_infix hS i1 q hq⟩⟩
    refine ⟨hnodup, corners_of_hull hsub (fun v hv => ?_) (hull_of_corners (by simp) hcorner), hleft⟩
    obtain ⟨a, -, c, -, h⟩ := hcorner v hv
    exact h.extreme (hsub v hv)

/-- The monotone chain over sorted points. -/
theorem monotoneChain_isHull (ps : List (ℝ × ℝ)) (hs : ps.Pairwise (Lt 1)) (hsharp : Sharp ps) (hlen : 2 ≤ ps.length) :
    ∃ h, monotoneChain ps = .ret h ∧ IsHull ps h := by
  obtain ⟨o, ps', rfl⟩ : ∃ o l, ps = o :: l := by
    cases ps with
    | nil => simp at hlen
    | cons o l => exact ⟨o, l, rfl⟩
  have hne : ps' ≠ [] := by
    rintro rfl
    simp at hlen
  obtain ⟨low, k1, k2, k3, k4⟩ := chain_start (Or.inl rfl) (2 * (o :: ps').length) ps' hs
    (fun a ha b hb c hc => hsharp a (by simpa [or_comm] using ha) b (by simpa [or_comm] using hb) c (by simpa [or_comm] using hc))
    (by simp; omega)
  obtain ⟨r, tl, e⟩ : ∃ r tl, (o :: ps').reverse = r :: tl := by
    cases h : (o :: ps').reverse with
    | nil => simp at h
    | cons r tl => exact ⟨r, tl, rfl⟩
  have hrl : (o :: ps').getLast? = some r := by
    rw [← List.head?_reverse, e]
    rfl
  have hrev : (r :: tl).Pairwise (Lt (-1)) := by
    rw [← e, List.pairwise_reverse]
    exact hs.imp fun h => h.neg
  have hm : ∀ q, q ∈ tl.reverse ++ [r] ↔ q ∈ o :: ps' := by
    intro q
    rw [← List.reverse_cons, ← e, List.reverse_reverse]
  have hm' : ∀ q, q ∈ ps'.reverse ++ [o] ↔ q ∈ o :: ps' := by
    intro q
    rw [← List.reverse_cons, List.mem_reverse]
  have htl : tl.length = ps'.length := by
    have := congrArg List.length e
    simpa using this.symm
  obtain ⟨up, l1, l2, l3, l4⟩ := chain_start (Or.inr rfl) (1 + tl.length) tl hrev
    (fun a ha b hb c hc => hsharp a ((hm a).mp ha) b ((hm b).mp hb) c ((hm c).mp hc)) le_rfl
  rw [hrl] at k4
  obtain ⟨base, rfl⟩ : ∃ base, low = r :: base := by
    cases low with
    | nil => simp at k4
    | cons x base => exact ⟨base, by simpa using k4⟩
  have hol : (r :: tl).getLast? = some o := by
    rw [← e, List.getLast?_reverse]
    rfl
  rw [hol] at l4
  obtain ⟨u, rfl⟩ : ∃ u, up = o :: u := by
    cases up with
    | nil => simp at l4
    | cons x u => exact ⟨u, by simpa using l4⟩
  have hfl := chain_floor (2 * (o :: ps').length) (1 + tl.length) base tl [r] (o :: u) (by simp)
    (by simp at k2 ⊢; omega) l1
  have hfirst : chain (2 * (o :: ps').length) 2 (o :: ps') [] = .ret (r :: base) := by
    rw [chain, pop, push, if_pos (by simp)]
    · exact k1
    · simp
  refine ⟨(u ++ base).reverse, ?_, ?_⟩
  · rw [monotoneChain, hfirst]
    simp only [Outcome.bind_ret, e, List.tail_cons, List.length_cons]
    have : chain (2 * (o :: ps').length) (base.length + 2) tl (r :: base) = .ret (o :: u ++ base) := hfl
    rw [List.length_cons] at this
    rw [show base.length + 1 + 1 = base.length + 2 from rfl, this]
    simp only [Outcome.bind_ret, List.cons_append, List.tail_cons]
  · have hInv : ∀ {σ : ℝ} {o' : ℝ × ℝ} {seen s : List (ℝ × ℝ)}, (∀ q, q ∈ seen ↔ q ∈ o :: ps') → Inv σ o' seen s →
        Inv σ o' (o :: ps') s := by
      intro σ o' seen s hq h
      exact ⟨fun a ha => (hq a).mp (h.sub a ha), h.bottom, fun q hq' => h.first q ((hq q).mpr hq'),
        h.good.imp fun _ _ hg => ⟨hg.1, fun q hq' => hg.2 q ((hq q).mpr hq')⟩, h.turns⟩
    have hro : r ∈ o :: ps' := (hm r).mp (by simp)
    have hor : Lt 1 o r := by
      have h1 : r ∈ ps' := by
        rw [List.getLast?_cons_of_ne_nil hne] at hrl
        exact List.mem_of_getLast? hrl
      exact (List.pairwise_cons.mp hs).1 r h1
    refine isHull_chains (by simp) hro hor (fun q hq => ?_) (fun q hq => ?_) (hInv hm' k3) (hInv hm l3)
    · rcases List.mem_cons.mp hq with rfl | hq
      · exact Or.inl rfl
      · exact Or.inr ((List.pairwise_cons.mp hs).1 q hq)
    · have := (hm q).mpr hq
      rw [← List.reverse_cons, List.mem_reverse] at this
      rcases List.mem_cons.mp this with rfl | hq
      · exact Or.inl rfl
      · exact Or.inr (by simpa using ((List.pairwise_cons.mp hrev).1 q hq).neg)

end Verif.CompGeo
