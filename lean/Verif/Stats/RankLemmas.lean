import Verif.Stats.CorrProps

/-!
# The rank loop

Helpers for `RankProps.lean`.
-/

set_option autoImplicit false

namespace Verif.Stats

open Verif

/-- The value at a position of the sorted order. -/
noncomputable def sv (d : List ℝ) (idx : List ℕ) (k : ℕ) : ℝ := d.getD (idx.getD k 0) 0

section
variable {d : List ℝ} {idx : List ℕ}

theorem SortedIndices.length (h : SortedIndices d idx) : idx.length = d.length := by
  simpa using h.1.length_eq

theorem SortedIndices.index (h : SortedIndices d idx) {k : ℕ} (hk : k < d.length) :
    Outcome.index idx k = .ret (idx.getD k 0) := by
  have : k < idx.length := by rw [h.length]; exact hk
  simp [Outcome.index, List.getElem?_eq_getElem this, List.getD]

theorem SortedIndices.lt (h : SortedIndices d idx) {k : ℕ} (hk : k < d.length) : idx.getD k 0 < d.length := by
  have hk' : k < idx.length := by rw [h.length]; exact hk
  have : idx.getD k 0 ∈ idx := by simp [List.getD, List.getElem?_eq_getElem hk']
  simpa using h.1.subset this

theorem SortedIndices.index₂ (h : SortedIndices d idx) {k : ℕ} (hk : k < d.length) :
    Outcome.index d (idx.getD k 0) = .ret (sv d idx k) := index_getD (h.lt hk)

theorem SortedIndices.mono (h : SortedIndices d idx) {k l : ℕ} (hkl : k ≤ l) (hl : l < d.length) :
    sv d idx k ≤ sv d idx l := by
  rcases hkl.eq_or_lt with rfl | hlt
  · exact le_rfl
  have hl' : l < idx.length := by rw [h.length]; exact hl
  have := (List.pairwise_iff_getElem.1 h.2) k l (hlt.trans hl') hl' hlt
  simpa [sv, List.getD, List.getElem?_eq_getElem hl', List.getElem?_eq_getElem (hlt.trans hl')] using this

theorem SortedIndices.surj (h : SortedIndices d idx) {a : ℕ} (ha : a < d.length) : ∃ k < d.length, idx.getD k 0 = a := by
  have : a ∈ idx := h.1.symm.subset (by simpa using ha)
  obtain ⟨k, hk, rfl⟩ := List.mem_iff_getElem.1 this
  exact ⟨k, by rw [← h.length]; exact hk, by simp [List.getD, List.getElem?_eq_getElem hk]⟩

theorem SortedIndices.inj (h : SortedIndices d idx) {k l : ℕ} (hk : k < d.length) (hl : l < d.length)
    (e : idx.getD k 0 = idx.getD l 0) : k = l := by
  have hnd : idx.Nodup := h.1.nodup_iff.2 List.nodup_range
  have hk' : k < idx.length := by rw [h.length]; exact hk
  have hl' : l < idx.length := by rw [h.length]; exact hl
  refine (List.Nodup.getElem_inj_iff hnd (hi := hk') (hj := hl')).1 ?_
  simpa [List.getD, List.getElem?_eq_getElem hk', List.getElem?_eq_getElem hl'] using e

/-- Sums over the data are sums over the sorted positions. -/
theorem SortedIndices.sum (h : SortedIndices d idx) (g : ℕ → ℝ) :
    ∑ a ∈ Finset.range d.length, g a = ∑ k ∈ Finset.range d.length, g (idx.getD k 0) := by
  refine (Finset.sum_bij (fun k _ => idx.getD k 0) (fun k hk => ?_) (fun k hk l hl e => ?_) (fun a ha => ?_) fun _ _ => rfl).symm
  · simpa using h.lt (by simpa using hk)
  · exact h.inj (by simpa using hk) (by simpa using hl) e
  · obtain ⟨k, hk, e⟩ := h.surj (by simpa using ha)
    exact ⟨k, by simpa using hk, e⟩

/-- The search for the end of a group. -/
theorem tieEnd_spec (h : SortedIndices d idx) {i : ℕ} (hi : i < d.length) : ∀ fuel j, i ≤ j → j < d.length →
    d.length ≤ fuel + j → |sv d idx j - sv d idx i| < eps → ∃ q, tieEnd d idx i fuel j = .ret q ∧ j ≤ q ∧ q < d.length ∧
      sv d idx q < sv d idx i + eps ∧ (q + 1 < d.length → sv d idx i + eps ≤ sv d idx (q + 1)) := by
  intro fuel
  induction fuel with
  | zero => intro j _ h1 h2; omega
  | succ fuel ih =>
    intro j hij hj hf hclose
    rw [tieEnd, tieStep]
    by_cases hl : j < d.length - 1
    · rw [if_pos hl, h.index (by omega : j + 1 < d.length), Outcome.bind_ret, h.index hi, Outcome.bind_ret,
        h.index₂ (by omega : j + 1 < d.length), Outcome.bind_ret, h.index₂ hi, Outcome.bind_ret]
      by_cases hc : |sv d idx (j + 1) - sv d idx i| < eps
      · rw [if_pos hc, Outcome.bind_ret]
        obtain ⟨q, hq, h1, h2, h3, h4⟩ := ih (j + 1) (by omega) (by omega) (by omega) hc
        exact ⟨q, hq, by omega, h2, h3, h4⟩
      · rw [if_neg hc, Outcome.bind_ret]
        refine ⟨j, rfl, le_rfl, hj, by linarith [(abs_lt.1 hclose).2], fun h5 => ?_⟩
        have hm := h.mono (show i ≤ j + 1 by omega) h5
        rw [abs_of_nonneg (by linarith)] at hc
        linarith
    · rw [if_neg hl, Outcome.bind_ret]
      exact ⟨j, rfl, le_rfl, hj, by linarith [(abs_lt.1 hclose).2], fun h5 => by omega⟩

theorem eps_pos : 0 < eps := by unfold eps; positivity

/-- Writing the rank of a group. -/
theorem group_fill (h : SortedIndices d idx) (r : ℝ) (f : ℕ → ℝ) {i q : ℕ} (hiq : i ≤ q) (hq : q < d.length) :
    ∃ g, forFromTo i (q + 1) (tab d.length f) (rankStep idx r) = .ret (tab d.length g) ∧
      ∀ k < d.length, g (idx.getD k 0) = if i ≤ k ∧ k ≤ q then r else f (idx.getD k 0) := by
  obtain ⟨t, ht, g, rfl, hg⟩ := forFromTo_rule (fun p t => ∃ g, t = tab d.length g ∧
      ∀ k < d.length, g (idx.getD k 0) = if i ≤ k ∧ k < p then r else f (idx.getD k 0)) i (q + 1) (by omega) (tab d.length f)
    (rankStep idx r) ⟨f, rfl, fun k _ => by rw [if_neg (by omega)]⟩ (by
      rintro p t h1 h2 ⟨g, rfl, hg⟩
      refine ⟨tab d.length fun a => if a = idx.getD p 0 then r else g a, ?_, _, rfl, fun k hk => ?_⟩
      · rw [rankStep, h.index (by omega), Outcome.bind_ret, store_tab _ (h.lt (by omega))]
      · by_cases e : k = p
        · subst e; rw [if_pos rfl, if_pos (by omega)]
        · rw [if_neg fun e' => e (h.inj hk (by omega) e'), hg k hk]
          by_cases e2 : i ≤ k ∧ k < p
          · rw [if_pos e2, if_pos (by omega)]
          · rw [if_neg e2, if_neg (by omega)])
  refine ⟨g, ht, fun k hk => ?_⟩
  rw [hg k hk]
  by_cases e2 : i ≤ k ∧ k ≤ q
  · rw [if_pos e2, if_pos (by omega)]
  · rw [if_neg e2, if_neg (by omega)]

/-- One position lies in the group from `p` to `q`: it starts a new value, spans less than the tolerance, and is maximal. -/
def Group (d : List ℝ) (idx : List ℕ) (p q : ℕ) : Prop :=
  p ≤ q ∧ q < d.length ∧ (∀ m < p, sv d idx m < sv d idx p) ∧ sv d idx q < sv d idx p + eps ∧
    (q + 1 < d.length → sv d idx p + eps ≤ sv d idx (q + 1))

theorem rankLoop_spec (h : SortedIndices d idx) : ∀ fuel i f, i ≤ d.length → d.length < fuel + i →
    (∀ m < i, i < d.length → sv d idx m < sv d idx i) → ∃ g, rankLoop d idx fuel i (tab d.length f) = .ret (tab d.length g) ∧
      (∀ k < i, k < d.length → g (idx.getD k 0) = f (idx.getD k 0)) ∧
      (∑ k ∈ Finset.Ico i d.length, g (idx.getD k 0) = ∑ k ∈ Finset.Ico i d.length, ((k : ℝ) + 1)) ∧
      (∀ k, i ≤ k → k < d.length → ∃ p q, Group d idx p q ∧ i ≤ p ∧ p ≤ k ∧ k ≤ q ∧
        g (idx.getD k 0) = ((p : ℝ) + q + 2) / 2) ∧
      (∀ k l, i ≤ k → k ≤ l → l < d.length → g (idx.getD k 0) ≤ g (idx.getD l 0) ∧
        (sv d idx k = sv d idx l → g (idx.getD k 0) = g (idx.getD l 0))) := by
  intro fuel
  induction fuel with
  | zero => intro i f h1 h2; omega
  | succ fuel ih =>
    intro i f hi hf hb
    rw [rankLoop]
    by_cases hlt : i < d.length
    · rw [if_pos hlt]
      obtain ⟨q, hq, hiq, hqn, hclose, hfar⟩ := tieEnd_spec h hlt (d.length + 1) i le_rfl hlt (by omega)
        (by rw [sub_self, abs_zero]; exact eps_pos)
      obtain ⟨f', hf', hf'k⟩ := group_fill h (((i : ℝ) + 1 + q + 1) / 2) f hiq hqn
      have hb' : ∀ m < q + 1, q + 1 < d.length → sv d idx m < sv d idx (q + 1) := by
        intro m hm hq1
        have := h.mono (show m ≤ q by omega) hqn
        have := hfar hq1
        linarith
      obtain ⟨g, hg, h1, h2, h3, h4⟩ := ih (q + 1) f' (by omega) (by omega) hb'
      have hgrp : ∀ k, i ≤ k → k ≤ q → g (idx.getD k 0) = ((i : ℝ) + q + 2) / 2 := by
        intro k hk1 hk2
        rw [h1 k (by omega) (by omega), hf'k k (by omega), if_pos ⟨hk1, hk2⟩]
        ring
      have hG : Group d idx i q := ⟨hiq, hqn, fun m hm => hb m hm hlt, hclose, hfar⟩
      refine ⟨g, ?_, ?_, ?_, ?_, ?_⟩
      · rw [hq, Outcome.bind_ret, hf', Outcome.bind_ret, hg]
      · intro k hk hkn
        rw [h1 k (by omega) hkn, hf'k k hkn, if_neg (by omega)]
      · rw [← Finset.sum_Ico_consecutive _ (show i ≤ q + 1 by omega) (by omega), h2,
          ← Finset.sum_Ico_consecutive (fun k : ℕ => (k : ℝ) + 1) (show i ≤ q + 1 by omega) (show q + 1 ≤ d.length by omega)]
        congr 1
        rw [Finset.sum_congr rfl fun k hk => hgrp k (Finset.mem_Ico.1 hk).1 (by have := (Finset.mem_Ico.1 hk).2; omega)]
        rw [Finset.sum_const, Nat.card_Ico, nsmul_eq_mul]
        clear hgrp hG h4 h3 h2 h1 hg hb' hf'k hf' hfar hclose hqn hq hb hf
        obtain ⟨t, rfl⟩ := Nat.exists_eq_add_of_le hiq
        rw [show i + t + 1 - i = t + 1 by omega, Finset.sum_Ico_eq_sum_range, show i + t + 1 - i = t + 1 by omega]
        clear hiq hlt hi
        push_cast
        induction t with
        | zero => simp; ring
        | succ t ih =>
          rw [Finset.sum_range_succ, ← ih]
          push_cast
          ring
      · intro k hk1 hk2
        by_cases hkq : k ≤ q
        · exact ⟨i, q, hG, le_rfl, hk1, hkq, hgrp k hk1 hkq⟩
        · obtain ⟨p, q', a, b, c, e⟩ := h3 k (by omega) hk2
          exact ⟨p, q', a, by omega, c, e⟩
      · intro k l hk hkl hl
        by_cases hlq : l ≤ q
        · rw [hgrp k hk (by omega), hgrp l (by omega) hlq]
          exact ⟨le_rfl, fun _ => rfl⟩
        · by_cases hkq : k ≤ q
          · obtain ⟨p, q', a, b, c, e1, e2⟩ := h3 l (by omega) hl
            rw [hgrp k hk hkq, e2]
            constructor
            · have c1 : (q : ℝ) + 1 ≤ p := by exact_mod_cast b
              have c2 : (i : ℝ) ≤ q := by exact_mod_cast hiq
              have c3 : (p : ℝ) ≤ q' := by exact_mod_cast a.1
              linarith
            · intro e
              have := hb' k (by omega) (by omega)
              have := h.mono (show q + 1 ≤ l by omega) hl
              linarith
          · exact h4 k l (by omega) hkl hl
    · rw [if_neg hlt]
      have : i = d.length := by omega
      subst this
      exact ⟨f, rfl, fun _ _ _ => rfl, by simp, fun k h1 h2 => by omega, fun k l h1 h2 h3 => by omega⟩

theorem computeRanks_run (h : SortedIndices d idx) : ∃ g, computeRanks d idx = .ret (tab d.length g) ∧
      (∑ k ∈ Finset.range d.length, g (idx.getD k 0) = ∑ k ∈ Finset.range d.length, ((k : ℝ) + 1)) ∧
      (∀ k < d.length, ∃ p q, Group d idx p q ∧ p ≤ k ∧ k ≤ q ∧ g (idx.getD k 0) = ((p : ℝ) + q + 2) / 2) ∧
      (∀ k l, k ≤ l → l < d.length → g (idx.getD k 0) ≤ g (idx.getD l 0) ∧
        (sv d idx k = sv d idx l → g (idx.getD k 0) = g (idx.getD l 0))) := by
  by_cases h0 : d.length = 0
  · refine ⟨fun _ => 0, ?_, ?_, ?_, ?_⟩
    · rw [computeRanks, if_pos h0, h0]; rfl
    · rw [h0]; simp
    · intro k hk; omega
    · intro k l _ hl; omega
  · obtain ⟨g, h1, _, h3, h4, h5⟩ := rankLoop_spec h (d.length + 1) 0 (fun _ => 0) (by omega) (by omega) (by simp)
    refine ⟨g, ?_, ?_, ?_, fun k l => h5 k l (by omega)⟩
    · rw [computeRanks, if_neg h0, replicate_eq_tab, h1]
    · simpa only [Finset.range_eq_Ico] using h3
    · intro k hk
      obtain ⟨p, q, a, _, b⟩ := h4 k (by omega) hk
      exact ⟨p, q, a, b⟩

end

/-- The sorted values do not depend on the order of ties. -/
theorem sv_unique {d : List ℝ} {idx idx' : List ℕ} (h : SortedIndices d idx) (h' : SortedIndices d idx') {k : ℕ}
    (hk : k < d.length) : sv d idx k = sv d idx' k := by
  have hp : (idx.map fun a => d.getD a 0).Perm (idx'.map fun a => d.getD a 0) := (h.1.trans h'.1.symm).map _
  have hs : (idx.map fun a => d.getD a 0).Pairwise (· ≤ ·) := List.pairwise_map.2 h.2
  have hs' : (idx'.map fun a => d.getD a 0).Pairwise (· ≤ ·) := List.pairwise_map.2 h'.2
  have e := hp.eq_of_pairwise (fun a b _ _ hab hba => le_antisymm hab hba) hs hs'
  have e1 : ∀ (ix : List ℕ), ix.length = d.length → (ix.map fun a => d.getD a 0).getD k 0 = sv d ix k := by
    intro ix hx
    have hk' : k < ix.length := by omega
    simp [sv, List.getD, List.getElem?_eq_getElem hk']
  rw [← e1 idx h.length, ← e1 idx' h'.length, e]

theorem tieEnd_congr {d : List ℝ} {idx idx' : List ℕ} (h : SortedIndices d idx) (h' : SortedIndices d idx') {i : ℕ}
    (hi : i < d.length) : ∀ fuel j, tieEnd d idx i fuel j = tieEnd d idx' i fuel j := by
  intro fuel
  induction fuel with
  | zero => intro j; rfl
  | succ fuel ih =>
    intro j
    rw [tieEnd, tieEnd]
    have : tieStep d idx i j = tieStep d idx' i j := by
      rw [tieStep, tieStep]
      by_cases hl : j < d.length - 1
      · have hj : j + 1 < d.length := by omega
        rw [if_pos hl, if_pos hl, h.index hj, h'.index hj, Outcome.bind_ret, Outcome.bind_ret, h.index hi, h'.index hi,
          Outcome.bind_ret, Outcome.bind_ret, h.index₂ hj, h'.index₂ hj, Outcome.bind_ret, Outcome.bind_ret, h.index₂ hi,
          h'.index₂ hi, Outcome.bind_ret, Outcome.bind_ret, sv_unique h h' hj, sv_unique h h' hi]
      · rw [if_neg hl, if_neg hl]
    rw [this]
    cases tieStep d idx' i j with
    | ret o =>
      rw [Outcome.bind_ret, Outcome.bind_ret]
      cases o with
      | none => rfl
      | some j' => exact ih j'
    | exn e => rfl
    | ub => rfl

theorem rankLoop_congr {d : List ℝ} {idx idx' : List ℕ} (h : SortedIndices d idx) (h' : SortedIndices d idx') :
    ∀ fuel i f, (∀ m < i, i < d.length → sv d idx m < sv d idx i) →
      rankLoop d idx fuel i (tab d.length f) = rankLoop d idx' fuel i (tab d.length f) := by
  intro fuel
  induction fuel with
  | zero => intro i f _; rfl
  | succ fuel ih =>
    intro i f hb
    rw [rankLoop, rankLoop]
    by_cases hlt : i < d.length
    · rw [if_pos hlt, if_pos hlt, ← tieEnd_congr h h' hlt]
      obtain ⟨q, hq, hiq, hqn, hclose, hfar⟩ := tieEnd_spec h hlt (d.length + 1) i le_rfl hlt (by omega)
        (by rw [sub_self, abs_zero]; exact eps_pos)
      obtain ⟨g, hg, hgk⟩ := group_fill h (((i : ℝ) + 1 + q + 1) / 2) f hiq hqn
      obtain ⟨g', hg', hgk'⟩ := group_fill h' (((i : ℝ) + 1 + q + 1) / 2) f hiq hqn
      have hin : ∀ k < d.length, (i ≤ k ∧ k ≤ q) ↔ (sv d idx i ≤ sv d idx k ∧ sv d idx k < sv d idx i + eps) := by
        intro k hk
        constructor
        · rintro ⟨h1, h2⟩
          exact ⟨h.mono h1 hk, (h.mono h2 hqn).trans_lt hclose⟩
        · rintro ⟨h1, h2⟩
          constructor
          · by_contra hki
            have := hb k (by omega) hlt
            linarith
          · by_contra hkq
            have := hfar (by omega)
            have := h.mono (show q + 1 ≤ k by omega) hk
            linarith
      have hgg : tab d.length g = tab d.length g' := by
        refine tab_congr fun a ha => ?_
        obtain ⟨k, hk, rfl⟩ := h.surj ha
        obtain ⟨k', hk', e⟩ := h'.surj ha
        rw [hgk k hk, ← e, hgk' k' hk', e]
        have e2 : sv d idx k = sv d idx k' := by rw [sv_unique h h' hk']; unfold sv; rw [e]
        have : (i ≤ k ∧ k ≤ q) ↔ (i ≤ k' ∧ k' ≤ q) := by rw [hin k hk, hin k' hk', e2]
        simp only [this]
      rw [hq, Outcome.bind_ret, Outcome.bind_ret, hg, hg', hgg, Outcome.bind_ret, Outcome.bind_ret]
      refine ih (q + 1) g' fun m hm hq1 => ?_
      have := h.mono (show m ≤ q by omega) hqn
      have := hfar hq1
      linarith
    · rw [if_neg hlt, if_neg hlt]

end Verif.Stats
