import Verif.GraphAlg.BfsLemmas
import Verif.GraphAlg.DfsSpec
import Mathlib.Algebra.Order.BigOperators.Group.Finset

/-! # Invariant of depth-first search: helper lemmas -/

set_option autoImplicit false

namespace Verif.Graph

variable {V E : Type}

theorem dfsPush_fold (u : Nat) (l : List (Edge E)) (s : TrState) (hu : s.visited u = true) :
    l.foldl (dfsPush u) s =
      { visited := s.visited
        parent := fun v => if s.parent v = none ∧ s.visited v = false ∧ v ∈ l.map Edge.to then some u
          else s.parent v
        dist := fun v => if s.parent v = none ∧ s.visited v = false ∧ v ∈ l.map Edge.to then
          (s.dist u).map (· + 1) else s.dist v
        work := ((l.filter (fun e => !s.visited e.to)).map Edge.to).reverse ++ s.work
        order := s.order
        nodesVisited := s.nodesVisited } := by
  induction l generalizing s with
  | nil => cases s; simp
  | cons e l ih =>
    rw [List.foldl_cons]
    by_cases hv : s.visited e.to = true
    · have h1 : dfsPush u s e = s := by simp [dfsPush, hv]
      rw [h1, ih s hu]
      congr 1
      · funext v
        by_cases hve : v = e.to
        · subst hve; simp [hv]
        · simp [hve]
      · funext v
        by_cases hve : v = e.to
        · subst hve; simp [hv]
        · simp [hve]
      · simp [List.filter_cons, hv]
    · have hv : s.visited e.to = false := by simpa using hv
      have hne : u ≠ e.to := by rintro rfl; rw [hu] at hv; cases hv
      by_cases hp : s.parent e.to = none
      · rw [show dfsPush u s e =
          { s with
            parent := Function.update s.parent e.to (some u)
            dist := Function.update s.dist e.to ((s.dist u).map (· + 1))
            work := e.to :: s.work } by simp [dfsPush, hv, hp]]
        refine (ih _ (by exact hu)).trans ?_
        simp only [Function.update_of_ne hne]
        congr 1
        · funext v
          by_cases hve : v = e.to
          · subst hve; simp [hv, hp]
          · simp [hve]
        · funext v
          by_cases hve : v = e.to
          · subst hve; simp [hv, hp]
          · simp [hve]
        · simp [List.filter_cons, hv]
      · rw [show dfsPush u s e = { s with work := e.to :: s.work } by simp [dfsPush, hv, hp]]
        refine (ih _ (by exact hu)).trans ?_
        congr 1
        · funext v
          by_cases hve : v = e.to
          · subst hve; simp [hp]
          · simp [hve]
        · funext v
          by_cases hve : v = e.to
          · subst hve; simp [hp]
          · simp [hve]
        · simp [List.filter_cons, hv]

/-- The invariant of the main loop of `DFS`. -/
structure DfsInv (g : Graph V E) (start : Nat) (s : TrState) : Prop where
  cover : ∀ v, s.visited v = true ↔ v ∈ s.order
  nodup : s.order.Nodup
  lt : ∀ v, v ∈ s.order ∨ v ∈ s.work → v < g.numVertices
  seen : ∀ v, v ∈ s.order ∨ v ∈ s.work → v = start ∨ s.parent v ≠ none
  parSeen : ∀ v, s.parent v ≠ none → v ∈ s.order ∨ v ∈ s.work
  closed : ∀ u ∈ s.order, ∀ v, Adj g u v → v ∈ s.order ∨ v ∈ s.work
  begun : (s.order = [] ∧ s.work = [start] ∧ ∀ v, s.parent v = none) ∨ s.order.head? = some start
  walk : ∀ v k, s.dist v = some k → Walk g start v k
  distSome : ∀ v, (s.dist v).isSome ↔ v = start ∨ s.parent v ≠ none
  startDist : s.dist start = some 0
  par : ∀ v p, s.parent v = some p → Adj g p v ∧ p ∈ s.order ∧
    ∃ a, s.dist p = some a ∧ s.dist v = some (a + 1)
  parStart : s.parent start = none
  count : s.nodesVisited = s.order.length

theorem dfsInv_init (g : Graph V E) {start : Nat} (h : start < g.numVertices) :
    DfsInv g start (dfsInit start) where
  cover v := by simp [dfsInit]
  nodup := by simp [dfsInit]
  lt v hv := by simp [dfsInit] at hv; omega
  seen v hv := by simp [dfsInit] at hv; exact Or.inl hv
  parSeen v hv := by simp [dfsInit] at hv
  closed u hu := by simp [dfsInit] at hu
  begun := Or.inl ⟨rfl, rfl, fun _ => rfl⟩
  walk v k hk := by
    by_cases hv : v = start
    · subst hv; simp [dfsInit] at hk; subst hk; exact .nil h
    · simp [dfsInit, hv] at hk
  distSome v := by by_cases hv : v = start <;> simp [dfsInit, hv]
  startDist := by simp [dfsInit]
  par v p h := by simp [dfsInit] at h
  parStart := rfl
  count := rfl

theorem dfsInv_step {g : Graph V E} (hg : g.WF) {start : Nat} {s s' : TrState}
    (hI : DfsInv g start s) (hs : dfsStep g s = some s') : DfsInv g start s' := by
  unfold dfsStep at hs
  split at hs
  · cases hs
  next u st hw =>
  split at hs
  · next hu =>
    cases hs
    have huo := (hI.cover u).1 hu
    have hmv : ∀ v, v ∈ s.order ∨ v ∈ s.work → v ∈ s.order ∨ v ∈ st := by
      rintro v (h | h)
      · exact Or.inl h
      · rw [hw] at h
        rcases List.mem_cons.1 h with rfl | h
        · exact Or.inl huo
        · exact Or.inr h
    have hst : ∀ v ∈ st, v ∈ s.work := fun v hv => by rw [hw]; exact List.mem_cons_of_mem _ hv
    exact {
      cover := hI.cover
      nodup := hI.nodup
      lt := fun v hv => hI.lt v (hv.imp id (hst v))
      seen := fun v hv => hI.seen v (hv.imp id (hst v))
      parSeen := fun v hv => hmv v (hI.parSeen v hv)
      closed := fun x hx v hv => hmv v (hI.closed x hx v hv)
      begun := by
        rcases hI.begun with h | h
        · rw [h.1] at huo; simp at huo
        · exact Or.inr h
      walk := hI.walk
      distSome := hI.distSome
      startDist := hI.startDist
      par := hI.par
      parStart := hI.parStart
      count := hI.count }
  · next hu =>
    have hu : s.visited u = false := by simpa using hu
    cases hs
    rw [dfsPush_fold u _ _ (by simp)]
    simp only [List.map_reverse, List.mem_reverse, List.filter_reverse, List.reverse_reverse]
    have hadj : ∀ v, v ∈ (g.nbrs u).map Edge.to ↔ Adj g u v := by
      intro v; rw [hg.adj_iff, List.mem_map]
    have hpush : ∀ v, v ∈ ((g.nbrs u).filter (fun e => !(Function.update s.visited u true) e.to)).map Edge.to ↔
        Adj g u v ∧ (Function.update s.visited u true) v = false := by
      intro v
      rw [hg.adj_iff]
      simp only [List.mem_map, List.mem_filter, Bool.not_eq_true']
      constructor
      · rintro ⟨e, ⟨h1, h2⟩, rfl⟩; exact ⟨⟨e, h1, rfl⟩, h2⟩
      · rintro ⟨⟨e, h1, rfl⟩, h2⟩; exact ⟨e, ⟨h1, h2⟩, rfl⟩
    have hvisu : ∀ v, (Function.update s.visited u true) v = false ↔ v ≠ u ∧ s.visited v = false := by
      intro v
      by_cases hv : v = u
      · subst hv; simp
      · simp [hv]
    have huw : u ∈ s.work := by rw [hw]; exact List.mem_cons_self
    have hst : ∀ v ∈ st, v ∈ s.work := fun v hv => by rw [hw]; exact List.mem_cons_of_mem _ hv
    have huo : u ∉ s.order := fun h => by rw [(hI.cover u).2 h] at hu; cases hu
    obtain ⟨du, hdu⟩ : ∃ du, s.dist u = some du :=
      Option.isSome_iff_exists.1 ((hI.distSome u).2 (hI.seen u (Or.inr huw)))
    -- the start vertex never gets a parent
    have hstart : u = start ∨ s.visited start = true := by
      rcases hI.begun with h | h
      · rw [hw] at h; simp at h; exact Or.inl h.2.1.1
      · refine Or.inr ((hI.cover start).2 (List.mem_of_mem_head? h))
    have hnostart : (Function.update s.visited u true) start = true := by
      rcases hstart with h | h
      · rw [h]; simp
      · by_cases hv : start = u
        · rw [hv]; simp
        · simp [hv, h]
    have hC : ∀ v, (s.parent v = none ∧ (Function.update s.visited u true) v = false ∧ v ∈ (g.nbrs u).map Edge.to) →
        v ≠ u ∧ v ∉ s.order ∧ v ≠ start := by
      rintro v ⟨h1, h2, h3⟩
      refine ⟨((hvisu v).1 h2).1, fun h => ?_, fun h => ?_⟩
      · have := ((hvisu v).1 h2).2; rw [(hI.cover v).2 h] at this; cases this
      · rw [h, hnostart] at h2; cases h2
    constructor
    all_goals dsimp only
    · intro v
      by_cases hv : v = u
      · subst hv; simp
      · simp [hv, hI.cover v]
    · rw [List.nodup_append]
      refine ⟨hI.nodup, by simp, ?_⟩
      rintro a ha b hb rfl
      simp at hb; subst hb; exact huo ha
    · rintro v (hv | hv)
      · rcases List.mem_append.1 hv with h | h
        · exact hI.lt v (Or.inl h)
        · simp at h; subst h; exact hI.lt v (Or.inr huw)
      · rcases List.mem_append.1 hv with h | h
        · exact (hg.adj_lt ((hpush v).1 h).1).2
        · exact hI.lt v (Or.inr (hst v h))
    · intro v hv
      by_cases hc : s.parent v = none ∧ (Function.update s.visited u true) v = false ∧ v ∈ (g.nbrs u).map Edge.to
      · rw [if_pos hc]; exact Or.inr (by simp)
      · rw [if_neg hc]
        rcases hv with hv | hv
        · rcases List.mem_append.1 hv with h | h
          · exact hI.seen v (Or.inl h)
          · simp at h; subst h; exact hI.seen v (Or.inr huw)
        rcases List.mem_append.1 hv with h | h
        · right; intro hp; exact hc ⟨hp, ((hpush v).1 h).2, (hadj v).2 ((hpush v).1 h).1⟩
        · exact hI.seen v (Or.inr (hst v h))
    · intro v hv
      by_cases hc : s.parent v = none ∧ (Function.update s.visited u true) v = false ∧ v ∈ (g.nbrs u).map Edge.to
      · exact Or.inr (List.mem_append_left _ ((hpush v).2 ⟨(hadj v).1 hc.2.2, hc.2.1⟩))
      · rw [if_neg hc] at hv
        rcases hI.parSeen v hv with h | h
        · exact Or.inl (List.mem_append_left _ h)
        · rw [hw] at h
          rcases List.mem_cons.1 h with rfl | h
          · exact Or.inl (by simp)
          · exact Or.inr (List.mem_append_right _ h)
    · intro x hx v hxv
      rcases List.mem_append.1 hx with hx | hx
      · rcases hI.closed x hx v hxv with h | h
        · exact Or.inl (List.mem_append_left _ h)
        · rw [hw] at h
          rcases List.mem_cons.1 h with rfl | h
          · exact Or.inl (by simp)
          · exact Or.inr (List.mem_append_right _ h)
      · have hx : x = u := by simpa using hx
        subst hx
        cases hv : (Function.update s.visited x true) v with
        | false => exact Or.inr (List.mem_append_left _ ((hpush v).2 ⟨hxv, hv⟩))
        | true =>
          left
          by_cases hvu : v = x
          · subst hvu; simp
          · simp [hvu] at hv
            exact List.mem_append_left _ ((hI.cover v).1 hv)
    · right
      rcases hI.begun with h | h
      · rw [h.1]
        have := h.2.1
        rw [hw] at this; simp at this
        simp [this.1]
      · rw [List.head?_append, h]; rfl
    · intro v k hk
      split at hk
      · next hc =>
        rw [hdu] at hk; cases hk
        exact (hI.walk u du hdu).snoc ((hadj v).1 hc.2.2)
      · exact hI.walk v k hk
    · intro v
      by_cases hc : s.parent v = none ∧ (Function.update s.visited u true) v = false ∧ v ∈ (g.nbrs u).map Edge.to
      · rw [if_pos hc, if_pos hc, hdu]; simp
      · simp only [hc, if_false]; exact hI.distSome v
    · rw [if_neg (fun hc => (hC start hc).2.2 rfl)]; exact hI.startDist
    · intro v p hp
      have hkeep : ∀ q ∈ s.order, ¬ (s.parent q = none ∧ (Function.update s.visited u true) q = false ∧ q ∈ (g.nbrs u).map Edge.to) :=
        fun q hq hc => (hC q hc).2.1 hq
      split at hp
      · next hc =>
        cases hp
        refine ⟨(hadj v).1 hc.2.2, by simp, du, ?_, ?_⟩
        · rw [if_neg (fun h => (hC u h).1 rfl), hdu]
        · rw [if_pos hc, hdu]; rfl
      · next hc =>
        obtain ⟨h1, h2, a, h3, h4⟩ := hI.par v p hp
        refine ⟨h1, List.mem_append_left _ h2, a, ?_, ?_⟩
        · rw [if_neg (hkeep p h2), h3]
        · rw [if_neg hc, h4]
    · rw [if_neg (fun hc => (hC start hc).2.2 rfl)]; exact hI.parStart
    · simp [hI.count]

/-- Termination measure of `DFS`: the stack size plus the adjacency entries of unvisited vertices. -/
def dfsMeasure (g : Graph V E) (s : TrState) : Nat :=
  s.work.length + ∑ v ∈ Finset.range g.numVertices, if s.visited v then 0 else (g.nbrs v).length

theorem dfsMeasure_step {g : Graph V E} {start : Nat} {s s' : TrState}
    (hI : DfsInv g start s) (hs : dfsStep g s = some s') : dfsMeasure g s' < dfsMeasure g s := by
  unfold dfsStep at hs
  split at hs
  · cases hs
  next u st hw =>
  split at hs
  · cases hs
    simp [dfsMeasure, hw]
  · next hu =>
    have hu : s.visited u = false := by simpa using hu
    cases hs
    rw [dfsPush_fold u _ _ (by simp)]
    unfold dfsMeasure
    simp only [hw, List.length_append, List.length_reverse, List.length_map, List.length_cons]
    have hlt : u ∈ Finset.range g.numVertices :=
      Finset.mem_range.2 (hI.lt u (Or.inr (by rw [hw]; exact List.mem_cons_self)))
    rw [← Finset.add_sum_erase _ _ hlt, ← Finset.add_sum_erase _ _ hlt]
    have h1 : ∑ v ∈ (Finset.range g.numVertices).erase u,
        (if (Function.update s.visited u true) v = true then 0 else (g.nbrs v).length) =
        ∑ v ∈ (Finset.range g.numVertices).erase u, if s.visited v then 0 else (g.nbrs v).length := by
      apply Finset.sum_congr rfl
      intro v hv
      rw [Function.update_of_ne (Finset.ne_of_mem_erase hv)]
    rw [h1]
    have h2 := List.length_filter_le (fun e : Edge E => !(Function.update s.visited u true) e.to) (g.nbrs u).reverse
    simp only [List.length_reverse] at h2
    simp only [Function.update_self, if_true, hu, Bool.false_eq_true, if_false]
    omega

theorem dfs_terminates {g : Graph V E} (hg : g.WF) {start : Nat} (h : start < g.numVertices) :
    ∃ s, whileFuel (dfsStep g) (g.entries + 2) (dfsInit start) = some s ∧
      DfsInv g start s ∧ s.work = [] := by
  obtain ⟨s, h1, h2, h3⟩ := whileFuel_rule (dfsStep g) (DfsInv g start) (dfsMeasure g)
    (fun s s' hI hs => ⟨dfsInv_step hg hI hs, dfsMeasure_step hI hs⟩)
    (g.entries + 2) (dfsInit start) (dfsInv_init g h)
    (by simp [dfsMeasure, dfsInit, Graph.entries]; omega)
  refine ⟨s, h1, h2, ?_⟩
  unfold dfsStep at h3
  split at h3
  · next hw => exact hw
  · split at h3 <;> cases h3

theorem DfsInv.complete {g : Graph V E} {start : Nat} {s : TrState} (hI : DfsInv g start s)
    (hw : s.work = []) {v k : Nat} (h : Walk g start v k) : v ∈ s.order := by
  induction h with
  | nil _ =>
    rcases hI.begun with h | h
    · rw [hw] at h; simp at h
    · exact List.mem_of_mem_head? h
  | snoc _ ha ih =>
    rcases hI.closed _ ih _ ha with h | h
    · exact h
    · rw [hw] at h; simp at h

theorem DfsInv.sound {g : Graph V E} {start : Nat} {s : TrState} (hI : DfsInv g start s) {v : Nat} (hv : v ∈ s.order) :
    Reach g start v := by
  obtain ⟨k, hk⟩ := Option.isSome_iff_exists.1 ((hI.distSome v).2 (hI.seen v (Or.inl hv)))
  exact ⟨k, hI.walk v k hk⟩

/-! ### The visit order is the recursive preorder -/

theorem Preorder.mono {g : Graph V E} {todo before after : List Nat} (h : Preorder g todo before after) :
    ∀ v ∈ before, v ∈ after := by
  induction h with
  | done => exact fun v hv => hv
  | skip _ _ ih => exact ih
  | visit _ _ _ _ ih1 ih2 => exact fun v hv => ih2 v (ih1 v (List.mem_append_left _ hv))

theorem Preorder.split {g : Graph V E} {a b before after : List Nat}
    (h : Preorder g (a ++ b) before after) :
    ∃ mid, Preorder g a before mid ∧ Preorder g b mid after := by
  generalize hab : a ++ b = l at h
  induction h generalizing a with
  | done =>
    simp at hab
    obtain ⟨rfl, rfl⟩ := hab
    exact ⟨_, .done, .done⟩
  | @skip v rest before after hv h ih =>
    cases a with
    | nil => simp at hab; subst hab; exact ⟨_, .done, .skip hv h⟩
    | cons x a =>
      simp at hab
      obtain ⟨rfl, rfl⟩ := hab
      obtain ⟨mid, h1, h2⟩ := ih rfl
      exact ⟨mid, .skip hv h1, h2⟩
  | @visit v rest nb before mid after hv hnb h1 h2 ih1 ih2 =>
    cases a with
    | nil => simp at hab; subst hab; exact ⟨_, .done, .visit hv hnb h1 h2⟩
    | cons x a =>
      simp at hab
      obtain ⟨rfl, rfl⟩ := hab
      obtain ⟨mid', h3, h4⟩ := ih2 rfl
      exact ⟨mid', .visit hv hnb h1 h3, h4⟩

theorem Preorder.unfilter {g : Graph V E} {p : Nat → Bool} {l before after : List Nat}
    (hp : ∀ v ∈ l, p v = false → v ∈ before) (h : Preorder g (l.filter p) before after) :
    Preorder g l before after := by
  induction l generalizing before with
  | nil => exact h
  | cons v l ih =>
    by_cases hv : p v = true
    · rw [List.filter_cons_of_pos hv] at h
      have hp' : ∀ w ∈ l, p w = false → w ∈ before := fun w hw => hp w (List.mem_cons_of_mem _ hw)
      cases h with
      | skip h1 h2 => exact .skip h1 (ih hp' h2)
      | visit h1 h2 h3 h4 =>
        exact .visit h1 h2 h3 (ih (fun w hw hpw => h3.mono w (List.mem_append_left _ (hp' w hw hpw))) h4)
    · have hv : p v = false := by simpa using hv
      rw [List.filter_cons_of_neg (by simp [hv])] at h
      exact .skip (hp v List.mem_cons_self hv) (ih (fun w hw => hp w (List.mem_cons_of_mem _ hw)) h)

theorem dfs_loop_preorder {g : Graph V E} (hg : g.WF) {start : Nat} (fuel : Nat) (s t : TrState)
    (hI : DfsInv g start s) (h : whileFuel (dfsStep g) fuel s = some t) :
    Preorder g s.work s.order t.order := by
  induction fuel generalizing s with
  | zero => simp [whileFuel] at h
  | succ fuel ih =>
    simp only [whileFuel] at h
    cases hs : dfsStep g s with
    | none =>
      rw [hs] at h
      cases h
      unfold dfsStep at hs
      split at hs
      · next hw => rw [hw]; exact .done
      · split at hs <;> cases hs
    | some s' =>
      rw [hs] at h
      have hI' := dfsInv_step hg hI hs
      have ih := ih s' hI' h
      unfold dfsStep at hs
      split at hs
      · cases hs
      next u st hw =>
      rw [hw]
      split at hs
      · next hu =>
        cases hs
        exact .skip ((hI.cover u).1 hu) ih
      · next hu =>
        have hu : s.visited u = false := by simpa using hu
        have huo : u ∉ s.order := fun h => by rw [(hI.cover u).2 h] at hu; cases hu
        have hlt : u < g.numVertices := hI.lt u (Or.inr (by rw [hw]; exact List.mem_cons_self))
        cases hs
        rw [dfsPush_fold u _ _ (by simp)] at ih
        simp only [List.map_reverse, List.filter_reverse, List.reverse_reverse] at ih
        obtain ⟨mid, h1, h2⟩ := ih.split
        refine .visit huo (hg.neighbors_eq hlt) (Preorder.unfilter
          (p := fun v => !(Function.update s.visited u true) v) ?_ ?_) h2
        · intro v _ hv
          by_cases hvu : v = u
          · subst hvu; simp
          · simp [hvu] at hv
            exact List.mem_append_left _ ((hI.cover v).1 hv)
        · rw [List.filter_map]; exact h1

end Verif.Graph
