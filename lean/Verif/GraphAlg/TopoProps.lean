import Verif.GraphAlg.TopoModel
import Verif.GraphAlg.TraverseProps
import Mathlib.Data.Finset.Card

/-!
# Property C10: topological sort
-/

set_option autoImplicit false

namespace Verif.Graph

variable {V E : Type}

/-- Specification: a directed cycle is a closed walk of at least one edge. -/
def HasCycle (g : Graph V E) : Prop := ∃ v k, Walk g v v (k + 1)

/-- Specification: `l` lists every vertex exactly once and every edge leads from an earlier to a later
position. -/
def IsTopoOrder (g : Graph V E) (l : List Nat) : Prop :=
  l.Nodup ∧ (∀ v, v ∈ l ↔ v < g.numVertices) ∧
  ∀ (i j u v : Nat), l[i]? = some u → l[j]? = some v → Adj g u v → i < j

theorem incr_fold (es : List (Edge E)) (hn : (es.map Edge.to).Nodup) (d : Nat → Int) (v : Nat) :
    es.foldl (fun d e => Function.update d e.to (d e.to + 1)) d v =
      d v + if v ∈ es.map Edge.to then 1 else 0 := by
  induction es generalizing d with
  | nil => simp
  | cons e es ih =>
    simp only [List.map_cons, List.nodup_cons] at hn
    rw [List.foldl_cons, ih hn.2]
    by_cases hv : v = e.to
    · subst hv; simp [hn.1]
    · simp [Function.update_of_ne hv, hv]

/-- The predecessors of `v` outside `order`. -/
def pend (g : Graph V E) (order : List Nat) (v : Nat) : Finset Nat :=
  (Finset.range g.numVertices).filter (fun u => v ∈ (g.nbrs u).map Edge.to ∧ u ∉ order)

theorem topoInDegree_eq {g : Graph V E} (hg : g.WF) (v : Nat) : topoInDegree g v = (pend g [] v).card := by
  have gen : ∀ n, ((List.range n).foldl
      (fun d u => (g.nbrs u).foldl (fun d e => Function.update d e.to (d e.to + 1)) d) (fun _ => 0) : Nat → Int) v
      = (((Finset.range n).filter (fun u => v ∈ (g.nbrs u).map Edge.to)).card : Int) := by
    intro n
    induction n with
    | zero => simp
    | succ n ih =>
      rw [List.range_succ, List.foldl_append, List.foldl_cons, List.foldl_nil,
        incr_fold _ (hg.nbrs_nodup n), ih, Finset.range_add_one, Finset.filter_insert]
      split
      · rw [Finset.card_insert_of_notMem (by simp)]; simp
      · simp
  unfold topoInDegree pend
  rw [gen]
  simp

theorem topoVisit_fold (es : List (Edge E)) (hn : (es.map Edge.to).Nodup) (s : TopoState) :
    es.foldl topoVisit s =
      { inDegree := fun v => s.inDegree v - if v ∈ es.map Edge.to then 1 else 0
        queue := s.queue ++ (es.map Edge.to).filter (fun v => decide (s.inDegree v - 1 = 0))
        order := s.order } := by
  induction es generalizing s with
  | nil => simp
  | cons e es ih =>
    simp only [List.map_cons, List.nodup_cons] at hn
    rw [List.foldl_cons, ih hn.2]
    have hcong : (es.map Edge.to).filter (fun v => decide ((topoVisit s e).inDegree v - 1 = 0)) =
        (es.map Edge.to).filter (fun v => decide (s.inDegree v - 1 = 0)) := by
      apply List.filter_congr
      intro v hv
      have : v ≠ e.to := by rintro rfl; exact hn.1 hv
      unfold topoVisit
      dsimp only
      split <;> simp [Function.update_of_ne this]
    rw [hcong]
    have hord : (topoVisit s e).order = s.order := by unfold topoVisit; dsimp only; split <;> rfl
    have hdeg : (topoVisit s e).inDegree = Function.update s.inDegree e.to (s.inDegree e.to - 1) := by
      unfold topoVisit; dsimp only; split <;> rfl
    have hq : (topoVisit s e).queue = s.queue ++ if s.inDegree e.to - 1 = 0 then [e.to] else [] := by
      unfold topoVisit; dsimp only
      rw [Function.update_self]
      split <;> simp
    rw [hord, hdeg, hq]
    congr 1
    · funext v
      by_cases hv : v = e.to
      · subst hv; simp [hn.1]
      · simp [Function.update_of_ne hv, hv]
    · rw [List.map_cons, List.filter_cons]
      split <;> simp_all

/-- Invariant of the main loop. -/
structure TopoInv (g : Graph V E) (s : TopoState) : Prop where
  deg : ∀ v, s.inDegree v = (pend g s.order v).card
  nodup : (s.order ++ s.queue).Nodup
  mem : ∀ v, v ∈ s.order ++ s.queue ↔ v < g.numVertices ∧ pend g s.order v = ∅
  pre : ∀ (j v : Nat), s.order[j]? = some v → ∀ u, Adj g u v → ∃ i < j, s.order[i]? = some u

theorem pend_empty {g : Graph V E} (hg : g.WF) (order : List Nat) (v : Nat) :
    pend g order v = ∅ ↔ ∀ u, Adj g u v → u ∈ order := by
  unfold pend
  rw [Finset.filter_eq_empty_iff]
  constructor
  · intro h u hu
    have := h (Finset.mem_range.2 (hg.adj_lt hu).1)
    by_contra hc
    exact this ⟨by obtain ⟨e, he, rfl⟩ := hg.adj_iff.1 hu; exact List.mem_map.2 ⟨e, he, rfl⟩, hc⟩
  · rintro h u _ ⟨h1, h2⟩
    obtain ⟨e, he, rfl⟩ := List.mem_map.1 h1
    exact h2 (h u (hg.adj_iff.2 ⟨e, he, rfl⟩))

theorem pend_snoc (g : Graph V E) (order : List Nat) (u v : Nat) :
    pend g (order ++ [u]) v = (pend g order v).erase u := by
  ext x
  simp only [pend, Finset.mem_filter, Finset.mem_range, Finset.mem_erase, List.mem_append,
    List.mem_singleton, not_or]
  tauto

theorem topoInv_init {g : Graph V E} (hg : g.WF) : TopoInv g (topoInit g) := by
  constructor
  · exact fun v => topoInDegree_eq hg v
  · simp only [topoInit, List.nil_append]
    exact List.nodup_range.filter _
  · intro v
    simp [topoInit, topoInDegree_eq hg]
  · simp [topoInit]

theorem topoInv_step {g : Graph V E} (hg : g.WF) {s s' : TopoState} (hI : TopoInv g s)
    (hs : topoStep g s = some s') : TopoInv g s' ∧ s'.order.length = s.order.length + 1 := by
  unfold topoStep at hs
  split at hs
  · cases hs
  next u q hq =>
  cases hs
  rw [topoVisit_fold _ (hg.nbrs_nodup u)]
  have hnd := hI.nodup
  have hmem := hI.mem
  rw [hq] at hnd hmem
  have huo : u ∉ s.order := by
    intro h
    exact (List.nodup_append.1 hnd).2.2 u h u (by simp) rfl
  have hu := (hmem u).1 (by simp)
  have hpred := (pend_empty hg _ _).1 hu.2
  have hin : ∀ v, u ∈ pend g s.order v ↔ v ∈ (g.nbrs u).map Edge.to := by
    intro v
    simp only [pend, Finset.mem_filter, Finset.mem_range]
    exact ⟨fun h => h.2.1, fun h => ⟨hu.1, h, huo⟩⟩
  have hdeg : ∀ v, s.inDegree v - (if v ∈ (g.nbrs u).map Edge.to then 1 else 0) =
      ((pend g (s.order ++ [u]) v).card : Int) := by
    intro v
    rw [pend_snoc, hI.deg]
    split
    · next h =>
      have h1 := (hin v).2 h
      rw [Finset.card_erase_of_mem h1]
      have := Finset.card_pos.2 ⟨u, h1⟩
      omega
    · next h => rw [Finset.erase_eq_of_notMem (by rwa [hin])]; simp
  -- vertices that become free
  have hfree : ∀ v, v ∈ ((g.nbrs u).map Edge.to).filter (fun v => decide (s.inDegree v - 1 = 0)) ↔
      v ∈ (g.nbrs u).map Edge.to ∧ pend g (s.order ++ [u]) v = ∅ := by
    intro v
    rw [List.mem_filter, decide_eq_true_eq]
    constructor
    · rintro ⟨h1, h2⟩
      have := hdeg v
      rw [if_pos h1, h2] at this
      exact ⟨h1, Finset.card_eq_zero.1 (by omega)⟩
    · rintro ⟨h1, h2⟩
      have := hdeg v
      rw [if_pos h1, h2] at this
      exact ⟨h1, by simpa using this⟩
  refine ⟨⟨hdeg, ?_, ?_, ?_⟩, by simp⟩
  · dsimp only
    rw [show s.order ++ [u] ++ (q ++ ((g.nbrs u).map Edge.to).filter (fun v => decide (s.inDegree v - 1 = 0))) =
      (s.order ++ u :: q) ++ ((g.nbrs u).map Edge.to).filter (fun v => decide (s.inDegree v - 1 = 0)) by simp,
      List.nodup_append]
    refine ⟨hnd, (hg.nbrs_nodup u).filter _, ?_⟩
    rintro a ha b hb rfl
    have h1 := ((hmem a).1 ha).2
    have h2 := (hin a).2 ((hfree a).1 hb).1
    rw [h1] at h2; simp at h2
  · intro v
    dsimp only
    rw [show s.order ++ [u] ++ (q ++ ((g.nbrs u).map Edge.to).filter (fun v => decide (s.inDegree v - 1 = 0))) =
      (s.order ++ u :: q) ++ ((g.nbrs u).map Edge.to).filter (fun v => decide (s.inDegree v - 1 = 0)) by simp,
      List.mem_append, hmem, hfree]
    constructor
    · rintro (⟨h1, h2⟩ | ⟨h1, h2⟩)
      · exact ⟨h1, by rw [pend_snoc, h2]; simp⟩
      · obtain ⟨e, he, rfl⟩ := List.mem_map.1 h1
        exact ⟨(hg.nbrs_lt he).2, h2⟩
    · rintro ⟨h1, h2⟩
      by_cases h3 : v ∈ (g.nbrs u).map Edge.to
      · exact Or.inr ⟨h3, h2⟩
      · left
        rw [pend_snoc, Finset.erase_eq_of_notMem (by rwa [hin])] at h2
        exact ⟨h1, h2⟩
  · dsimp only
    intro j v hj x hx
    rw [List.getElem?_append] at hj
    split at hj
    · next hlt =>
      obtain ⟨i, hi, hix⟩ := hI.pre j v hj x hx
      exact ⟨i, hi, by rw [List.getElem?_append_left (by omega)]; exact hix⟩
    · next hge =>
      have : j - s.order.length = 0 := by
        by_contra hc
        rw [List.getElem?_eq_none (by simp; omega)] at hj; cases hj
      rw [this] at hj
      simp at hj; subst hj
      obtain ⟨i, hi⟩ := List.mem_iff_getElem?.1 (hpred x hx)
      have hlt := (List.getElem?_eq_some_iff.1 hi).1
      exact ⟨i, by omega, by rw [List.getElem?_append_left hlt]; exact hi⟩

theorem topo_order_acyclic {g : Graph V E} (hg : g.WF) {l : List Nat} (h : IsTopoOrder g l) : ¬ HasCycle g := by
  obtain ⟨_, hm, he⟩ := h
  have gen : ∀ s v k, Walk g s v k → ∀ i j, l[i]? = some s → l[j]? = some v → l.Nodup → i + k ≤ j := by
    intro s v k hw
    induction hw with
    | nil _ =>
      intro i j hi hj hnd
      have h1 := (List.getElem?_eq_some_iff.1 hi)
      have h2 := (List.getElem?_eq_some_iff.1 hj)
      obtain ⟨a1, b1⟩ := h1
      obtain ⟨a2, b2⟩ := h2
      have := (hnd.getElem_inj_iff).1 (b1.trans b2.symm)
      omega
    | @snoc u w k _ ha ih =>
      intro i j hi hj hnd
      have hu := (hm u).2 (hg.adj_lt ha).1
      obtain ⟨m, hm'⟩ := List.mem_iff_getElem?.1 hu
      have h1 := ih i m hi hm' hnd
      have h2 := he m j u w hm' hj ha
      omega
  rintro ⟨v, k, hw⟩
  obtain ⟨i, hi⟩ := List.mem_iff_getElem?.1 ((hm v).2 (hg.walk_lt hw).1)
  have := gen v v (k + 1) hw i i hi hi ‹_›
  omega

theorem cycle_of_stuck {g : Graph V E} (hg : g.WF) {order : List Nat} {v0 : Nat} (hv0 : v0 < g.numVertices)
    (hv0o : v0 ∉ order)
    (hstuck : ∀ v, v < g.numVertices → v ∉ order → ∃ u, Adj g u v ∧ u ∉ order) : HasCycle g := by
  classical
  choose! p hp using hstuck
  let f : Nat → Nat := fun i => p^[i] v0
  have hf : ∀ i, f i < g.numVertices ∧ f i ∉ order := by
    intro i
    induction i with
    | zero => exact ⟨hv0, hv0o⟩
    | succ i ih =>
      show p^[i+1] v0 < _ ∧ p^[i+1] v0 ∉ _
      rw [Function.iterate_succ_apply']
      obtain ⟨h1, h2⟩ := hp _ ih.1 ih.2
      exact ⟨(hg.adj_lt h1).1, h2⟩
  have hstep : ∀ i, Adj g (f (i + 1)) (f i) := by
    intro i
    show Adj g (p^[i+1] v0) _
    rw [Function.iterate_succ_apply']
    exact (hp _ (hf i).1 (hf i).2).1
  have hwalk : ∀ k i, Walk g (f (i + k)) (f i) k := by
    intro k
    induction k with
    | zero => intro i; exact .nil (hf i).1
    | succ k ih =>
      intro i
      have := ih (i + 1)
      rw [show i + 1 + k = i + (k + 1) by omega] at this
      exact this.snoc (hstep i)
  obtain ⟨i, hi, j, hj, hij, hfij⟩ : ∃ i ∈ Finset.range (g.numVertices + 1),
      ∃ j ∈ Finset.range (g.numVertices + 1), i ≠ j ∧ f i = f j := by
    apply Finset.exists_ne_map_eq_of_card_lt_of_maps_to (t := Finset.range g.numVertices)
    · simp
    · intro i _
      simpa using (hf i).1
  rcases Nat.lt_or_gt_of_ne hij with h | h
  · refine ⟨f i, j - i - 1, ?_⟩
    have := hwalk (j - i) i
    rw [show i + (j - i) = j by omega, ← hfij] at this
    rwa [show j - i - 1 + 1 = j - i by omega]
  · refine ⟨f j, i - j - 1, ?_⟩
    have := hwalk (i - j) j
    rw [show j + (i - j) = i by omega, hfij] at this
    rwa [show i - j - 1 + 1 = i - j by omega]

/-- **C10.** On a directed graph `TopologicalSort` returns.  If the graph has no directed cycle it reports
`isDAG` and a topological order; if it has one it reports `isDAG = false` and the empty order. -/
theorem topologicalSort_correct {g : Graph V E} (hg : g.WF) (hd : g.type = .directed) :
    ∃ r, topologicalSort g = some r ∧
      (¬ HasCycle g → r.isDAG = true ∧ IsTopoOrder g r.order) ∧
      (HasCycle g → r.isDAG = false ∧ r.order = []) := by
  unfold topologicalSort
  by_cases h0 : g.numVertices = 0
  · rw [if_pos h0]
    refine ⟨_, rfl, fun _ => ⟨rfl, List.nodup_nil, by simp [h0], by simp⟩, ?_⟩
    rintro ⟨v, k, hw⟩
    have := (hg.walk_lt hw).1
    omega
  rw [if_neg h0, if_neg (by rw [hd]; simp)]
  obtain ⟨t, h1, hT, h3⟩ := whileFuel_rule (topoStep g) (TopoInv g)
    (fun t => g.numVertices - t.order.length)
    (by
      intro a a' hA ha
      obtain ⟨hA', hl⟩ := topoInv_step hg hA ha
      refine ⟨hA', ?_⟩
      have : a'.order.length ≤ g.numVertices :=
        nodup_length_le (List.nodup_append.1 hA'.nodup).1 (fun x hx =>
          ((hA'.mem x).1 (List.mem_append_left _ hx)).1)
      omega)
    (g.numVertices + 1) (topoInit g) (topoInv_init hg) (by show g.numVertices - _ < _; omega)
  have hq : t.queue = [] := by
    unfold topoStep at h3
    split at h3
    · assumption
    · cases h3
  rw [h1]
  have hnd := hT.nodup
  have hmem := hT.mem
  rw [hq, List.append_nil] at hnd
  simp only [hq, List.append_nil] at hmem
  have key : ∀ v, v < g.numVertices → v ∉ t.order → ∃ u, Adj g u v ∧ u ∉ t.order := by
    intro v hv hvo
    by_contra hc
    push Not at hc
    exact hvo ((hmem v).2 ⟨hv, (pend_empty hg _ _).2 hc⟩)
  by_cases hlen : t.order.length = g.numVertices
  · have hall : ∀ v, v ∈ t.order ↔ v < g.numVertices := by
      intro v
      refine ⟨fun h => ((hmem v).1 h).1, fun hv => ?_⟩
      have hsubset : t.order.toFinset ⊆ Finset.range g.numVertices := by
        intro v hv; simpa using ((hmem v).1 (by simpa using hv)).1
      have heq := Finset.eq_of_subset_of_card_le hsubset
        (by rw [List.toFinset_card_of_nodup hnd, Finset.card_range, hlen])
      have : v ∈ t.order.toFinset := by rw [heq]; simpa using hv
      simpa using this
    have htopo : IsTopoOrder g t.order := by
      refine ⟨hnd, hall, ?_⟩
      intro i j u v hi hj ha
      obtain ⟨i', hi', h4⟩ := hT.pre j v hj u ha
      obtain ⟨a1, b1⟩ := List.getElem?_eq_some_iff.1 hi
      obtain ⟨a2, b2⟩ := List.getElem?_eq_some_iff.1 h4
      have := (hnd.getElem_inj_iff).1 (b1.trans b2.symm)
      omega
    refine ⟨⟨true, t.order⟩, by simp [hlen], fun _ => ⟨rfl, htopo⟩, fun hc => ?_⟩
    exact absurd hc (topo_order_acyclic hg htopo)
  · refine ⟨⟨false, []⟩, by simp [hlen], fun hc => ?_, fun _ => ⟨rfl, rfl⟩⟩
    exfalso
    apply hc
    obtain ⟨v, hv, hvo⟩ : ∃ v, v < g.numVertices ∧ v ∉ t.order := by
      by_contra hcon
      push Not at hcon
      apply hlen
      apply le_antisymm (nodup_length_le hnd (fun x hx => ((hmem x).1 hx).1))
      rw [← List.toFinset_card_of_nodup hnd]
      calc g.numVertices = (Finset.range g.numVertices).card := (Finset.card_range _).symm
        _ ≤ _ := Finset.card_le_card (by
          intro v hv
          simpa using hcon v (by simpa using hv))
    exact cycle_of_stuck hg hv hvo key

/-- **C10.** `IsDAG` of a directed graph is true exactly when there is no directed cycle. -/
theorem isDAG_correct {g : Graph V E} (hg : g.WF) (hd : g.type = .directed) :
    ∃ b, isDAG g = some b ∧ (b = true ↔ ¬ HasCycle g) := by
  obtain ⟨r, h1, h2, h3⟩ := topologicalSort_correct hg hd
  refine ⟨r.isDAG, by simp [isDAG, h1], ?_⟩
  by_cases hc : HasCycle g
  · simp [hc, (h3 hc).1]
  · simp [hc, (h2 hc).1]

/-- On a nonempty undirected graph the sort is refused. -/
theorem topologicalSort_undirected {g : Graph V E} (hd : g.type = .undirected) (hn : 0 < g.numVertices) :
    topologicalSort g = some ⟨false, []⟩ := by
  unfold topologicalSort
  rw [if_neg (by omega), if_pos hd]

/-! ### Concrete instances -/

/-- An acyclic graph whose vertices are not in topological order. -/
def sampleDag : Graph Nat Int :=
  reached id .directed false 5 [.addEdge 3 1 1, .addEdge 1 0 1, .addEdge 3 4 1, .addEdge 4 0 1, .addEdge 0 2 1]

example : sampleDag.WF ∧ sampleDag.type = .directed := ⟨reached_wf _ _ _ _ _, by decide⟩
example : topologicalSort sampleDag = some ⟨true, [3, 1, 4, 0, 2]⟩ := by decide
example : topologicalSort (reached id .directed false 3 [.addEdge 0 1 1, .addEdge 1 2 1, .addEdge 2 1 1] :
    Graph Nat Int) = some ⟨false, []⟩ := by decide

end Verif.Graph
