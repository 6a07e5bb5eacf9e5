import Verif.Graph.Refine
import Verif.Graph.MatrixModel
import Mathlib.Algebra.BigOperators.Group.Finset.Basic
import Mathlib.Algebra.BigOperators.Group.Finset.Piecewise
import Mathlib.Algebra.BigOperators.Intervals

/-!
# Properties C01-C04: the graph container

`reached t b n ops` is the object a client holds after constructing a graph with `n` vertices of type
`t` and self-loop setting `b` and then making the public calls `ops`, some of which may throw.
-/

set_option autoImplicit false

namespace Verif.Graph

variable {V E : Type}

/-- The object after construction (`mml/base/Graph.h:161-168`) and a history of calls. -/
def reached (cast : Nat → V) (t : GType) (b : Bool) (n : Nat) (ops : List (Op V E)) : Graph V E :=
  ((Graph.ofSize cast n t b).run ops).1

/-- The abstract graph after the same construction and history. -/
def specReached (t : GType) (b : Bool) (n : Nat) (ops : List (Op V E)) : AbsGraph E :=
  (AbsGraph.run { AbsGraph.empty (decide (t = .undirected)) b with n := n } ops).1

theorem rep_reached (cast : Nat → V) (t : GType) (b : Bool) (n : Nat) (ops : List (Op V E)) :
    Rep (reached cast t b n ops) (specReached t b n ops) :=
  (rep_run (rep_ofSize cast n t b) ops).1

theorem Rep.hasEdge_eq {g : Graph V E} {a : AbsGraph E} (h : Rep g a) (u v : Nat) :
    g.hasEdge u v = .ret (a.w u v).isSome := by
  simp only [Graph.hasEdge, h.n_eq]
  by_cases hr : u < a.n ∧ v < a.n
  · have hr' : ¬ (u ≥ a.n ∨ v ≥ a.n) := by omega
    obtain ⟨es, hes⟩ := h.getAdj hr.1
    simp only [hr', if_false, hes, any_eq_lk, h.lookup u es hes v]
  · have hr' : u ≥ a.n ∨ v ≥ a.n := by omega
    rw [if_pos hr']
    cases hw : a.w u v with
    | none => rfl
    | some x => exact absurd (h.dom u v (by simp [hw])) hr

theorem Rep.edgeWeight_eq {g : Graph V E} {a : AbsGraph E} (h : Rep g a) (u v : Nat) :
    g.edgeWeight u v =
      if u < a.n ∧ v < a.n then
        (match a.w u v with
          | some x => .ret x
          | none => .exn .invalidArgument)
      else .exn .outOfRange := by
  simp only [Graph.edgeWeight, h.n_eq]
  by_cases hr : u < a.n ∧ v < a.n
  · have hr' : ¬ (u ≥ a.n ∨ v ≥ a.n) := by omega
    obtain ⟨es, hes⟩ := h.getAdj hr.1
    rw [if_neg hr', if_pos hr, ← h.lookup u es hes v]
    simp only [hes, lk]
    cases es.find? (fun e => e.to == v) <;> rfl
  · have hr' : u ≥ a.n ∨ v ≥ a.n := by omega
    rw [if_pos hr', if_neg hr]

theorem Rep.neighbors_ret {g : Graph V E} {a : AbsGraph E} (h : Rep g a) {u : Nat}
    {es : List (Edge E)} (hes : g.neighbors u = .ret es) : u < a.n ∧ g.adjList[u]? = some es := by
  unfold Graph.neighbors Outcome.index at hes
  split at hes
  · cases hes
  · next hlt =>
    rw [h.adj_len] at hlt
    split at hes
    · next x hx => cases hes; exact ⟨by omega, hx⟩
    · cases hes

theorem Rep.mem_iff {g : Graph V E} {a : AbsGraph E} (h : Rep g a) {u : Nat}
    {es : List (Edge E)} (hes : g.adjList[u]? = some es) (v : Nat) (x : E) :
    (⟨v, x⟩ : Edge E) ∈ es ↔ a.w u v = some x := by
  rw [← h.lookup u es hes v]
  have hn := h.nodup u es hes
  clear hes
  induction es with
  | nil => simp [lk]
  | cons e es ih =>
    simp only [List.map_cons, List.nodup_cons] at hn
    have ih := ih hn.2
    unfold lk at *
    rw [List.find?_cons]
    by_cases he : e.to = v
    · subst he
      simp only [List.mem_cons, beq_self_eq_true, Option.map_some, Option.some.injEq]
      constructor
      · rintro (h1 | h1)
        · rw [← h1]
        · exact absurd (List.mem_map.2 ⟨_, h1, rfl⟩) hn.1
      · rintro rfl; exact Or.inl rfl
    · have : (e.to == v) = false := by simpa using he
      simp only [this, List.mem_cons]
      refine Iff.trans ?_ ih
      constructor
      · rintro (h1 | h1)
        · exact absurd (by rw [← h1]) he
        · exact h1
      · exact Or.inr

/-! ## C01 -/

/-- **C01.** After every history of public calls: each neighbour list a client can read contains only
existing vertices and no vertex twice; an undirected graph has `u - v` exactly when it has `v - u`,
with the same weight; and a graph built without self loops has none. -/
theorem graph_wellformed (cast : Nat → V) (t : GType) (b : Bool) (n : Nat) (ops : List (Op V E)) :
    let g := reached cast t b n ops
    (∀ u es, g.neighbors u = .ret es →
      (∀ e ∈ es, e.to < g.numVertices) ∧ (es.map Edge.to).Nodup) ∧
    (∀ u, u < g.numVertices ↔ ∃ es, g.neighbors u = .ret es) ∧
    (t = .undirected → ∀ u v x, g.edgeWeight u v = .ret x ↔ g.edgeWeight v u = .ret x) ∧
    (b = false → ∀ u, g.hasEdge u u = .ret false) := by
  intro g
  have h := rep_reached (V := V) cast t b n ops
  have hfix : ∀ (a : AbsGraph E) (l : List (Op V E)), (a.run l).1.undirected = a.undirected ∧
      (a.run l).1.selfLoopsOk = a.selfLoopsOk := by
    intro a l
    induction l generalizing a with
    | nil => exact ⟨rfl, rfl⟩
    | cons op l ih =>
      have := ih (a.step op).1
      simp only [AbsGraph.run]
      rw [this.1, this.2]
      cases op <;> simp only [AbsGraph.step] <;> (repeat' split) <;> simp [AbsGraph.put]
  refine ⟨?_, ?_, ?_, ?_⟩
  · intro u es hes
    obtain ⟨_, hget⟩ := h.neighbors_ret hes
    refine ⟨fun e he => ?_, h.nodup u es hget⟩
    have h1 := (h.mem_iff hget e.to e.weight).1 he
    have := (h.dom u e.to (by simp [h1])).2
    show e.to < (reached cast t b n ops).vertexData.length
    rw [h.n_eq]; exact this
  · intro u
    show u < (reached cast t b n ops).vertexData.length ↔ _
    rw [h.n_eq]
    constructor
    · intro hu
      obtain ⟨es, hes⟩ := h.getAdj hu
      refine ⟨es, ?_⟩
      show (reached cast t b n ops).neighbors u = _
      simp only [Graph.neighbors, Outcome.index, h.adj_len, hes]
      rw [if_neg (by omega)]
    · rintro ⟨es, hes⟩
      exact (h.neighbors_ret hes).1
  · intro ht u v x
    show (reached cast t b n ops).edgeWeight u v = _ ↔ (reached cast t b n ops).edgeWeight v u = _
    have hund : (specReached (V := V) t b n ops).undirected = true := by
      rw [specReached, (hfix _ _).1]; simp [AbsGraph.empty, ht]
    rw [h.edgeWeight_eq, h.edgeWeight_eq, h.symm hund u v]
    simp only [and_comm]
  · intro hb u
    show (reached cast t b n ops).hasEdge u u = _
    rw [h.hasEdge_eq, h.noself (by rw [specReached, (hfix _ _).2]; exact hb) u]
    rfl

/-- **C01** (no undefined behaviour).  No call in any history is undefined. -/
theorem graph_history_defined (cast : Nat → V) (t : GType) (b : Bool) (n : Nat)
    (ops : List (Op V E)) :
    Obs.undefined ∉ ((Graph.ofSize cast n t b : Graph V E).run ops).2 := by
  rw [(rep_run (rep_ofSize cast n t b) ops).2]
  generalize ({ AbsGraph.empty (decide (t = .undirected)) b with n := n } : AbsGraph E) = a
  induction ops generalizing a with
  | nil => simp [AbsGraph.run]
  | cons op ops ih =>
    simp only [AbsGraph.run, List.mem_cons, not_or]
    refine ⟨?_, ih _⟩
    cases op <;> simp only [AbsGraph.step] <;> (repeat' split) <;> simp

/-! ## C02 -/

/-- **C02.** Every history of calls has exactly the observable effects of the abstract graph: the
same returned values and exceptions call by call, and afterwards the same answers to `numVertices`,
`hasEdge` and `edgeWeight` for every pair. -/
theorem graph_refines_spec (cast : Nat → V) (t : GType) (b : Bool) (n : Nat) (ops : List (Op V E)) :
    let start : AbsGraph E := { AbsGraph.empty (decide (t = .undirected)) b with n := n }
    let a := (start.run ops).1
    let g := reached cast t b n ops
    ((Graph.ofSize cast n t b : Graph V E).run ops).2 = (start.run ops).2 ∧
    g.numVertices = a.n ∧
    ∀ u v, g.hasEdge u v = .ret (a.w u v).isSome ∧
      g.edgeWeight u v =
        if u < a.n ∧ v < a.n then
          (match a.w u v with
            | some x => .ret x
            | none => .exn .invalidArgument)
        else .exn .outOfRange := by
  intro start a g
  have h := rep_reached (V := V) cast t b n ops
  exact ⟨(rep_run (rep_ofSize cast n t b) ops).2, h.n_eq,
    fun u v => ⟨h.hasEdge_eq u v, h.edgeWeight_eq u v⟩⟩

/-- **C02** (edit and frame, insertion).  After a successful `addEdge(s, d, x)` on a reachable graph
the edge is there with weight `x`, it was not there before, and every other pair answers as before. -/
theorem addEdge_effect (cast : Nat → V) (t : GType) (b : Bool) (n : Nat) (ops : List (Op V E))
    (s d : Nat) (x : E) (g' : Graph V E)
    (hret : (reached cast t b n ops).addEdge s d x = .ret g') :
    let g := reached cast t b n ops
    g.hasEdge s d = .ret false ∧ g'.edgeWeight s d = .ret x ∧
    (g.type = .undirected → g'.edgeWeight d s = .ret x) ∧
    ∀ u v, (u, v) ≠ (s, d) → (g.type = .undirected → (u, v) ≠ (d, s)) →
      g'.hasEdge u v = g.hasEdge u v ∧ g'.edgeWeight u v = g.edgeWeight u v := by
  intro g
  have h := rep_reached (V := V) cast t b n ops
  obtain ⟨h1, h2⟩ := rep_addEdge h s d x
  have e1 : (g.step (.addEdge s d x)).1 = g' := by
    simp only [Graph.step]; rw [show g.addEdge s d x = .ret g' from hret]
  have e2 : (g.step (.addEdge s d x)).2 = .unit := by
    simp only [Graph.step]; rw [show g.addEdge s d x = .ret g' from hret]
  change Rep (g.step (.addEdge s d x)).1 _ at h1
  change (g.step (.addEdge s d x)).2 = _ at h2
  rw [e1] at h1
  rw [e2] at h2
  generalize specReached (V := V) t b n ops = a at h h1 h2
  change Rep g a at h
  simp only [AbsGraph.step] at h1 h2
  split at h2
  · cases h2
  · next hr =>
    rw [if_neg hr] at h1
    split at h2
    · cases h2
    · next hw =>
      rw [if_neg hw] at h1
      have hr : s < a.n ∧ d < a.n := by simpa using hr
      have hnone : a.w s d = none := by
        have : ¬ (a.w s d).isSome = true := fun hh => hw (Or.inr hh)
        simpa using this
      refine ⟨?_, ?_, ?_, ?_⟩
      · rw [h.hasEdge_eq, hnone]; rfl
      · rw [h1.edgeWeight_eq, if_pos (by exact hr)]
        simp [AbsGraph.put]
      · intro hty
        have : a.undirected = true := by simp [h.undir, hty]
        rw [h1.edgeWeight_eq, if_pos (by exact ⟨hr.2, hr.1⟩)]
        simp [AbsGraph.put, this]
      · intro u v huv huv'
        have e : (a.put s d (some x)).w u v = a.w u v := by
          simp only [AbsGraph.put]
          rw [if_neg]
          rintro (⟨rfl, rfl⟩ | ⟨hu, rfl, rfl⟩)
          · exact huv rfl
          · exact huv' (by simpa [h.undir] using hu) rfl
        rw [h1.hasEdge_eq, h.hasEdge_eq, h1.edgeWeight_eq, h.edgeWeight_eq, e]
        exact ⟨rfl, rfl⟩

/-- **C02** (edit and frame, removal).  On a reachable graph `removeEdge(s, d)` always returns; it
returns `true` exactly when the edge was there; afterwards the edge is gone and every other pair
answers as before. -/
theorem removeEdge_effect (cast : Nat → V) (t : GType) (b : Bool) (n : Nat) (ops : List (Op V E))
    (s d : Nat) :
    let g := reached cast t b n ops
    ∃ g' r, g.removeEdge s d = .ret (g', r) ∧ g.hasEdge s d = .ret r ∧
    g'.hasEdge s d = .ret false ∧
    (g.type = .undirected → g'.hasEdge d s = .ret false) ∧
    ∀ u v, (u, v) ≠ (s, d) → (g.type = .undirected → (u, v) ≠ (d, s)) →
      g'.hasEdge u v = g.hasEdge u v ∧ g'.edgeWeight u v = g.edgeWeight u v := by
  intro g
  have h := rep_reached (V := V) cast t b n ops
  obtain ⟨h1, h2⟩ := rep_removeEdge h s d
  change Rep (g.step (.removeEdge s d)).1 _ at h1
  change (g.step (.removeEdge s d)).2 = _ at h2
  generalize specReached (V := V) t b n ops = a at h h1 h2
  change Rep g a at h
  simp only [AbsGraph.step] at h1 h2
  cases hrem : g.removeEdge s d with
  | exn e => simp only [Graph.step, hrem] at h2; split at h2 <;> cases h2
  | ub => simp only [Graph.step, hrem] at h2; split at h2 <;> cases h2
  | ret p =>
    obtain ⟨g', r⟩ := p
    simp only [Graph.step, hrem] at h1 h2
    refine ⟨g', r, rfl, ?_⟩
    by_cases hc : s < a.n ∧ d < a.n ∧ (a.w s d).isSome
    · rw [if_pos hc] at h1 h2
      cases h2
      refine ⟨by rw [h.hasEdge_eq, hc.2.2], ?_, ?_, ?_⟩
      · rw [h1.hasEdge_eq]; simp [AbsGraph.put]
      · intro hty
        have : a.undirected = true := by simp [h.undir, hty]
        rw [h1.hasEdge_eq]; simp [AbsGraph.put, this]
      · intro u v huv huv'
        have e : (a.put s d none).w u v = a.w u v := by
          simp only [AbsGraph.put]
          rw [if_neg]
          rintro (⟨rfl, rfl⟩ | ⟨hu, rfl, rfl⟩)
          · exact huv rfl
          · exact huv' (by simpa [h.undir] using hu) rfl
        rw [h1.hasEdge_eq, h.hasEdge_eq, h1.edgeWeight_eq, h.edgeWeight_eq, e]
        exact ⟨rfl, rfl⟩
    · rw [if_neg hc] at h1 h2
      cases h2
      have hnone : (a.w s d).isSome = false := by
        cases hw : (a.w s d).isSome with
        | false => rfl
        | true => exact absurd ⟨(h.dom s d hw).1, (h.dom s d hw).2, hw⟩ hc
      refine ⟨by rw [h.hasEdge_eq, hnone], by rw [h1.hasEdge_eq, hnone], ?_, ?_⟩
      · intro hty
        have : a.undirected = true := by simp [h.undir, hty]
        rw [h1.hasEdge_eq, h.symm this d s, hnone]
      · intro u v _ _
        rw [h1.hasEdge_eq, h.hasEdge_eq, h1.edgeWeight_eq, h.edgeWeight_eq]
        exact ⟨rfl, rfl⟩

/-! ## C03 -/

/-- **C03.** After every history, `numEdges` is the number of pairs `hasEdge` says yes to: ordered
pairs in a directed graph, pairs `u ≤ v` in an undirected one. -/
theorem numEdges_counts (cast : Nat → V) (t : GType) (b : Bool) (n : Nat) (ops : List (Op V E)) :
    let g := reached cast t b n ops
    g.numEdges = (((Finset.range g.numVertices ×ˢ Finset.range g.numVertices).filter
      (fun p => (g.type = .undirected → p.1 ≤ p.2) ∧ g.hasEdge p.1 p.2 = .ret true)).card : Int) := by
  intro g
  have h : Rep g (specReached (V := V) t b n ops) := rep_reached (V := V) cast t b n ops
  rw [h.count]
  congr 2
  ext ⟨u, v⟩
  rw [mem_edgePairs, Finset.mem_filter, Finset.mem_product, Finset.mem_range, Finset.mem_range]
  simp only [Graph.numVertices, h.n_eq, h.undir, h.hasEdge_eq, decide_eq_true_eq, Outcome.ret.injEq]

/-! ## C04 -/

section Laplacian

variable {K : Type} [Ring K]

theorem fillRow_eq (f : K → K) (es : List (Edge K)) (hn : (es.map Edge.to).Nodup) (j : Nat) :
    fillRow f es j = ((lk es j).map f).getD 0 := by
  have gen : ∀ (es : List (Edge K)) (row : Nat → K), (es.map Edge.to).Nodup →
      es.foldl (fun row e => Function.update row e.to (f e.weight)) row j =
        ((lk es j).map f).getD (row j) := by
    intro es
    induction es with
    | nil => intro row _; rfl
    | cons e es ih =>
      intro row hn
      simp only [List.map_cons, List.nodup_cons] at hn
      rw [List.foldl_cons, ih _ hn.2]
      by_cases he : e.to = j
      · have h0 : lk es j = none := by rw [lk_none_iff, ← he]; exact hn.1
        have h1 : lk (e :: es) j = some e.weight := by simp [lk, List.find?_cons, he]
        rw [h0, h1, ← he]
        simp
      · have h1 : lk (e :: es) j = lk es j := by
          have : (e.to == j) = false := by simpa using he
          simp [lk, List.find?_cons, this]
        rw [h1, Function.update_of_ne (Ne.symm he)]
  exact gen es _ hn

theorem foldl_weight (es : List (Edge K)) (x : K) :
    es.foldl (fun deg e => deg + e.weight) x = x + weightSum es := by
  unfold weightSum
  induction es generalizing x with
  | nil => simp
  | cons e es ih =>
    rw [List.foldl_cons, List.foldl_cons, ih, ih (0 + e.weight)]
    simp [add_assoc]

theorem weightSum_eq (es : List (Edge K)) (n : Nat) (hn : (es.map Edge.to).Nodup)
    (hlt : ∀ e ∈ es, e.to < n) :
    weightSum es = ∑ j ∈ Finset.range n, (lk es j).getD 0 := by
  induction es with
  | nil => simp [weightSum, lk]
  | cons e es ih =>
    simp only [List.map_cons, List.nodup_cons] at hn
    have h1 : weightSum (e :: es) = e.weight + weightSum es := by
      unfold weightSum
      rw [List.foldl_cons, foldl_weight]
      simp [weightSum]
    rw [h1, ih hn.2 (fun x hx => hlt x (List.mem_cons_of_mem _ hx))]
    have h0 : lk es e.to = none := (lk_none_iff _ _).2 hn.1
    have h2 : ∀ j, (lk (e :: es) j).getD 0 = (if j = e.to then e.weight else 0) + (lk es j).getD 0 := by
      intro j
      by_cases hj : j = e.to
      · subst hj
        simp [lk, List.find?_cons] at h0 ⊢
        have : List.find? (fun x => x.to == e.to) es = none := by
          rw [List.find?_eq_none]; simpa using h0
        simp [this]
      · have : (e.to == j) = false := by simpa using fun hh => hj hh.symm
        simp [lk, List.find?_cons, this, hj]
    simp only [h2]
    rw [Finset.sum_add_distrib]
    simp [hlt e List.mem_cons_self]

/-- **C04** (what the code computes, for every reachable graph).  The adjacency matrix holds the edge
weights (0 where there is no edge), the degree matrix holds the row sums of the adjacency matrix on
its diagonal, and the Laplacian is `D - A` except that the diagonal keeps the full weighted degree:
a self loop is not subtracted. -/
theorem laplacian_general (cast : Nat → V) (t : GType) (b : Bool) (n : Nat) (ops : List (Op V K)) :
    let g := reached cast t b n ops
    ∀ i j, i < g.numVertices → j < g.numVertices →
      ∃ A : Nat → K,
        (∀ k, k < g.numVertices → g.adjacencyMatrix i k = .ret (A k)) ∧
        (∀ k, k < g.numVertices → ((g.hasEdge i k = .ret true ∧ g.edgeWeight i k = .ret (A k)) ∨
          (g.hasEdge i k = .ret false ∧ A k = 0))) ∧
        g.degreeMatrix i j =
          .ret (if i = j then ∑ k ∈ Finset.range g.numVertices, A k else 0) ∧
        g.laplacianMatrix i j =
          .ret ((if i = j then ∑ k ∈ Finset.range g.numVertices, A k else 0) - A j
                + (if i = j then A i else 0)) := by
  intro g i j hi hj
  have h : Rep g (specReached (V := V) t b n ops) := rep_reached (V := V) cast t b n ops
  have hn : g.numVertices = (specReached (V := V) t b n ops).n := h.n_eq
  obtain ⟨es, hes⟩ := h.getAdj (hn ▸ hi)
  have hnd := h.nodup i es hes
  have hlt : ∀ e ∈ es, e.to < g.numVertices := by
    intro e he
    rw [hn]
    exact (h.dom i e.to (by rw [(h.mem_iff hes e.to e.weight).1 he]; rfl)).2
  have hid : ∀ k, fillRow id es k = (lk es k).getD 0 := by
    intro k; rw [fillRow_eq id es hnd k]; simp
  refine ⟨fun k => fillRow id es k, ?_, ?_, ?_, ?_⟩
  · intro k _
    simp [Graph.adjacencyMatrix, Outcome.index, hes]
  · intro k hk
    beta_reduce
    rw [h.hasEdge_eq, h.edgeWeight_eq, if_pos ⟨hn ▸ hi, hn ▸ hk⟩, hid, ← h.lookup i es hes k]
    cases lk es k <;> simp
  · simp only [Graph.degreeMatrix, Outcome.index, hes, Outcome.bind_ret, Outcome.pure_eq, hid]
    rw [← weightSum_eq es _ hnd hlt]
    congr 1
    simp [Function.update_apply, eq_comm]
  · simp only [Graph.laplacianMatrix, Outcome.index, hes, Outcome.bind_ret, Outcome.pure_eq, hid]
    rw [← weightSum_eq es _ hnd hlt]
    congr 1
    by_cases hij : i = j
    · subst hij; simp
    · rw [Function.update_of_ne (Ne.symm hij), fillRow_eq _ es hnd j]
      simp only [hij, if_false, zero_sub, add_zero]
      cases lk es j <;> simp

/-- **C04** (partial: graphs without self loops).  For every graph built with self loops disallowed,
the Laplacian equals the degree matrix minus the adjacency matrix and each row sums to zero.
Missing with respect to C04: graphs that contain self loops, for which the claim is false, see
`laplacian_self_loop_false`. -/
theorem laplacian_partial (cast : Nat → V) (t : GType) (n : Nat) (ops : List (Op V K)) :
    let g := reached cast t false n ops
    ∀ i, i < g.numVertices →
      ∃ L D A : Nat → K,
        (∀ j, j < g.numVertices → g.laplacianMatrix i j = .ret (L j) ∧
          g.degreeMatrix i j = .ret (D j) ∧ g.adjacencyMatrix i j = .ret (A j)) ∧
        (∀ j, j < g.numVertices → L j = D j - A j) ∧
        ∑ j ∈ Finset.range g.numVertices, L j = 0 := by
  intro g i hi
  have h0 := (graph_wellformed cast t false n ops).2.2.2 rfl i
  have key := laplacian_general cast t false n ops i
  have h : Rep g (specReached (V := V) t false n ops) := rep_reached (V := V) cast t false n ops
  obtain ⟨A, hA, hB, _, _⟩ := key i hi hi
  have hAi : A i = 0 := by
    rcases hB i hi with ⟨h1, _⟩ | ⟨_, h2⟩
    · rw [h0] at h1; cases h1
    · exact h2
  refine ⟨fun j => (if i = j then ∑ k ∈ Finset.range g.numVertices, A k else 0) - A j,
    fun j => if i = j then ∑ k ∈ Finset.range g.numVertices, A k else 0, A, ?_, ?_, ?_⟩
  · intro j hj
    obtain ⟨A', hA', _, hD, hL⟩ := key j hi hj
    have e : ∀ k, k < g.numVertices → A' k = A k := by
      intro k hk
      have h1 := hA k hk
      rw [hA' k hk] at h1
      exact Outcome.ret.inj h1
    have es : ∑ k ∈ Finset.range g.numVertices, A' k = ∑ k ∈ Finset.range g.numVertices, A k :=
      Finset.sum_congr rfl (fun k hk => e k (Finset.mem_range.1 hk))
    change g.degreeMatrix i j = .ret (if i = j then ∑ k ∈ Finset.range g.numVertices, A' k else 0) at hD
    change g.laplacianMatrix i j = .ret ((if i = j then ∑ k ∈ Finset.range g.numVertices, A' k else 0)
      - A' j + (if i = j then A' i else 0)) at hL
    rw [es] at hD hL
    rw [e i hi, e j hj, hAi] at hL
    refine ⟨?_, hD, hA j hj⟩
    rw [hL]; simp
  · intro j _; rfl
  · rw [Finset.sum_sub_distrib]
    simp [hi]

/-- **C04 fails with self loops** (witness).  One vertex with a self loop of weight 1: the adjacency
entry is 1 and the degree is 1, so `D - A` is 0, but the Laplacian entry is 1. -/
theorem laplacian_self_loop_false :
    ∃ ops : List (Op Nat Int),
      let g := reached id .undirected true 1 ops
      g.degreeMatrix 0 0 = .ret 1 ∧ g.adjacencyMatrix 0 0 = .ret 1 ∧ g.laplacianMatrix 0 0 = .ret 1 :=
  ⟨[.addEdge 0 0 1], by decide, by decide, by decide⟩

end Laplacian

/-! ## The hypotheses are met by concrete histories -/

/-- A history with successful insertions, a rejected duplicate, a rejected out-of-range call, a removal
of the reverse direction and a new vertex. -/
def sampleOps : List (Op Nat Int) :=
  [.addEdge 0 1 5, .addEdge 1 0 7, .addEdge 1 2 4, .addEdge 9 0 1, .removeEdge 1 0, .addVertex 8,
    .addEdge 3 0 2]

example : ((Graph.ofSize id 3 .undirected false).run sampleOps).2 =
    [.unit, .threw .invalidArgument, .unit, .threw .outOfRange, .flag true, .index 3, .unit] := by
  decide

example : (reached id .undirected false 3 sampleOps).numEdges = 2 ∧
    (reached id .undirected false 3 sampleOps).hasEdge 0 3 = .ret true ∧
    (reached id .undirected false 3 sampleOps).edgeWeight 2 1 = .ret 4 := by decide

example : ∃ g', (reached id .undirected false 3 sampleOps).addEdge 0 2 (1 : Int) = .ret g' := ⟨_, rfl⟩

example : (reached id .undirected false 3 sampleOps).laplacianMatrix 2 1 = .ret (-4) := by decide

end Verif.Graph
