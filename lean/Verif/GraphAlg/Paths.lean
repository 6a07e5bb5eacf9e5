import Verif.Graph.Props

/-!
# Specification: walks in a graph

Walks are defined through the public queries `hasEdge` and `edgeWeight` only.
-/

set_option autoImplicit false

namespace Verif.Graph

variable {V E : Type}

/-- There is an edge from `u` to `v`, as reported by `hasEdge` (specification; `mml/base/Graph.h:234-245`). -/
def Adj (g : Graph V E) (u v : Nat) : Prop := g.hasEdge u v = .ret true

/-- `Walk g s v k`: some walk of `k` edges leads from `s` to `v`. -/
inductive Walk (g : Graph V E) (s : Nat) : Nat → Nat → Prop
  | nil : s < g.numVertices → Walk g s s 0
  | snoc {u v k : Nat} : Walk g s u k → Adj g u v → Walk g s v (k + 1)

/-- `v` can be reached from `s`. -/
def Reach (g : Graph V E) (s v : Nat) : Prop := ∃ k, Walk g s v k

/-- `WWalk g s v k d`: some walk of `k` edges with total weight `d` leads from `s` to `v`; the weight of
an edge is what `edgeWeight` reports (`mml/base/Graph.h:248-259`). -/
inductive WWalk {K : Type} [Add K] [Zero K] (g : Graph V K) (s : Nat) : Nat → Nat → K → Prop
  | nil : s < g.numVertices → WWalk g s s 0 0
  | snoc {u v k : Nat} {d w : K} : WWalk g s u k d → g.edgeWeight u v = .ret w →
      WWalk g s v (k + 1) (d + w)

/-- A vertex list is a path of the graph: consecutive vertices are joined by edges. -/
def IsPath (g : Graph V E) (p : List Nat) : Prop := p.IsChain (Adj g)

/-- Well-formedness of the adjacency lists, proved for every reachable graph in `reached_wf`. -/
structure Graph.WF (g : Graph V E) : Prop where
  len : g.adjList.length = g.numVertices
  range : ∀ (u : Nat) (es : List (Edge E)), g.adjList[u]? = some es → ∀ e ∈ es, e.to < g.numVertices
  nodup : ∀ (u : Nat) (es : List (Edge E)), g.adjList[u]? = some es → (es.map Edge.to).Nodup

/-- An undirected graph stores every edge in both directions with the same weight; proved for every
reachable undirected graph in `reached_symm`. -/
def Graph.Symm (g : Graph V E) : Prop :=
  ∀ u v x, g.edgeWeight u v = .ret x → g.edgeWeight v u = .ret x

/-- `graph.neighbors(u)` (`mml/base/Graph.h:297-302`) at a valid vertex `u`.  For `u` out of range the
code throws; the algorithms below only ever use it at valid vertices. -/
def Graph.nbrs (g : Graph V E) (u : Nat) : List (Edge E) := (g.adjList[u]?).getD []

theorem reached_wf (cast : Nat → V) (t : GType) (b : Bool) (n : Nat) (ops : List (Op V E)) :
    (reached cast t b n ops).WF := by
  have h := rep_reached (V := V) cast t b n ops
  refine ⟨by rw [h.adj_len]; exact h.n_eq.symm, ?_, h.nodup⟩
  intro u es hes e he
  have := (h.dom u e.to (by rw [(h.mem_iff hes e.to e.weight).1 he]; rfl)).2
  show _ < (reached cast t b n ops).vertexData.length
  rw [h.n_eq]; exact this

theorem reached_symm (cast : Nat → V) (b : Bool) (n : Nat) (ops : List (Op V E)) :
    (reached cast .undirected b n ops).Symm := fun u v x h =>
  ((graph_wellformed cast .undirected b n ops).2.2.1 rfl u v x).1 h

namespace Graph.WF

variable {g : Graph V E}

theorem neighbors_eq (hg : g.WF) {u : Nat} (hu : u < g.numVertices) :
    g.neighbors u = .ret (g.nbrs u) := by
  have : u < g.adjList.length := by rw [hg.len]; exact hu
  simp only [Graph.neighbors, Graph.nbrs, Outcome.index, List.getElem?_eq_getElem this, Option.getD_some]
  rw [if_neg (by omega)]

theorem nbrs_nil (hg : g.WF) {u : Nat} (hu : ¬ u < g.numVertices) : g.nbrs u = [] := by
  have : ¬ u < g.adjList.length := by rw [hg.len]; exact hu
  simp [Graph.nbrs, List.getElem?_eq_none (Nat.not_lt.1 this)]

theorem nbrs_lt (hg : g.WF) {u : Nat} {e : Edge E} (he : e ∈ g.nbrs u) :
    u < g.numVertices ∧ e.to < g.numVertices := by
  by_cases hu : u < g.numVertices
  · have hlt : u < g.adjList.length := by rw [hg.len]; exact hu
    have hes := List.getElem?_eq_getElem hlt
    refine ⟨hu, hg.range u _ hes e ?_⟩
    simpa [Graph.nbrs, hes] using he
  · rw [hg.nbrs_nil hu] at he; simp at he

theorem nbrs_nodup (hg : g.WF) (u : Nat) : ((g.nbrs u).map Edge.to).Nodup := by
  unfold Graph.nbrs
  cases h : g.adjList[u]? with
  | none => simp
  | some es => exact hg.nodup u es h

theorem adj_iff (hg : g.WF) {u v : Nat} : Adj g u v ↔ ∃ e ∈ g.nbrs u, e.to = v := by
  constructor
  · intro h
    unfold Adj Graph.hasEdge at h
    split at h
    · simp at h
    · next hr =>
      have hu : u < g.adjList.length := by rw [hg.len]; show u < g.vertexData.length; omega
      simp only [Graph.nbrs, List.getElem?_eq_getElem hu, Outcome.ret.injEq, List.any_eq_true,
        beq_iff_eq, Option.getD_some] at h ⊢
      exact h
  · rintro ⟨e, he, rfl⟩
    obtain ⟨hu, hv⟩ := hg.nbrs_lt he
    unfold Adj Graph.hasEdge
    have h1 : ¬ (u ≥ g.vertexData.length ∨ e.to ≥ g.vertexData.length) := by
      simp only [Graph.numVertices] at hu hv; omega
    rw [if_neg h1]
    have hu' : u < g.adjList.length := by rw [hg.len]; exact hu
    simp only [Graph.nbrs, List.getElem?_eq_getElem hu', Option.getD_some] at he ⊢
    simp only [Outcome.ret.injEq, List.any_eq_true, beq_iff_eq]
    exact ⟨e, he, rfl⟩

theorem adj_lt (hg : g.WF) {u v : Nat} (h : Adj g u v) : u < g.numVertices ∧ v < g.numVertices := by
  obtain ⟨e, he, rfl⟩ := hg.adj_iff.1 h
  exact hg.nbrs_lt he

theorem find_of_mem {es : List (Edge E)} (hn : (es.map Edge.to).Nodup) (v : Nat) (x : E) :
    (⟨v, x⟩ : Edge E) ∈ es ↔ lk es v = some x := by
  induction es with
  | nil => simp [lk]
  | cons e es ih =>
    simp only [List.map_cons, List.nodup_cons] at hn
    have ih := ih hn.2
    unfold lk at *
    rw [List.find?_cons]
    by_cases he : e.to = v
    · subst he
      simp only [List.mem_cons, beq_self_eq_true, Option.map_some, Option.some.injEq]
      constructor
      · rintro (h1 | h1)
        · rw [← h1]
        · exact absurd (List.mem_map.2 ⟨_, h1, rfl⟩) hn.1
      · rintro rfl; exact Or.inl rfl
    · have : (e.to == v) = false := by simpa using he
      simp only [this, List.mem_cons]
      refine Iff.trans ?_ ih
      constructor
      · rintro (h1 | h1)
        · exact absurd (by rw [← h1]) he
        · exact h1
      · exact Or.inr

theorem weight_iff (hg : g.WF) {u v : Nat} {x : E} :
    g.edgeWeight u v = .ret x ↔ (⟨v, x⟩ : Edge E) ∈ g.nbrs u := by
  rw [find_of_mem (hg.nbrs_nodup u)]
  unfold Graph.edgeWeight Graph.nbrs
  split
  · next hr =>
    by_cases hu : u < g.numVertices
    · have hu' : u < g.adjList.length := by rw [hg.len]; exact hu
      have hes := List.getElem?_eq_getElem hu'
      simp only [hes, Option.getD_some]
      have hv : ¬ v < g.numVertices := by simp only [Graph.numVertices] at hu ⊢; omega
      have : lk (g.adjList[u]) v = none := by
        rw [lk_none_iff]
        intro hm
        obtain ⟨e, he, rfl⟩ := List.mem_map.1 hm
        exact hv (hg.range u _ hes e he)
      simp [this]
    · have hu' : ¬ u < g.adjList.length := by rw [hg.len]; exact hu
      rw [List.getElem?_eq_none (Nat.not_lt.1 hu')]
      simp [lk]
  · next hr =>
    have hu' : u < g.adjList.length := by rw [hg.len]; show u < g.vertexData.length; omega
    simp only [List.getElem?_eq_getElem hu', Option.getD_some, lk]
    cases List.find? (fun e => e.to == v) g.adjList[u] <;> simp

theorem adj_iff_weight (hg : g.WF) {u v : Nat} : Adj g u v ↔ ∃ x, g.edgeWeight u v = .ret x := by
  rw [hg.adj_iff]
  constructor
  · rintro ⟨e, he, rfl⟩; exact ⟨e.weight, hg.weight_iff.2 he⟩
  · rintro ⟨x, hx⟩; exact ⟨_, hg.weight_iff.1 hx, rfl⟩

theorem walk_lt (hg : g.WF) {s v k : Nat} (h : Walk g s v k) : s < g.numVertices ∧ v < g.numVertices := by
  induction h with
  | nil h => exact ⟨h, h⟩
  | snoc _ ha ih => exact ⟨ih.1, (hg.adj_lt ha).2⟩

end Graph.WF

theorem Reach.snoc {g : Graph V E} {s u v : Nat} (h : Reach g s u) (ha : Adj g u v) : Reach g s v := by
  obtain ⟨k, hk⟩ := h; exact ⟨_, hk.snoc ha⟩

theorem WWalk.walk {K : Type} [Add K] [Zero K] {g : Graph V K} (hg : g.WF) {s v k : Nat} {d : K}
    (h : WWalk g s v k d) : Walk g s v k := by
  induction h with
  | nil h => exact .nil h
  | snoc _ hw ih => exact ih.snoc (hg.adj_iff_weight.2 ⟨_, hw⟩)

theorem Walk.wwalk {K : Type} [Add K] [Zero K] {g : Graph V K} (hg : g.WF) {s v k : Nat}
    (h : Walk g s v k) : ∃ d, WWalk g s v k d := by
  induction h with
  | nil h => exact ⟨0, .nil h⟩
  | snoc _ ha ih =>
    obtain ⟨d, hd⟩ := ih
    obtain ⟨w, hw⟩ := hg.adj_iff_weight.1 ha
    exact ⟨_, hd.snoc hw⟩

end Verif.Graph
