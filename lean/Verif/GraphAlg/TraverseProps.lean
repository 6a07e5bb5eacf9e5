import Verif.GraphAlg.BfsLemmas
import Verif.GraphAlg.DfsLemmas

/-!
# Properties C05 and C06: breadth-first and depth-first search

The theorems are about every well-formed graph; `reached_wf` shows that every graph a client can build
through the public interface is well-formed.
-/

set_option autoImplicit false

namespace Verif.Graph

variable {V E : Type}

theorem getElem?_range_map {α : Type} (f : Nat → α) {n v : Nat} (hv : v < n) :
    ((List.range n).map f)[v]? = some (f v) := by
  simp [hv]

/-- **C05.** `BFS` from a valid start returns.  Its visit order lists exactly the reachable vertices, each
once, in order of nondecreasing distance; `distance[v]` is the least number of edges of a walk to `v`,
and infinite exactly when there is none; `parent[v]` is a neighbour one hop closer, and is absent exactly
for the start and the unreachable vertices. -/
theorem bfs_correct {g : Graph V E} (hg : g.WF) {start : Nat} (hstart : start < g.numVertices) :
    ∃ r, bfs g start = some r ∧
      r.visitOrder.Nodup ∧ (∀ v, v ∈ r.visitOrder ↔ Reach g start v) ∧
      r.nodesVisited = r.visitOrder.length ∧
      r.distance.length = g.numVertices ∧ r.parent.length = g.numVertices ∧
      (∀ v k, r.distance[v]? = some (some k) ↔ (Walk g start v k ∧ ∀ k', Walk g start v k' → k ≤ k')) ∧
      (∀ v, v < g.numVertices → (r.distance[v]? = some none ↔ ¬ Reach g start v)) ∧
      (∀ v p, r.parent[v]? = some (some p) →
        Adj g p v ∧ ∃ k, r.distance[p]? = some (some k) ∧ r.distance[v]? = some (some (k + 1))) ∧
      (∀ v, v < g.numVertices → (r.parent[v]? = some none ↔ v = start ∨ ¬ Reach g start v)) ∧
      r.visitOrder.Pairwise (fun x y => ∀ a b, r.distance[x]? = some (some a) →
        r.distance[y]? = some (some b) → a ≤ b) := by
  obtain ⟨s, h1, hI, hw⟩ := bfs_terminates hg hstart
  refine ⟨s.result g.numVertices, by simp [bfs, h1, Nat.not_le.2 hstart], ?_⟩
  have hord : ∀ v, s.visited v = true ↔ v ∈ s.order := by
    intro v; rw [hI.cover v, hw, List.append_nil]
  have hlt : ∀ v, (s.dist v).isSome → v < g.numVertices := by
    intro v hv; exact hI.lt v ((hI.cover v).1 ((hI.distSome v).2 hv))
  have hreach : ∀ v, (s.dist v).isSome ↔ Reach g start v := by
    intro v
    constructor
    · intro h
      obtain ⟨k, hk⟩ := Option.isSome_iff_exists.1 h
      exact ⟨k, hI.walk v k hk⟩
    · rintro ⟨k, hk⟩
      obtain ⟨a, ha, _⟩ := hI.lower hw hk
      simp [ha]
  have hget : ∀ v k, (s.result g.numVertices).distance[v]? = some (some k) ↔ s.dist v = some k := by
    intro v k
    by_cases hv : v < g.numVertices
    · simp [TrState.result, hv]
    · constructor
      · intro h; simp [TrState.result, hv] at h
      · intro h; exact absurd (hlt v (by simp [h])) hv
  refine ⟨?_, ?_, ?_, ?_, ?_, ?_, ?_, ?_, ?_, ?_⟩
  · have := hI.nodup; rw [hw, List.append_nil] at this; exact this
  · intro v
    show v ∈ s.order ↔ _
    rw [← hord, hI.distSome, hreach]
  · exact hI.count
  · simp [TrState.result]
  · simp [TrState.result]
  · intro v k
    rw [hget]
    constructor
    · intro h
      refine ⟨hI.walk v k h, fun k' hk' => ?_⟩
      obtain ⟨a, ha, hle⟩ := hI.lower hw hk'
      rw [h] at ha; cases ha; exact hle
    · rintro ⟨h2, h3⟩
      obtain ⟨a, ha, hle⟩ := hI.lower hw h2
      have := h3 a (hI.walk v a ha)
      rw [ha]; congr 1; omega
  · intro v hv
    have : (s.result g.numVertices).distance[v]? = some (s.dist v) := getElem?_range_map _ hv
    rw [this, ← hreach]
    simp
  · intro v p hp
    by_cases hv : v < g.numVertices
    · have : (s.result g.numVertices).parent[v]? = some (s.parent v) := getElem?_range_map _ hv
      rw [this] at hp
      obtain ⟨h2, _, a, h3, h4⟩ := hI.par v p (Option.some.inj hp)
      exact ⟨h2, a, (hget _ _).2 h3, (hget _ _).2 h4⟩
    · simp [TrState.result, hv] at hp
  · intro v hv
    have : (s.result g.numVertices).parent[v]? = some (s.parent v) := getElem?_range_map _ hv
    rw [this, ← hreach, Option.some.injEq]
    constructor
    · intro hp
      by_cases hvis : s.visited v = true
      · exact Or.inl (hI.parNone v hp hvis)
      · exact Or.inr (by rw [← hI.distSome]; exact hvis)
    · rintro (rfl | h)
      · exact hI.parStart
      · cases hp : s.parent v with
        | none => rfl
        | some p =>
          obtain ⟨_, _, a, _, h4⟩ := hI.par v p hp
          simp [h4] at h
  · have := hI.sorted
    rw [hw, List.append_nil] at this
    refine this.imp ?_
    intro x y h a b ha hb
    exact h a b ((hget _ _).1 ha) ((hget _ _).1 hb)

/-- **C05** (invalid start).  `BFS` and `DFS` from an index that is no vertex return the empty result. -/
theorem traversal_invalid_start (g : Graph V E) {start : Nat} (h : g.numVertices ≤ start) :
    bfs g start = some {} ∧ dfs g start = some {} := by
  simp [bfs, dfs, h]

/-- **C06.** `DFS` from a valid start returns.  Its visit order lists exactly the reachable vertices, each
once, beginning with the start, and is the preorder of the textbook recursion; every reported distance is
the length of some walk, parents are neighbours with a distance one smaller. -/
theorem dfs_correct {g : Graph V E} (hg : g.WF) {start : Nat} (hstart : start < g.numVertices) :
    ∃ r, dfs g start = some r ∧
      r.visitOrder.Nodup ∧ (∀ v, v ∈ r.visitOrder ↔ Reach g start v) ∧
      r.visitOrder.head? = some start ∧
      r.nodesVisited = r.visitOrder.length ∧
      Preorder g [start] [] r.visitOrder ∧
      (∀ v k, r.distance[v]? = some (some k) → Walk g start v k) ∧
      (∀ v, v < g.numVertices → (r.distance[v]? = some none ↔ ¬ Reach g start v)) ∧
      (∀ v p, r.parent[v]? = some (some p) →
        Adj g p v ∧ ∃ k, r.distance[p]? = some (some k) ∧ r.distance[v]? = some (some (k + 1))) ∧
      (∀ v, v < g.numVertices → (r.parent[v]? = some none ↔ v = start ∨ ¬ Reach g start v)) := by
  obtain ⟨s, h1, hI, hw⟩ := dfs_terminates hg hstart
  refine ⟨s.result g.numVertices, by simp [dfs, h1, Nat.not_le.2 hstart], ?_⟩
  have hreach : ∀ v, v ∈ s.order ↔ Reach g start v :=
    fun v => ⟨fun h => hI.sound h, fun ⟨_, hk⟩ => hI.complete hw hk⟩
  have hds : ∀ v, (s.dist v).isSome ↔ Reach g start v := by
    intro v
    rw [← hreach]
    constructor
    · intro h
      obtain ⟨k, hk⟩ := Option.isSome_iff_exists.1 h
      exact (hreach v).2 ⟨k, hI.walk v k hk⟩
    · intro h
      exact (hI.distSome v).2 (hI.seen v (Or.inl h))
  have hlt : ∀ v, (s.dist v).isSome → v < g.numVertices := by
    intro v hv
    obtain ⟨k, hk⟩ := (hds v).1 hv
    exact (hg.walk_lt hk).2
  have hget : ∀ v k, (s.result g.numVertices).distance[v]? = some (some k) ↔ s.dist v = some k := by
    intro v k
    by_cases hv : v < g.numVertices
    · simp [TrState.result, hv]
    · constructor
      · intro h; simp [TrState.result, hv] at h
      · intro h; exact absurd (hlt v (by simp [h])) hv
  refine ⟨hI.nodup, hreach, ?_, hI.count, ?_, ?_, ?_, ?_, ?_⟩
  · rcases hI.begun with h | h
    · rw [hw] at h; simp at h
    · exact h
  · exact dfs_loop_preorder hg _ _ _ (dfsInv_init g hstart) h1
  · intro v k h
    exact hI.walk v k ((hget v k).1 h)
  · intro v hv
    have : (s.result g.numVertices).distance[v]? = some (s.dist v) := getElem?_range_map _ hv
    rw [this, ← hds]
    simp
  · intro v p hp
    by_cases hv : v < g.numVertices
    · have : (s.result g.numVertices).parent[v]? = some (s.parent v) := getElem?_range_map _ hv
      rw [this] at hp
      obtain ⟨h2, _, a, h3, h4⟩ := hI.par v p (Option.some.inj hp)
      exact ⟨h2, a, (hget _ _).2 h3, (hget _ _).2 h4⟩
    · simp [TrState.result, hv] at hp
  · intro v hv
    have : (s.result g.numVertices).parent[v]? = some (s.parent v) := getElem?_range_map _ hv
    rw [this, ← hds, hI.distSome, Option.some.injEq]
    constructor
    · intro hp
      by_cases hvs : v = start
      · exact Or.inl hvs
      · exact Or.inr (by simp [hvs, hp])
    · rintro (rfl | h)
      · exact hI.parStart
      · cases hp : s.parent v with
        | none => rfl
        | some p => simp [hp] at h

/-! ### Concrete instances of the hypotheses -/

/-- A directed graph on five vertices, with a cycle and an unreachable vertex. -/
def sampleDirected : Graph Nat Int :=
  reached id .directed false 5
    [.addEdge 0 1 4, .addEdge 0 2 1, .addEdge 2 1 2, .addEdge 1 3 5, .addEdge 3 0 1, .addEdge 4 0 1]

example : sampleDirected.WF ∧ 0 < sampleDirected.numVertices := ⟨reached_wf _ _ _ _ _, by decide⟩

example : bfs sampleDirected 0 = some
    { visitOrder := [0, 1, 2, 3], parent := [none, some 0, some 0, some 1, none],
      distance := [some 0, some 1, some 1, some 2, none], nodesVisited := 4 } := by decide

example : (dfs sampleDirected 0).map (fun r => r.visitOrder) = some [0, 1, 3, 2] := by decide

end Verif.Graph
