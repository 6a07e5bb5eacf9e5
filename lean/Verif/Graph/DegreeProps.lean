import Verif.Graph.Props

/-! # C51: `degree` and `inDegree` count the edges that `hasEdge` reports -/

set_option autoImplicit false

namespace Verif.Graph

variable {V E : Type}

theorem sum_map_eq_sum_range {α : Type} (f : α → Nat) (L : List α) (g : Nat → Nat)
    (h : ∀ (u : Nat) (a : α), L[u]? = some a → f a = g u) :
    (L.map f).sum = ∑ u ∈ Finset.range L.length, g u := by
  induction L generalizing g with
  | nil => simp
  | cons a L ih =>
    rw [List.map_cons, List.sum_cons, List.length_cons, Finset.sum_range_succ', h 0 a rfl,
      ih (fun u => g (u + 1)) (fun u b hb => h (u + 1) b (by simpa using hb)), Nat.add_comm]

theorem countP_to (es : List (Edge E)) (hn : (es.map Edge.to).Nodup) (v : Nat) :
    es.countP (fun e => e.to == v) = if (lk es v).isSome then 1 else 0 := by
  induction es with
  | nil => simp [lk]
  | cons e es ih =>
    simp only [List.map_cons, List.nodup_cons] at hn
    have ih := ih hn.2
    rw [List.countP_cons, ih]
    by_cases he : e.to = v
    · have h0 : lk es v = none := (lk_none_iff _ _).2 (he ▸ hn.1)
      simp [lk, List.find?_cons, he] at h0 ⊢
      simpa using h0
    · have : (e.to == v) = false := by simpa using he
      simp [lk, List.find?_cons, this]

theorem Rep.length_eq {g : Graph V E} {a : AbsGraph E} (h : Rep g a) {u : Nat} {es : List (Edge E)}
    (hes : g.adjList[u]? = some es) :
    es.length = ((Finset.range a.n).filter (fun v => (a.w u v).isSome = true)).card := by
  have hn := h.nodup u es hes
  rw [← List.length_map (f := Edge.to), ← List.toFinset_card_of_nodup hn]
  congr 1
  ext v
  rw [List.mem_toFinset, Finset.mem_filter, Finset.mem_range, ← h.lookup u es hes v]
  have := lk_none_iff es v
  constructor
  · intro hv
    have hs : (lk es v).isSome = true := by
      cases hl : lk es v with
      | none => exact absurd hv (this.1 hl)
      | some _ => rfl
    exact ⟨(h.dom u v (by rw [← h.lookup u es hes v]; exact hs)).2, hs⟩
  · rintro ⟨-, hv⟩
    by_contra hc
    rw [this.2 hc] at hv
    cases hv

/-- **C51.** After every history, `degree(v)` (and `outDegree`) of a vertex is the number of vertices `u` with
`hasEdge(v, u)`, `inDegree(v)` is the number of vertices `u` with `hasEdge(u, v)`, and both throw
`out_of_range` for an index that is not a vertex. -/
theorem degree_counts (cast : Nat → V) (t : GType) (b : Bool) (n : Nat) (ops : List (Op V E)) (v : Nat) :
    let g := reached cast t b n ops
    (v < g.numVertices →
      g.degree v = .ret (((Finset.range g.numVertices).filter (fun u => g.hasEdge v u = .ret true)).card) ∧
      g.inDegree v = .ret (((Finset.range g.numVertices).filter (fun u => g.hasEdge u v = .ret true)).card)) ∧
    (g.numVertices ≤ v → g.degree v = .exn .outOfRange ∧ g.inDegree v = .exn .outOfRange) := by
  intro g
  have h : Rep g (specReached (V := V) t b n ops) := rep_reached (V := V) cast t b n ops
  generalize specReached (V := V) t b n ops = a at h
  have hN : g.numVertices = a.n := h.n_eq
  rw [hN]
  simp only [h.hasEdge_eq, Outcome.ret.injEq]
  constructor
  · intro hv
    obtain ⟨es, hes⟩ := h.getAdj hv
    have hge : ¬ v ≥ g.adjList.length := by rw [h.adj_len]; omega
    have hdeg : g.degree v = .ret (((Finset.range a.n).filter (fun u => (a.w v u).isSome = true)).card) := by
      rw [Graph.degree, if_neg hge]
      simp only [Outcome.index, hes, Outcome.bind_ret, Outcome.pure_eq, h.length_eq hes]
    refine ⟨hdeg, ?_⟩
    rw [Graph.inDegree, if_neg hge]
    by_cases hu : g.type = .undirected
    · rw [if_pos hu, hdeg]
      simp only [h.symm (by simp [h.undir, hu]) v]
    · rw [if_neg hu, sum_map_eq_sum_range _ _ (fun u => if (a.w u v).isSome then 1 else 0) (fun u es' hes' => by
        rw [countP_to es' (h.nodup u es' hes'), h.lookup u es' hes']), h.adj_len, Finset.card_filter]
  · intro hv
    have hge : v ≥ g.adjList.length := by rw [h.adj_len]; omega
    rw [Graph.degree, Graph.inDegree, if_pos hge, if_pos hge]
    exact ⟨rfl, rfl⟩

/-- Summed over a directed graph, the out-degrees and the in-degrees both give the number of edges. -/
theorem degree_sum (cast : Nat → V) (b : Bool) (n : Nat) (ops : List (Op V E)) :
    let g := reached cast .directed b n ops
    ∃ out inn : Nat → Nat, (∀ v < g.numVertices, g.degree v = .ret (out v) ∧ g.inDegree v = .ret (inn v)) ∧
      g.numEdges = (∑ v ∈ Finset.range g.numVertices, out v : Nat) ∧
      g.numEdges = (∑ v ∈ Finset.range g.numVertices, inn v : Nat) := by
  intro g
  refine ⟨fun v => ((Finset.range g.numVertices).filter (fun u => g.hasEdge v u = .ret true)).card,
    fun v => ((Finset.range g.numVertices).filter (fun u => g.hasEdge u v = .ret true)).card,
    fun v hv => (degree_counts cast .directed b n ops v).1 hv, ?_, ?_⟩
  all_goals
    have h := numEdges_counts (V := V) (E := E) cast .directed b n ops
    have hr : Rep g (specReached (V := V) .directed b n ops) := rep_reached (V := V) cast .directed b n ops
    have hd : ¬ g.type = .undirected := by
      have := hr.undir
      intro hu
      rw [hu] at this
      have hs : (specReached (V := V) (E := E) .directed b n ops).undirected = false := by
        unfold specReached
        have gen : ∀ (ops : List (Op V E)) (a : AbsGraph E), a.undirected = false → (a.run ops).1.undirected = false := by
          intro ops
          induction ops with
          | nil => intro a ha; exact ha
          | cons op ops ih =>
            intro a ha
            refine ih _ ?_
            cases op <;> simp only [AbsGraph.step] <;> repeat' split
            all_goals exact ha
        exact gen ops _ rfl
      rw [hs] at this
      simp at this
    change g.numEdges = _ at h
    rw [h]
    simp only [Finset.card_filter, Nat.cast_inj]
    rw [Finset.sum_product]
  · refine Finset.sum_congr rfl (fun u _ => Finset.sum_congr rfl (fun v _ => ?_))
    exact if_congr (and_iff_right (fun hu => absurd hu hd)) rfl rfl
  · rw [Finset.sum_comm]
    refine Finset.sum_congr rfl (fun u _ => Finset.sum_congr rfl (fun v _ => ?_))
    exact if_congr (and_iff_right (fun hu => absurd hu hd)) rfl rfl

/-- A directed graph with edges 0→1 and 0→2: vertex 0 has two outgoing and no incoming edges. -/
example : (reached (V := Nat) (E := Nat) id .directed false 3 [.addEdge 0 1 5, .addEdge 0 2 7]).degree 0 = .ret 2 ∧
    (reached (V := Nat) (E := Nat) id .directed false 3 [.addEdge 0 1 5, .addEdge 0 2 7]).inDegree 0 = .ret 0 ∧
    (reached (V := Nat) (E := Nat) id .directed false 3 [.addEdge 0 1 5, .addEdge 0 2 7]).inDegree 2 = .ret 1 := by
  decide

end Verif.Graph
