import Verif.GraphAlg.MstModel
import Verif.GraphAlg.Forest
import Mathlib.Data.List.Sort

/-!
# Property C13: Kruskal's algorithm
-/

set_option autoImplicit false

namespace Verif.Graph

variable {V K : Type}

theorem tripleLe_fst [LinearOrder K] {a b : K × Nat × Nat} (h : tripleLe a b = true) : a.1 ≤ b.1 := by
  simp only [tripleLe, Bool.or_eq_true, Bool.and_eq_true, decide_eq_true_eq] at h
  rcases h with h | h
  · exact le_of_lt h
  · exact le_of_eq h.1

theorem tripleLe_total [LinearOrder K] (a b : K × Nat × Nat) : tripleLe a b = true ∨ tripleLe b a = true := by
  simp only [tripleLe, Bool.or_eq_true, Bool.and_eq_true, decide_eq_true_eq]
  rcases lt_trichotomy a.1 b.1 with h | h | h
  · exact Or.inl (Or.inl h)
  · rcases Nat.lt_trichotomy a.2.1 b.2.1 with h1 | h1 | h1
    · exact Or.inl (Or.inr ⟨h, Or.inl h1⟩)
    · rcases Nat.le_total a.2.2 b.2.2 with h2 | h2
      · exact Or.inl (Or.inr ⟨h, Or.inr ⟨h1, h2⟩⟩)
      · exact Or.inr (Or.inr ⟨h.symm, Or.inr ⟨h1.symm, h2⟩⟩)
    · exact Or.inr (Or.inr ⟨h.symm, Or.inl h1⟩)
  · exact Or.inr (Or.inl h)

theorem tripleLe_trans [LinearOrder K] (a b c : K × Nat × Nat) (h1 : tripleLe a b = true)
    (h2 : tripleLe b c = true) : tripleLe a c = true := by
  simp only [tripleLe, Bool.or_eq_true, Bool.and_eq_true, decide_eq_true_eq] at *
  rcases h1 with h1 | ⟨h1, h1'⟩ <;> rcases h2 with h2 | ⟨h2, h2'⟩
  · exact Or.inl (lt_trans h1 h2)
  · exact Or.inl (h2 ▸ h1)
  · exact Or.inl (h1 ▸ h2)
  · exact Or.inr ⟨h1.trans h2, by omega⟩

theorem weightOf_append [AddMonoid K] (A B : List (Nat × Nat × K)) :
    weightOf (A ++ B) = weightOf A + weightOf B := by simp [weightOf]

variable [AddCommGroup K] [LinearOrder K] [IsOrderedAddMonoid K]

omit [IsOrderedAddMonoid K] in
theorem kruskalLoop_spec {n : Nat} (es : List (K × Nat × Nat)) :
    ∀ (uf : UF) (F : List (Nat × Nat × K)) (total : K),
      (∀ w u v, (w, u, v) ∈ es → u < n ∧ v < n) →
      es.Pairwise (fun a b => a.1 ≤ b.1) →
      (∀ f ∈ F, ∀ e ∈ es, f.2.2 ≤ e.1) →
      UFRep n uf (Conn F) → SeqAcyclic F → InRange n F → total = weightOf F →
      ∃ F', kruskalLoop n es uf F total = some (.ret (F', weightOf F')) ∧
        SeqAcyclic F' ∧ InRange n F' ∧ (∀ f ∈ F, f ∈ F') ∧
        (∀ u v w, (u, v, w) ∈ F' → (u, v, w) ∈ F ∨ (w, u, v) ∈ es) ∧
        (∀ w u v, (w, u, v) ∈ es → Conn (F'.filter (fun e => decide (e.2.2 ≤ w))) u v) := by
  induction es with
  | nil =>
    intro uf F total _ _ _ _ hF hr ht
    exact ⟨F, by rw [kruskalLoop, ht], hF, hr, fun _ h => h, fun _ _ _ h => Or.inl h, by simp⟩
  | cons e es ih =>
    obtain ⟨w, u, v⟩ := e
    intro uf F total hrange hsort hle hrep hF hr ht
    obtain ⟨hu, hv⟩ := hrange w u v (by simp)
    rw [List.pairwise_cons] at hsort
    obtain ⟨uf', b, h1, h2, h3⟩ := hrep.unite hu hv
    have hrange' : ∀ w u v, (w, u, v) ∈ es → u < n ∧ v < n :=
      fun w u v h => hrange w u v (List.mem_cons_of_mem _ h)
    have hFw : ∀ f ∈ F, f.2.2 ≤ w := fun f hf => hle f hf (w, u, v) (by simp)
    simp only [kruskalLoop, h1]
    cases b with
    | true =>
      have hnc : ¬ Conn F u v := h2.1 rfl
      have hF' : SeqAcyclic (F ++ [(u, v, w)]) := seqAcyclic_append.2 ⟨hF, hnc⟩
      have hr' : InRange n (F ++ [(u, v, w)]) := by
        intro a b c h
        rcases List.mem_append.1 h with h | h
        · exact hr a b c h
        · simp at h; obtain ⟨rfl, rfl, rfl⟩ := h; exact ⟨hu, hv⟩
      have ht' : total + w = weightOf (F ++ [(u, v, w)]) := by
        rw [weightOf_append, ht]; simp [weightOf]
      have hrep' : UFRep n uf' (Conn (F ++ [(u, v, w)])) := by
        have : Conn (F ++ [(u, v, w)]) = Generated (fun a b => (∃ w, (a, b, w) ∈ F) ∨ (a = u ∧ b = v)) := by
          unfold Conn
          congr 1
          funext a b
          apply propext
          constructor
          · rintro ⟨w', h⟩
            rcases List.mem_append.1 h with h | h
            · exact Or.inl ⟨w', h⟩
            · simp at h; exact Or.inr ⟨h.1, h.2.1⟩
          · rintro (⟨w', h⟩ | ⟨rfl, rfl⟩)
            · exact ⟨w', List.mem_append_left _ h⟩
            · exact ⟨w, by simp⟩
        rw [this]; exact h3
      have hFw' : ∀ f ∈ F ++ [(u, v, w)], f.2.2 ≤ w := by
        intro f hf
        rcases List.mem_append.1 hf with hf | hf
        · exact hFw f hf
        · simp at hf; subst hf; exact le_refl _
      dsimp only
      split
      · next hlen =>
        refine ⟨F ++ [(u, v, w)], by rw [ht'], hF', hr', fun f hf => List.mem_append_left _ hf, ?_, ?_⟩
        · intro a b c h
          rcases List.mem_append.1 h with h | h
          · exact Or.inl h
          · simp at h; obtain ⟨rfl, rfl, rfl⟩ := h; exact Or.inr (by simp)
        · intro w' a b hab
          obtain ⟨ha, hb⟩ := hrange w' a b hab
          have hww : w ≤ w' := by
            rcases List.mem_cons.1 hab with h | h
            · cases h; exact le_refl _
            · exact hsort.1 _ h
          have hfil : (F ++ [(u, v, w)]).filter (fun e => decide (e.2.2 ≤ w')) = F ++ [(u, v, w)] := by
            rw [List.filter_eq_self]
            intro f hf
            simpa using (hFw' f hf).trans hww
          rw [hfil]
          have hcard := hF'.card hr'
          obtain ⟨la, hla, hca⟩ := exists_leader (F ++ [(u, v, w)]) ha
          obtain ⟨lb, hlb, hcb⟩ := exists_leader (F ++ [(u, v, w)]) hb
          have hone : (leaders n (F ++ [(u, v, w)])).card ≤ 1 := by omega
          have := Finset.card_le_one.1 hone la hla lb hlb
          subst this
          exact hca.trans hcb.symm
      · obtain ⟨F', k1, k2, k3, k4, k5, k6⟩ := ih uf' (F ++ [(u, v, w)]) (total + w) hrange' hsort.2
          (by
            intro f hf e he
            exact (hFw' f hf).trans (hsort.1 e he)) hrep' hF' hr' ht'
        refine ⟨F', k1, k2, k3, fun f hf => k4 f (List.mem_append_left _ hf), ?_, ?_⟩
        · intro a b c h
          rcases k5 a b c h with h | h
          · rcases List.mem_append.1 h with h | h
            · exact Or.inl h
            · simp at h; obtain ⟨rfl, rfl, rfl⟩ := h; exact Or.inr (by simp)
          · exact Or.inr (List.mem_cons_of_mem _ h)
        · intro w' a b hab
          rcases List.mem_cons.1 hab with h | h
          · cases h
            exact .edge (w := w) (List.mem_filter.2 ⟨k4 _ (by simp), by simp⟩)
          · exact k6 w' a b h
    | false =>
      have hc : Conn F u v := by
        by_contra hnc
        exact absurd (h2.2 hnc) (by simp)
      have hrep' : UFRep n uf' (Conn F) := by
        refine ⟨h3.inv, fun a b r s hr hs => ?_⟩
        rw [h3.rel a b r s hr hs]
        clear hr hs
        constructor
        · intro h
          induction h with
          | rel a b h =>
            rcases h with ⟨w, h⟩ | ⟨rfl, rfl⟩
            · exact .edge h
            · exact hc
          | refl a => exact .refl _ _
          | symm _ _ _ ih => exact ih.symm
          | trans _ _ _ _ _ ih1 ih2 => exact ih1.trans ih2
        · intro h; exact Relation.EqvGen.mono (fun _ _ h => Or.inl h) _ _ h
      obtain ⟨F', k1, k2, k3, k4, k5, k6⟩ := ih uf' F total hrange' hsort.2
        (fun f hf e he => (hFw f hf).trans (hsort.1 e he)) hrep' hF hr ht
      refine ⟨F', k1, k2, k3, k4, ?_, ?_⟩
      · intro a b c h
        rcases k5 a b c h with h | h
        · exact Or.inl h
        · exact Or.inr (List.mem_cons_of_mem _ h)
      · intro w' a b hab
        rcases List.mem_cons.1 hab with h | h
        · cases h
          refine hc.mono (fun f hf => List.mem_filter.2 ⟨k4 f hf, ?_⟩)
          simpa using hFw f hf
        · exact k6 w' a b h

/-- A forest made of graph edges in which every graph edge joins vertices connected by edges that are not
heavier is a minimum spanning forest. -/
theorem minimum_of_bottleneck {g : Graph V K} (hg : g.WF) {F : List (Nat × Nat × K)} (hF : SeqAcyclic F)
    (hedge : ∀ u v w, (u, v, w) ∈ F → g.edgeWeight u v = .ret w)
    (hbot : ∀ u v w, g.edgeWeight u v = .ret w → Conn (F.filter (fun e => decide (e.2.2 ≤ w))) u v) :
    SpanningForest g F ∧ (∀ T, SpanningForest g T → weightOf F ≤ weightOf T ∧ T.length = F.length) := by
  have hin : ∀ {T : List (Nat × Nat × K)}, (∀ u v w, (u, v, w) ∈ T → g.edgeWeight u v = .ret w) →
      InRange g.numVertices T := by
    intro T h u v w hm
    exact hg.adj_lt (hg.adj_iff_weight.2 ⟨w, h u v w hm⟩)
  have hspan : ∀ u v, Reach g u v → Conn F u v := by
    rintro u v ⟨k, hk⟩
    induction hk with
    | nil _ => exact .refl _ _
    | snoc _ ha ih =>
      obtain ⟨w, hw⟩ := hg.adj_iff_weight.1 ha
      exact ih.trans ((hbot _ _ _ hw).mono (fun e he => (List.mem_filter.1 he).1))
  have hreach1 : ∀ {u v : Nat} {w : K}, g.edgeWeight u v = .ret w → Reach g u v := by
    intro u v w h
    have ha := hg.adj_iff_weight.2 ⟨w, h⟩
    exact ⟨1, (Walk.nil (hg.adj_lt ha).1).snoc ha⟩
  refine ⟨⟨hedge, hF.acyclic (hin hedge), hspan⟩, fun T hT => ?_⟩
  have h1 := hF.card (hin hedge)
  have h2 := hT.acyclic.seq.card (hin hT.edges)
  have h3 : (leaders g.numVertices F).card ≤ (leaders g.numVertices T).card :=
    leaders_mono (fun a b hab => hab.of_edges (fun u v w hm => hspan u v (hreach1 (hT.edges u v w hm))))
  have h4 : (leaders g.numVertices T).card ≤ (leaders g.numVertices F).card :=
    leaders_mono (fun a b hab => hab.of_edges (fun u v w hm => hT.spanning u v (hreach1 (hedge u v w hm))))
  exact ⟨forest_optimal hF hT.acyclic.seq (hin hedge) (hin hT.edges) (by omega)
    (fun u v w hm => hbot u v w (hT.edges u v w hm)), by omega⟩

omit [AddCommGroup K] [LinearOrder K] [IsOrderedAddMonoid K] in
/-- In a nonempty graph a spanning forest has `n - 1` edges exactly when the graph is connected. -/
theorem SpanningForest.complete_iff {g : Graph V K} (hg : g.WF) (hs : g.Symm) (hn : 0 < g.numVertices)
    {F : List (Nat × Nat × K)} (hF : SpanningForest g F) :
    F.length = g.numVertices - 1 ↔ ∀ u v, u < g.numVertices → v < g.numVertices → Reach g u v := by
  have hin : InRange g.numVertices F := fun u v w hm => hg.adj_lt (hg.adj_iff_weight.2 ⟨w, hF.edges u v w hm⟩)
  have hcard := hF.acyclic.seq.card hin
  have hconn : ∀ u v, u < g.numVertices → Conn F u v → Reach g u v := by
    intro u v hu h
    have gen : ∀ {a b : Nat}, Conn F a b → Reach g a b ∨ a = b := by
      intro a b h
      induction h with
      | rel a b h =>
        obtain ⟨w, hw⟩ := h
        have ha := hg.adj_iff_weight.2 ⟨w, hF.edges a b w hw⟩
        exact Or.inl ⟨1, (Walk.nil (hg.adj_lt ha).1).snoc ha⟩
      | refl a => exact Or.inr rfl
      | symm _ _ _ ih =>
        rcases ih with ih | ih
        · exact Or.inl (ih.symm hg hs)
        · exact Or.inr ih.symm
      | trans _ _ _ _ _ ih1 ih2 =>
        rcases ih1 with ih1 | rfl
        · rcases ih2 with ih2 | rfl
          · exact Or.inl (ih1.trans ih2)
          · exact Or.inl ih1
        · exact ih2
    rcases gen h with h | rfl
    · exact h
    · exact ⟨0, .nil hu⟩
  constructor
  · intro hlen u v hu hv
    have hone : (leaders g.numVertices F).card ≤ 1 := by omega
    obtain ⟨la, hla, hca⟩ := exists_leader F hu
    obtain ⟨lb, hlb, hcb⟩ := exists_leader F hv
    have := Finset.card_le_one.1 hone la hla lb hlb
    subst this
    exact hconn u v hu (hca.trans hcb.symm)
  · intro h
    have hone : (leaders g.numVertices F).card ≤ 1 := by
      rw [Finset.card_le_one]
      intro a ha b hb
      exact leaders_unique ha hb (hF.spanning a b (h a b (mem_leaders.1 ha).1 (mem_leaders.1 hb).1))
    obtain ⟨l, hl, _⟩ := exists_leader F hn
    have := Finset.card_pos.2 ⟨l, hl⟩
    omega

omit [AddCommGroup K] [LinearOrder K] [IsOrderedAddMonoid K] in
theorem mem_kruskalEdges {g : Graph V K} (hg : g.WF) (hu : g.type = .undirected) (w : K) (u v : Nat) :
    (w, u, v) ∈ kruskalEdges g ↔ g.edgeWeight u v = .ret w ∧ u < v := by
  rw [hg.weight_iff]
  simp only [kruskalEdges, List.mem_flatMap, List.mem_range, List.mem_map, List.mem_filter, hu, reduceCtorEq,
    decide_false, Bool.false_or, decide_eq_true_eq, Prod.mk.injEq]
  constructor
  · rintro ⟨a, _, e, ⟨he, hlt⟩, rfl, rfl, rfl⟩; exact ⟨he, hlt⟩
  · rintro ⟨h, hlt⟩
    exact ⟨u, (hg.nbrs_lt h).1, _, ⟨h, hlt⟩, rfl, rfl, rfl⟩

/-- **C13.** `Kruskal` of an undirected graph returns.  Its edges form a spanning forest of the graph, its
total weight is the weight of these edges, no spanning forest is lighter, and `isComplete` tells whether the
graph is connected. -/
theorem kruskal_correct {g : Graph V K} (hg : g.WF) (hs : g.Symm) (hu : g.type = .undirected) :
    ∃ r, kruskal g = some (.ret r) ∧ SpanningForest g r.edges ∧ r.totalWeight = weightOf r.edges ∧
      (∀ T, SpanningForest g T → r.totalWeight ≤ weightOf T) ∧
      (r.isComplete = true ↔ ∀ u v, u < g.numVertices → v < g.numVertices → Reach g u v) := by
  unfold kruskal
  by_cases h0 : g.numVertices = 0
  · rw [if_pos h0]
    refine ⟨_, rfl, ⟨by simp, by intro i u v w h; simp at h, ?_⟩, by simp [weightOf], ?_, ?_⟩
    · rintro u v ⟨k, hk⟩
      have := (hg.walk_lt hk).1; omega
    · intro T hT
      have : T = [] := by
        rcases T with _ | ⟨⟨u, v, w⟩, T⟩
        · rfl
        · have := hg.adj_lt (hg.adj_iff_weight.2 ⟨w, hT.edges u v w (by simp)⟩)
          omega
      subst this; simp [weightOf]
    · simp only [true_iff]
      intro u v hu; omega
  rw [if_neg h0]
  have hperm : ((kruskalEdges g).insertionSort (fun a b => tripleLe a b = true)).Perm (kruskalEdges g) := List.perm_insertionSort _ _
  haveI : Std.Total (fun a b : K × Nat × Nat => tripleLe a b = true) := ⟨tripleLe_total⟩
  haveI : IsTrans (K × Nat × Nat) (fun a b => tripleLe a b = true) := ⟨tripleLe_trans⟩
  have hsorted := List.pairwise_insertionSort (fun a b : K × Nat × Nat => tripleLe a b = true) (kruskalEdges g)
  have hmem : ∀ w u v, (w, u, v) ∈ (kruskalEdges g).insertionSort (fun a b => tripleLe a b = true) ↔ g.edgeWeight u v = .ret w ∧ u < v := by
    intro w u v; rw [hperm.mem_iff, mem_kruskalEdges hg hu]
  have hrep0 : UFRep g.numVertices (UF.new g.numVertices) (Conn ([] : List (Nat × Nat × K))) := by
    have := ufRep_new g.numVertices
    have heq : Conn ([] : List (Nat × Nat × K)) = Generated (fun _ _ => False) := by
      unfold Conn; congr 1; funext a b; simp
    rw [heq]; exact this
  obtain ⟨F, h1, h2, h3, _, h5, h6⟩ := kruskalLoop_spec (n := g.numVertices)
    ((kruskalEdges g).insertionSort (fun a b => tripleLe a b = true)) (UF.new g.numVertices) [] 0
    (fun w u v h => hg.adj_lt (hg.adj_iff_weight.2 ⟨w, ((hmem w u v).1 h).1⟩))
    (hsorted.imp (fun h => tripleLe_fst h)) (by simp) hrep0
    (by intro A B u v w h; simp at h) (by intro u v w h; simp at h) (by simp [weightOf])
  rw [h1]
  have hedge : ∀ u v w, (u, v, w) ∈ F → g.edgeWeight u v = .ret w := by
    intro u v w h
    rcases h5 u v w h with h | h
    · simp at h
    · exact ((hmem w u v).1 h).1
  have hbot : ∀ u v w, g.edgeWeight u v = .ret w → Conn (F.filter (fun e => decide (e.2.2 ≤ w))) u v := by
    intro u v w h
    rcases Nat.lt_trichotomy u v with hlt | rfl | hlt
    · exact h6 w u v ((hmem w u v).2 ⟨h, hlt⟩)
    · exact .refl _ _
    · exact (h6 w v u ((hmem w v u).2 ⟨hs u v w h, hlt⟩)).symm
  obtain ⟨h7, h8⟩ := minimum_of_bottleneck hg h2 hedge hbot
  refine ⟨⟨F.length == g.numVertices - 1, F, weightOf F⟩, by simp, h7, rfl, fun T hT => (h8 T hT).1, ?_⟩
  rw [← h7.complete_iff hg hs (by omega)]
  simp

/-! ### Concrete instances -/

/-- A square with a diagonal, a pendant vertex and an isolated vertex. -/
def sampleWeighted : Graph Nat Int :=
  reached id .undirected true 6 [.addEdge 0 1 4, .addEdge 1 2 1, .addEdge 2 3 2, .addEdge 3 0 3,
    .addEdge 0 2 5, .addEdge 4 3 (-1), .addEdge 1 1 7]

example : sampleWeighted.WF ∧ sampleWeighted.Symm ∧ sampleWeighted.type = .undirected :=
  ⟨reached_wf _ _ _ _ _, reached_symm _ _ _ _, by decide⟩

example : kruskal sampleWeighted =
    some (.ret ⟨false, [(3, 4, -1), (1, 2, 1), (2, 3, 2), (0, 3, 3)], 5⟩) := by decide

end Verif.Graph
