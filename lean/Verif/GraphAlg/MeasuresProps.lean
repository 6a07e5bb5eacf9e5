import Verif.GraphAlg.Measures
import Verif.GraphAlg.TraverseProps
import Verif.GraphAlg.Components
import Mathlib.Tactic

/-!
# Property C150: density, degree and closeness centrality, clustering, diameter and average path length

Everything is stated through `hasEdge` (`Adj`) and walks (`Walk`, `Reach`).
-/

set_option autoImplicit false

namespace Verif.Graph.Measure

variable {V E : Type}

/-- `k` is the number of edges of a shortest walk from `v` to `u`. -/
def IsDist (g : Graph V E) (v u k : ℕ) : Prop := Walk g v u k ∧ ∀ k', Walk g v u k' → k ≤ k'

open Classical in
/-- The vertices `v` has an edge to. -/
noncomputable def nbrSet (g : Graph V E) (v : ℕ) : Finset ℕ :=
  (Finset.range g.numVertices).filter (fun u => Adj g v u)

open Classical in
/-- The other vertices that can be reached from `v`. -/
noncomputable def others (g : Graph V E) (v : ℕ) : Finset ℕ :=
  (Finset.range g.numVertices).filter (fun u => u ≠ v ∧ Reach g v u)

open Classical in
/-- The ordered pairs of distinct vertices, the second of which can be reached from the first. -/
noncomputable def reachPairs (g : Graph V E) : Finset (ℕ × ℕ) :=
  (Finset.range g.numVertices ×ˢ Finset.range g.numVertices).filter (fun p => p.1 ≠ p.2 ∧ Reach g p.1 p.2)

open Classical in
/-- The ordered pairs of distinct neighbours of `v` that are themselves joined by an edge. -/
noncomputable def closedPairs (g : Graph V E) (v : ℕ) : Finset (ℕ × ℕ) :=
  (nbrSet g v ×ˢ nbrSet g v).filter (fun p => p.1 ≠ p.2 ∧ Adj g p.1 p.2)

/-! ## Lemmas -/

theorem isDist_unique {g : Graph V E} {v u k l : ℕ} (h : IsDist g v u k) (h' : IsDist g v u l) : k = l :=
  le_antisymm (h.2 _ h'.1) (h'.2 _ h.1)

theorem reach_isDist {g : Graph V E} {v u : ℕ} : Reach g v u ↔ ∃ k, IsDist g v u k := by
  classical
  constructor
  · intro h
    exact ⟨Nat.find h, Nat.find_spec h, fun k' hk' => Nat.find_min' h hk'⟩
  · rintro ⟨k, h, _⟩
    exact ⟨k, h⟩

theorem dist_eq_some {g : Graph V E} (hg : g.WF) {v : ℕ} (hv : v < g.numVertices) (u k : ℕ) :
    dist g v u = some k ↔ IsDist g v u k := by
  obtain ⟨r, hr, _, _, _, _, _, hd, _⟩ := bfs_correct hg hv
  have : dist g v u = (r.distance[u]?).join := by rw [dist, hr]; rfl
  rw [this, Option.join_eq_some_iff]
  exact hd u k

theorem dist_isSome {g : Graph V E} (hg : g.WF) {v : ℕ} (hv : v < g.numVertices) (u : ℕ) :
    (dist g v u).isSome = true ↔ Reach g v u := by
  rw [Option.isSome_iff_exists, reach_isDist]
  exact exists_congr fun k => dist_eq_some hg hv u k

theorem dist_getD {g : Graph V E} (hg : g.WF) {v : ℕ} (hv : v < g.numVertices) {u k : ℕ}
    (h : IsDist g v u k) : (dist g v u).getD 0 = k := by
  rw [(dist_eq_some hg hv u k).2 h]; rfl

theorem foldl_addIf (p : ℕ → Bool) (f : ℕ → ℚ) (l : List ℕ) (hl : l.Nodup) (s : ℚ × ℕ) :
    l.foldl (addIf p f) s =
      (s.1 + ∑ u ∈ l.toFinset.filter (fun u => p u = true), f u,
       s.2 + (l.toFinset.filter (fun u => p u = true)).card) := by
  induction l generalizing s with
  | nil => simp
  | cons a l ih =>
    rw [List.nodup_cons] at hl
    rw [List.foldl_cons, ih hl.2, List.toFinset_cons, Finset.filter_insert]
    have hna : a ∉ l.toFinset.filter (fun u => p u = true) := by simp [hl.1]
    unfold addIf
    by_cases h : p a = true
    · rw [if_pos h, if_pos h, Finset.sum_insert hna, Finset.card_insert_of_notMem hna]
      ext
      · simp only; ring
      · simp only; omega
    · rw [if_neg h, if_neg h]

theorem nbrSet_eq {g : Graph V E} (hg : g.WF) (v : ℕ) :
    nbrSet g v = ((g.nbrs v).map Edge.to).toFinset := by
  classical
  ext u
  rw [nbrSet, Finset.mem_filter, Finset.mem_range, hg.adj_iff, List.mem_toFinset, List.mem_map]
  constructor
  · exact fun h => h.2
  · rintro ⟨e, he, rfl⟩
    exact ⟨(hg.nbrs_lt he).2, e, he, rfl⟩

theorem nbrSet_card {g : Graph V E} (hg : g.WF) (v : ℕ) : (nbrSet g v).card = (g.nbrs v).length := by
  rw [nbrSet_eq hg, List.toFinset_card_of_nodup (hg.nbrs_nodup v), List.length_map]

theorem walk_reverse {g : Graph V E} (hg : g.WF) (hs : g.Symm) {s v k : ℕ} (h : Walk g s v k) :
    Walk g v s k := by
  have cons : ∀ {a b c m : ℕ}, Adj g a b → Walk g b c m → Walk g a c (m + 1) := by
    intro a b c m hab hw
    induction hw with
    | nil _ => exact (Walk.nil (hg.adj_lt hab).1).snoc hab
    | snoc _ ha ih => exact ih.snoc ha
  induction h with
  | nil h => exact Walk.nil h
  | snoc _ ha ih => exact cons (adj_symm hg hs ha) ih

theorem isDist_symm {g : Graph V E} (hg : g.WF) (hs : g.Symm) {v u k : ℕ} (h : IsDist g v u k) :
    IsDist g u v k :=
  ⟨walk_reverse hg hs h.1, fun k' hk' => h.2 k' (walk_reverse hg hs hk')⟩

theorem isDist_pos {g : Graph V E} {v u k : ℕ} (h : IsDist g v u k) (hne : u ≠ v) : 1 ≤ k := by
  obtain ⟨h, -⟩ := h
  cases h with
  | nil _ => exact absurd rfl hne
  | snoc _ _ => omega

/-! ## Degree centrality and density -/

/-- **C150.** `DegreeCentrality` gives for every vertex the number of its neighbours divided by `n - 1` (0 for a
graph of at most one vertex), a number between 0 and 1 for a vertex without a self loop. -/
theorem degreeCentrality_spec {g : Graph V E} (hg : g.WF) :
    (degreeCentrality g).length = g.numVertices ∧
    (∀ v < g.numVertices, g.numVertices = 1 → (degreeCentrality g)[v]? = some 0) ∧
    (∀ v < g.numVertices, 1 < g.numVertices →
      (degreeCentrality g)[v]? = some ((nbrSet g v).card / ((g.numVertices : ℚ) - 1))) ∧
    (∀ v < g.numVertices, ¬ Adj g v v → ∀ x, (degreeCentrality g)[v]? = some x → 0 ≤ x ∧ x ≤ 1) := by
  have main : ∀ v < g.numVertices, 1 < g.numVertices →
      (degreeCentrality g)[v]? = some ((nbrSet g v).card / ((g.numVertices : ℚ) - 1)) := by
    intro v hv hn
    rw [degreeCentrality, if_neg (by omega), getElem?_range_map _ hv, nbrSet_card hg]
    push_cast [Nat.cast_sub (show 1 ≤ g.numVertices by omega)]
    rfl
  refine ⟨?_, ?_, main, ?_⟩
  · unfold degreeCentrality; split_ifs <;> simp
  · intro v hv hn
    rw [degreeCentrality, if_pos (by omega)]
    simp [hv]
  · intro v hv hself x hx
    by_cases hn : 1 < g.numVertices
    · rw [main v hv hn, Option.some.injEq] at hx
      have hle : (nbrSet g v).card ≤ g.numVertices - 1 := by
        classical
        have hsub : nbrSet g v ⊆ (Finset.range g.numVertices).erase v := by
          intro u hu
          rw [nbrSet, Finset.mem_filter] at hu
          refine Finset.mem_erase.2 ⟨?_, hu.1⟩
          rintro rfl
          exact hself hu.2
        have := Finset.card_le_card hsub
        rwa [Finset.card_erase_of_mem (Finset.mem_range.2 hv), Finset.card_range] at this
      have hle' : ((nbrSet g v).card : ℚ) ≤ (g.numVertices : ℚ) - 1 := by
        have : ((nbrSet g v).card : ℚ) ≤ ((g.numVertices - 1 : ℕ) : ℚ) := by exact_mod_cast hle
        rwa [Nat.cast_sub (by omega), Nat.cast_one] at this
      have hpos : (0 : ℚ) < (g.numVertices : ℚ) - 1 := by
        have : (1 : ℚ) < g.numVertices := by exact_mod_cast hn
        linarith
      rw [← hx]
      exact ⟨div_nonneg (by positivity) hpos.le, (div_le_one hpos).2 hle'⟩
    · rw [degreeCentrality, if_pos (by omega)] at hx
      simp only [List.getElem?_replicate, hv, if_true, Option.some.injEq] at hx
      rw [← hx]; norm_num

theorem card_lt_pairs (n : ℕ) :
    ((Finset.range n ×ˢ Finset.range n).filter (fun p : ℕ × ℕ => p.1 < p.2)).card = n * (n - 1) / 2 := by
  rw [Finset.card_filter, Finset.sum_product_right, ← Finset.sum_range_id]
  refine Finset.sum_congr rfl fun v hv => ?_
  rw [Finset.sum_boole]
  have : (Finset.range n).filter (fun u => u < v) = Finset.range v := by
    ext u
    rw [Finset.mem_filter, Finset.mem_range, Finset.mem_range]
    have := Finset.mem_range.1 hv
    omega
  simp only [this, Finset.card_range, Nat.cast_id]

theorem card_ne_pairs (n : ℕ) :
    ((Finset.range n ×ˢ Finset.range n).filter (fun p : ℕ × ℕ => p.1 ≠ p.2)).card = n * (n - 1) := by
  have := Finset.offDiag_card (Finset.range n)
  rw [Finset.card_range] at this
  rw [Nat.mul_sub, mul_one, ← this]
  congr 1
  ext ⟨a, b⟩
  simp [and_assoc]

/-- The pairs of distinct vertices an edge may join: unordered (smaller vertex first) in an undirected graph,
ordered in a directed one. -/
def possible (g : Graph V E) : Finset (ℕ × ℕ) :=
  (Finset.range g.numVertices ×ˢ Finset.range g.numVertices).filter
    (fun p => if g.type = .undirected then p.1 < p.2 else p.1 ≠ p.2)

open Classical in
/-- **C150.** For every graph built through the public interface without self loops, `GraphDensity` is the
fraction of the possible vertex pairs that are joined by an edge; it lies between 0 and 1. -/
theorem graphDensity_spec (cast : ℕ → V) (t : GType) (n : ℕ) (ops : List (Op V E)) :
    let g := reached cast t false n ops
    (g.numVertices ≤ 1 → graphDensity g = 0) ∧
    (1 < g.numVertices → graphDensity g =
      (((possible g).filter (fun p => Adj g p.1 p.2)).card : ℚ) / ((possible g).card : ℚ)) ∧
    0 ≤ graphDensity g ∧ graphDensity g ≤ 1 := by
  intro g
  have hself := (graph_wellformed cast t false n ops).2.2.2 rfl
  have hcount := numEdges_counts cast t false n ops
  have hmain : 1 < g.numVertices → graphDensity g =
      (((possible g).filter (fun p => Adj g p.1 p.2)).card : ℚ) / ((possible g).card : ℚ) := by
    intro hn
    rw [graphDensity, if_neg (by omega)]
    have hE : (g.numEdges : ℤ) = ((possible g).filter (fun p => Adj g p.1 p.2)).card := by
      refine hcount.trans ?_
      congr 2
      ext ⟨u, v⟩
      rw [Finset.mem_filter, Finset.mem_filter, possible, Finset.mem_filter, Finset.mem_product]
      simp only [Adj]
      by_cases hu : g.type = .undirected
      · simp only [hu, if_true, true_imp_iff]
        constructor
        · rintro ⟨h1, h2, h3⟩
          refine ⟨⟨h1, lt_of_le_of_ne (h2 hu) ?_⟩, h3⟩
          rintro rfl
          have := hself u
          rw [h3] at this
          simp at this
        · rintro ⟨⟨h1, h2⟩, h3⟩
          exact ⟨h1, fun _ => h2.le, h3⟩
      · simp only [hu, if_false, false_imp_iff, true_and]
        constructor
        · rintro ⟨h1, -, h3⟩
          refine ⟨⟨h1, ?_⟩, h3⟩
          rintro rfl
          have := hself u
          rw [h3] at this
          simp at this
        · rintro ⟨⟨h1, h2⟩, h3⟩
          exact ⟨h1, fun h => absurd h hu, h3⟩
    have hP : (if g.type = .undirected then g.numVertices * (g.numVertices - 1) / 2
        else g.numVertices * (g.numVertices - 1)) = (possible g).card := by
      unfold possible
      by_cases hu : g.type = .undirected
      · simp only [hu, if_true]; exact (card_lt_pairs _).symm
      · simp only [hu, if_false]; exact (card_ne_pairs _).symm
    simp only
    rw [hP, hE, Int.cast_natCast]
  refine ⟨fun h => by rw [graphDensity, if_pos h], hmain, ?_⟩
  by_cases hn : 1 < g.numVertices
  · rw [hmain hn]
    refine ⟨by positivity, ?_⟩
    refine div_le_one_of_le₀ ?_ (by positivity)
    exact_mod_cast Finset.card_le_card (Finset.filter_subset _ _)
  · rw [graphDensity, if_pos (by omega)]
    norm_num

/-! ## Closeness -/

/-- **C150.** `ClosenessCentrality` gives for every vertex the number of other vertices it can reach divided by
the sum of its shortest distances to them, and 0 when it can reach no other; the value lies between 0 and 1. -/
theorem closeness_spec {g : Graph V E} (hg : g.WF) (hop : ℕ → ℕ → ℕ)
    (hhop : ∀ v u, Reach g v u → IsDist g v u (hop v u)) :
    (closenessCentrality g).length = g.numVertices ∧
    ∀ v < g.numVertices, ∃ x, (closenessCentrality g)[v]? = some x ∧
      (others g v = ∅ → x = 0) ∧
      ((others g v).Nonempty → x = ((others g v).card : ℚ) / ∑ u ∈ others g v, (hop v u : ℚ)) ∧
      0 ≤ x ∧ x ≤ 1 := by
  classical
  refine ⟨by unfold closenessCentrality; split_ifs <;> simp, fun v hv => ?_⟩
  have hge : ((others g v).card : ℚ) ≤ ∑ u ∈ others g v, (hop v u : ℚ) := by
    rw [Finset.card_eq_sum_ones, Nat.cast_sum]
    refine Finset.sum_le_sum fun u hu => ?_
    rw [others, Finset.mem_filter] at hu
    have := isDist_pos (hhop v u hu.2.2) hu.2.1
    exact_mod_cast this
  by_cases hn : g.numVertices ≤ 1
  · have hempty : others g v = ∅ := by
      ext u
      simp only [others, Finset.mem_filter, Finset.mem_range, Finset.notMem_empty, iff_false]
      rintro ⟨h1, h2, _⟩
      omega
    refine ⟨0, ?_, fun _ => rfl, ?_, le_refl _, by norm_num⟩
    · rw [closenessCentrality, if_pos hn]; simp [hv]
    · rw [hempty]; simp
  · have hset : (List.range g.numVertices).toFinset.filter
        (fun u => (u != v && (dist g v u).isSome) = true) = others g v := by
      ext u
      simp only [others, Finset.mem_filter, List.mem_toFinset, List.mem_range, Finset.mem_range,
        Bool.and_eq_true, bne_iff_ne, dist_isSome hg hv]
    have hval : closenessAt g v = if 0 < (others g v).card ∧ 0 < ∑ u ∈ others g v, (hop v u : ℚ)
        then ((others g v).card : ℚ) / ∑ u ∈ others g v, (hop v u : ℚ) else 0 := by
      have hs : ∑ u ∈ others g v, (((dist g v u).getD 0 : ℕ) : ℚ) = ∑ u ∈ others g v, (hop v u : ℚ) := by
        refine Finset.sum_congr rfl fun u hu => ?_
        rw [others, Finset.mem_filter] at hu
        rw [dist_getD hg hv (hhop v u hu.2.2)]
      rw [closenessAt, foldl_addIf _ _ _ List.nodup_range, hset, hs]
      simp only [zero_add]
    refine ⟨closenessAt g v, ?_, ?_, ?_, ?_, ?_⟩
    · rw [closenessCentrality, if_neg hn, getElem?_range_map _ hv]
    · intro h; rw [hval, h]; simp
    · intro h
      have h1 : 0 < (others g v).card := Finset.card_pos.2 h
      have h2 : (0 : ℚ) < (others g v).card := by exact_mod_cast h1
      rw [hval, if_pos ⟨h1, lt_of_lt_of_le h2 hge⟩]
    · rw [hval]; split_ifs
      · positivity
      · exact le_refl _
    · rw [hval]; split_ifs with h
      · exact (div_le_one h.2).2 hge
      · norm_num

/-! ## Clustering -/

theorem adj_decide (g : Graph V E) (a b : ℕ) : decide (g.hasEdge a b = .ret true) = true ↔ Adj g a b := by
  rw [decide_eq_true_iff]; rfl

theorem triangles_le (g : Graph V E) (es : List (Edge E)) :
    2 * triangles g es ≤ es.length * (es.length - 1) := by
  induction es with
  | nil => simp [triangles]
  | cons e es ih =>
    have h := List.countP_le_length (p := fun e' : Edge E => decide (g.hasEdge e.to e'.to = .ret true)) (l := es)
    rw [triangles, List.length_cons, Nat.add_sub_cancel]
    rcases Nat.eq_zero_or_pos es.length with h0 | h0
    · rw [h0] at ih h ⊢; omega
    · obtain ⟨m, hm⟩ : ∃ m, es.length = m + 1 := ⟨es.length - 1, by omega⟩
      rw [hm] at ih h ⊢
      rw [Nat.add_sub_cancel] at ih
      nlinarith

open Classical in
theorem triangles_eq {g : Graph V E} (hg : g.WF) (hs : g.Symm) (es : List (Edge E))
    (hn : (es.map Edge.to).Nodup) :
    2 * triangles g es = (((es.map Edge.to).toFinset ×ˢ (es.map Edge.to).toFinset).filter
      (fun p => p.1 ≠ p.2 ∧ Adj g p.1 p.2)).card := by
  induction es with
  | nil => simp [triangles]
  | cons e es ih =>
    rw [List.map_cons, List.nodup_cons] at hn
    have hS : e.to ∉ (es.map Edge.to).toFinset := by simpa using hn.1
    have hc : es.countP (fun e' => decide (g.hasEdge e.to e'.to = .ret true)) =
        ((es.map Edge.to).toFinset.filter (fun u => Adj g e.to u)).card := by
      have h1 : es.countP (fun e' => decide (g.hasEdge e.to e'.to = .ret true)) =
          ((es.map Edge.to).filter (fun u => decide (Adj g e.to u))).length := by
        rw [List.filter_map, List.length_map, List.countP_eq_length_filter]
        congr 1
        refine List.filter_congr fun e' _ => ?_
        simp only [Function.comp, Adj]
        congr
      have h2 : (es.map Edge.to).toFinset.filter (fun u => Adj g e.to u) =
          ((es.map Edge.to).filter (fun u => decide (Adj g e.to u))).toFinset := by
        ext u; simp
      rw [h1, h2, List.toFinset_card_of_nodup (hn.2.filter _)]
    rw [triangles, hc, List.map_cons, List.toFinset_cons, mul_add, ih hn.2]
    generalize (es.map Edge.to).toFinset = S at hS
    have key : (insert e.to S ×ˢ insert e.to S).filter (fun p : ℕ × ℕ => p.1 ≠ p.2 ∧ Adj g p.1 p.2) =
        ((S ×ˢ S).filter (fun p : ℕ × ℕ => p.1 ≠ p.2 ∧ Adj g p.1 p.2)) ∪
          ((S.filter (fun u => Adj g e.to u)).image (fun u => (e.to, u)) ∪
           (S.filter (fun u => Adj g e.to u)).image (fun u => (u, e.to))) := by
      ext ⟨a, b⟩
      simp only [Finset.mem_filter, Finset.mem_product, Finset.mem_insert, Finset.mem_union,
        Finset.mem_image, Prod.mk.injEq]
      constructor
      · rintro ⟨⟨rfl | ha, rfl | hb⟩, hne, hadj⟩
        · exact absurd rfl hne
        · exact Or.inr (Or.inl ⟨b, ⟨hb, hadj⟩, rfl, rfl⟩)
        · exact Or.inr (Or.inr ⟨a, ⟨ha, adj_symm hg hs hadj⟩, rfl, rfl⟩)
        · exact Or.inl ⟨⟨ha, hb⟩, hne, hadj⟩
      · rintro (⟨⟨ha, hb⟩, hne, hadj⟩ | ⟨u, ⟨hu, hadj⟩, rfl, rfl⟩ | ⟨u, ⟨hu, hadj⟩, rfl, rfl⟩)
        · exact ⟨⟨Or.inr ha, Or.inr hb⟩, hne, hadj⟩
        · exact ⟨⟨Or.inl rfl, Or.inr hu⟩, fun h => hS (h ▸ hu), hadj⟩
        · exact ⟨⟨Or.inr hu, Or.inl rfl⟩, fun h => hS (h ▸ hu), adj_symm hg hs hadj⟩
    rw [key, Finset.card_union_of_disjoint, Finset.card_union_of_disjoint,
      Finset.card_image_of_injective, Finset.card_image_of_injective]
    · omega
    · intro a b h; exact (Prod.mk.inj h).1
    · intro a b h; exact (Prod.mk.inj h).2
    · rw [Finset.disjoint_left]
      rintro ⟨a, b⟩ h1 h2
      simp only [Finset.mem_image, Finset.mem_filter, Prod.mk.injEq] at h1 h2
      obtain ⟨u, ⟨hu, _⟩, rfl, rfl⟩ := h1
      obtain ⟨w, ⟨hw, _⟩, rfl, rfl⟩ := h2
      exact hS hu
    · rw [Finset.disjoint_left]
      rintro ⟨a, b⟩ h1 h2
      simp only [Finset.mem_union, Finset.mem_image, Finset.mem_filter, Finset.mem_product,
        Prod.mk.injEq] at h1 h2
      rcases h2 with ⟨u, _, rfl, rfl⟩ | ⟨u, _, rfl, rfl⟩
      · exact hS h1.1.1
      · exact hS h1.1.2

theorem localCC_bounds (g : Graph V E) (v : ℕ) : 0 ≤ localCC g v ∧ localCC g v ≤ 1 := by
  have h := triangles_le g (g.nbrs v)
  unfold localCC
  refine ⟨by positivity, div_le_one_of_le₀ ?_ (by positivity)⟩
  have : (2 : ℚ) * triangles g (g.nbrs v) ≤ (((g.nbrs v).length * ((g.nbrs v).length - 1) : ℕ) : ℚ) := by
    exact_mod_cast h
  linarith

open Classical in
/-- The vertices with at least two neighbours. -/
noncomputable def branching (g : Graph V E) : Finset ℕ :=
  (Finset.range g.numVertices).filter (fun v => 2 ≤ (nbrSet g v).card)

theorem averageClustering_eq {g : Graph V E} (hg : g.WF) :
    averageClustering g = if 0 < (branching g).card then
      (∑ v ∈ branching g, localCC g v) / ((branching g).card : ℚ) else 0 := by
  classical
  have hset : (List.range g.numVertices).toFinset.filter
      (fun v => decide (2 ≤ (g.nbrs v).length) = true) = branching g := by
    ext v
    simp only [branching, Finset.mem_filter, List.mem_toFinset, List.mem_range, Finset.mem_range,
      decide_eq_true_eq, nbrSet_card hg]
  unfold averageClustering
  by_cases h0 : g.numVertices = 0
  · rw [if_pos h0]
    have : branching g = ∅ := by simp [branching, h0]
    simp [this]
  · rw [if_neg h0, foldl_addIf _ _ _ List.nodup_range, hset]
    simp only [zero_add]

/-- **C150.** For every graph `AverageClusteringCoefficient` lies between 0 and 1. -/
theorem averageClustering_bounds {g : Graph V E} (hg : g.WF) :
    0 ≤ averageClustering g ∧ averageClustering g ≤ 1 := by
  rw [averageClustering_eq hg]
  split_ifs with h
  · have hc : (0 : ℚ) < (branching g).card := by exact_mod_cast h
    refine ⟨div_nonneg (Finset.sum_nonneg fun v _ => (localCC_bounds g v).1) hc.le, ?_⟩
    rw [div_le_one hc]
    calc ∑ v ∈ branching g, localCC g v ≤ ∑ _v ∈ branching g, (1 : ℚ) :=
          Finset.sum_le_sum fun v _ => (localCC_bounds g v).2
      _ = _ := by simp
  · norm_num

/-- **C150 (undirected graphs).** In an undirected graph `AverageClusteringCoefficient` is the average, over
the vertices with `k ≥ 2` neighbours, of the fraction of the `k (k - 1)` ordered pairs of distinct neighbours
that are joined by an edge; it is 0 if there is no such vertex.  The claim for directed graphs is false, see
`averageClustering_order`. -/
theorem averageClustering_partial {g : Graph V E} (hg : g.WF) (hs : g.Symm) :
    (branching g = ∅ → averageClustering g = 0) ∧
    ((branching g).Nonempty → averageClustering g =
      (∑ v ∈ branching g, ((closedPairs g v).card : ℚ) /
        (((nbrSet g v).card : ℚ) * ((nbrSet g v).card - 1))) / ((branching g).card : ℚ)) := by
  classical
  rw [averageClustering_eq hg]
  refine ⟨fun h => by simp [h], fun h => ?_⟩
  rw [if_pos (Finset.card_pos.2 h)]
  congr 1
  refine Finset.sum_congr rfl fun v hv => ?_
  rw [branching, Finset.mem_filter, nbrSet_card hg] at hv
  have ht := triangles_eq hg hs (g.nbrs v) (hg.nbrs_nodup v)
  have hcp : (closedPairs g v).card = 2 * triangles g (g.nbrs v) := by
    rw [ht, closedPairs, nbrSet_eq hg]
  rw [hcp, nbrSet_card hg, localCC]
  push_cast [Nat.cast_sub (show 1 ≤ (g.nbrs v).length by omega)]
  rw [div_div_eq_mul_div, mul_comm]

/-- Two directed graphs with the same edges, `0 → 1`, `0 → 2`, `1 → 2`, added in a different order. -/
def tri1 : Graph Nat Int := reached id .directed false 3 [.addEdge 0 1 1, .addEdge 0 2 1, .addEdge 1 2 1]
/-- See `tri1`. -/
def tri2 : Graph Nat Int := reached id .directed false 3 [.addEdge 0 2 1, .addEdge 0 1 1, .addEdge 1 2 1]

/-- **C150 (disagreement).** In directed graphs the coefficient depends on the order in which the edges were
added: two graphs with the same vertices and the same edges have coefficients 1 and 0. -/
theorem averageClustering_order :
    tri1.numVertices = tri2.numVertices ∧ (∀ u v, Adj tri1 u v ↔ Adj tri2 u v) ∧
      averageClustering tri1 = 1 ∧ averageClustering tri2 = 0 := by
  refine ⟨by decide, ?_, by decide +kernel, by decide +kernel⟩
  intro u v
  have h1 : tri1.WF := reached_wf _ _ _ _ _
  have h2 : tri2.WF := reached_wf _ _ _ _ _
  have key : ∀ u < 3, ∀ v < 3, (Adj tri1 u v ↔ Adj tri2 u v) := by unfold Adj; decide
  constructor
  · intro h
    exact (key u (h1.adj_lt h).1 v (h1.adj_lt h).2).1 h
  · intro h
    exact (key u (h2.adj_lt h).1 v (h2.adj_lt h).2).2 h

/-! ## Diameter -/

theorem foldl_diam (g : Graph V E) (v : ℕ) (l : List ℕ) (d : WithTop ℕ) :
    (∀ u ∈ l, distT g v u ≤ l.foldl (diamStep g v) d) ∧ d ≤ l.foldl (diamStep g v) d ∧
      (l.foldl (diamStep g v) d = d ∨ ∃ u ∈ l, l.foldl (diamStep g v) d = distT g v u) := by
  induction l generalizing d with
  | nil => simp
  | cons a l ih =>
    obtain ⟨h1, h2, h3⟩ := ih (diamStep g v d a)
    rw [List.foldl_cons]
    have ha : distT g v a ≤ diamStep g v d a ∧ d ≤ diamStep g v d a := by
      unfold diamStep
      split_ifs with h
      · exact ⟨le_refl _, le_of_lt h⟩
      · exact ⟨not_lt.1 h, le_refl _⟩
    refine ⟨?_, ha.2.trans h2, ?_⟩
    · intro u hu
      rcases List.mem_cons.1 hu with rfl | hu
      · exact ha.1.trans h2
      · exact h1 u hu
    · rcases h3 with h3 | ⟨u, hu, h3⟩
      · rw [h3]
        unfold diamStep
        split_ifs with h
        · exact Or.inr ⟨a, by simp, rfl⟩
        · exact Or.inl rfl
      · exact Or.inr ⟨u, List.mem_cons_of_mem _ hu, h3⟩

theorem foldl_diam2 (g : Graph V E) (m : ℕ) (l : List ℕ) (d : WithTop ℕ) :
    let r := l.foldl (fun diameter v => (List.range m).foldl (diamStep g v) diameter) d
    (∀ v ∈ l, ∀ u < m, distT g v u ≤ r) ∧ d ≤ r ∧ (r = d ∨ ∃ v ∈ l, ∃ u < m, r = distT g v u) := by
  induction l generalizing d with
  | nil => simp
  | cons a l ih =>
    intro r
    obtain ⟨h1, h2, h3⟩ := ih ((List.range m).foldl (diamStep g a) d)
    obtain ⟨k1, k2, k3⟩ := foldl_diam g a (List.range m) d
    refine ⟨?_, k2.trans h2, ?_⟩
    · intro v hv u hu
      rcases List.mem_cons.1 hv with rfl | hv
      · exact (k1 u (List.mem_range.2 hu)).trans h2
      · exact h1 v hv u hu
    · rcases h3 with h3 | ⟨v, hv, u, hu, h3⟩
      · rcases k3 with k3 | ⟨u, hu, k3⟩
        · exact Or.inl (h3.trans k3)
        · exact Or.inr ⟨a, by simp, u, List.mem_range.1 hu, h3.trans k3⟩
      · exact Or.inr ⟨v, List.mem_cons_of_mem _ hv, u, hu, h3⟩

theorem distT_coe {g : Graph V E} (hg : g.WF) {v : ℕ} (hv : v < g.numVertices) (u k : ℕ) :
    distT g v u = (k : WithTop ℕ) ↔ IsDist g v u k := by
  rw [← dist_eq_some hg hv, distT]
  cases dist g v u with
  | none => simp
  | some l => simp only [Option.some.injEq]; exact WithTop.coe_eq_coe

theorem distT_top {g : Graph V E} (hg : g.WF) {v : ℕ} (hv : v < g.numVertices) (u : ℕ) :
    distT g v u = ⊤ ↔ ¬ Reach g v u := by
  rw [← dist_isSome hg hv, distT]
  cases dist g v u with
  | none => simp
  | some l => simp

/-- **C150.** `GraphDiameter` is infinite exactly when some vertex cannot be reached from some other; it is the
number `D` exactly when every vertex can be reached from every other within `D` edges and some shortest
distance is `D` (an empty graph has diameter 0). -/
theorem graphDiameter_spec {g : Graph V E} (hg : g.WF) :
    (graphDiameter g = ⊤ ↔ ∃ v < g.numVertices, ∃ u < g.numVertices, ¬ Reach g v u) ∧
    ∀ D : ℕ, 0 < g.numVertices → (graphDiameter g = (D : WithTop ℕ) ↔
      (∀ v < g.numVertices, ∀ u < g.numVertices, ∃ k ≤ D, IsDist g v u k) ∧
        ∃ v < g.numVertices, ∃ u < g.numVertices, IsDist g v u D) := by
  have self : ∀ v < g.numVertices, IsDist g v v 0 := fun v hv => ⟨Walk.nil hv, fun _ _ => Nat.zero_le _⟩
  -- the diameter bounds every distance and is one of them (or 0)
  have main : (∀ v < g.numVertices, ∀ u < g.numVertices, distT g v u ≤ graphDiameter g) ∧
      (graphDiameter g = 0 ∨ ∃ v < g.numVertices, ∃ u < g.numVertices, graphDiameter g = distT g v u) := by
    by_cases hn : g.numVertices ≤ 1
    · have he : graphDiameter g = 0 := by rw [graphDiameter, if_pos hn]
      refine ⟨fun v hv u hu => ?_, Or.inl he⟩
      obtain rfl : u = v := by omega
      rw [(distT_coe hg hv u 0).2 (self u hu), he]
      exact le_refl _
    · have he : graphDiameter g = (List.range g.numVertices).foldl
          (fun diameter v => (List.range g.numVertices).foldl (diamStep g v) diameter) 0 := by
        rw [graphDiameter, if_neg hn]
      obtain ⟨h1, _, h3⟩ := foldl_diam2 g g.numVertices (List.range g.numVertices) 0
      rw [he]
      refine ⟨fun v hv u hu => h1 v (List.mem_range.2 hv) u hu, h3.imp id ?_⟩
      rintro ⟨v, hv, h⟩
      exact ⟨v, List.mem_range.1 hv, h⟩
  obtain ⟨hub, hatt⟩ := main
  constructor
  · constructor
    · intro ht
      rcases hatt with h | ⟨v, hv, u, hu, h⟩
      · rw [ht] at h; exact absurd h (by simp)
      · exact ⟨v, hv, u, hu, (distT_top hg hv u).1 (h ▸ ht)⟩
    · rintro ⟨v, hv, u, hu, h⟩
      have := hub v hv u hu
      rw [(distT_top hg hv u).2 h] at this
      exact top_le_iff.1 this
  · intro D hpos
    constructor
    · intro hD
      constructor
      · intro v hv u hu
        have h := hub v hv u hu
        rw [hD] at h
        have hne : distT g v u ≠ ⊤ := fun ht => by rw [ht] at h; exact absurd h (by simp)
        have hr : Reach g v u := not_not.1 (fun hr => hne ((distT_top hg hv u).2 hr))
        obtain ⟨k, hk⟩ := reach_isDist.1 hr
        rw [(distT_coe hg hv u k).2 hk] at h
        exact ⟨k, by exact_mod_cast h, hk⟩
      · rcases hatt with h | ⟨v, hv, u, hu, h⟩
        · rw [hD] at h
          have : D = 0 := by exact_mod_cast h
          subst this
          exact ⟨0, hpos, 0, hpos, self 0 hpos⟩
        · exact ⟨v, hv, u, hu, (distT_coe hg hv u D).1 (h.symm.trans hD)⟩
    · rintro ⟨hall, v, hv, u, hu, hd⟩
      refine le_antisymm ?_ ?_
      · rcases hatt with h | ⟨a, ha, b, hb, h⟩
        · rw [h]; exact bot_le
        · obtain ⟨k, hk, hkd⟩ := hall a ha b hb
          rw [h, (distT_coe hg ha b k).2 hkd]
          exact_mod_cast hk
      · rw [← (distT_coe hg hv u D).2 hd]
        exact hub v hv u hu

/-! ## Average path length -/

theorem foldl_pair (A : ℕ → ℚ) (B : ℕ → ℕ) (F : ℚ × ℕ → ℕ → ℚ × ℕ)
    (n : ℕ) (hF : ∀ s v, v < n → F s v = (s.1 + A v, s.2 + B v)) (m : ℕ) (hm : m ≤ n) :
    (List.range m).foldl F (0, 0) = (∑ v ∈ Finset.range m, A v, ∑ v ∈ Finset.range m, B v) := by
  induction m with
  | zero => simp
  | succ m ih =>
    rw [List.range_succ, List.foldl_append, ih (by omega), List.foldl_cons, List.foldl_nil,
      hF _ _ (by omega), Finset.sum_range_succ, Finset.sum_range_succ]

theorem sum_symm_pairs {M : Type} [AddCommMonoid M] (n : ℕ) (F : ℕ → ℕ → M) (hF : ∀ a b, F a b = F b a) :
    ∑ p ∈ (Finset.range n ×ˢ Finset.range n).filter (fun p : ℕ × ℕ => p.1 ≠ p.2), F p.1 p.2 =
      2 • ∑ v ∈ Finset.range n, ∑ u ∈ (Finset.range n).filter (fun u => v < u), F v u := by
  have h1 : ∀ v u : ℕ, (if v ≠ u then F v u else 0) =
      (if v < u then F v u else 0) + (if u < v then F u v else 0) := by
    intro v u
    rcases lt_trichotomy v u with h | h | h
    · simp [h, h.ne, h.not_gt]
    · simp [h]
    · simp [h, h.ne', h.not_gt, hF v u]
  rw [Finset.sum_filter, Finset.sum_product]
  simp only [h1, Finset.sum_add_distrib]
  rw [two_nsmul]
  congr 1
  · simp only [Finset.sum_filter]
  · rw [Finset.sum_comm]
    simp only [Finset.sum_filter]

/-- **C150 (undirected graphs).** In an undirected graph `AveragePathLength` is the average shortest distance over
all ordered pairs of distinct vertices the second of which can be reached from the first, and 0 when there
is no such pair.  The claim for directed graphs is false, see `averagePathLength_directed`. -/
theorem averagePathLength_partial {g : Graph V E} (hg : g.WF) (hs : g.Symm) (hop : ℕ → ℕ → ℕ)
    (hhop : ∀ v u, Reach g v u → IsDist g v u (hop v u)) :
    (reachPairs g = ∅ → averagePathLength g = 0) ∧
    ((reachPairs g).Nonempty → averagePathLength g =
      (∑ p ∈ reachPairs g, (hop p.1 p.2 : ℚ)) / ((reachPairs g).card : ℚ)) := by
  classical
  have hsymR : ∀ a b, Reach g a b ↔ Reach g b a := fun a b => ⟨Reach.symm hg hs, Reach.symm hg hs⟩
  have hsymH : ∀ a b, Reach g a b → hop a b = hop b a := fun a b h =>
    isDist_unique (hhop a b h) (isDist_symm hg hs (hhop b a ((hsymR a b).1 h)))
  set n := g.numVertices with hN
  have hsplit : reachPairs g = ((Finset.range n ×ˢ Finset.range n).filter
      (fun p : ℕ × ℕ => p.1 ≠ p.2)).filter (fun p => Reach g p.1 p.2) := by
    rw [Finset.filter_filter]; rfl
  set T : ℚ := ∑ v ∈ Finset.range n, ∑ u ∈ (Finset.range n).filter (fun u => v < u),
    (if Reach g v u then (hop v u : ℚ) else 0) with hT
  set C : ℕ := ∑ v ∈ Finset.range n, ∑ u ∈ (Finset.range n).filter (fun u => v < u),
    (if Reach g v u then 1 else 0) with hC
  have hsum : ∑ p ∈ reachPairs g, (hop p.1 p.2 : ℚ) = 2 * T := by
    rw [hsplit, Finset.sum_filter, sum_symm_pairs n (fun a b => if Reach g a b then (hop a b : ℚ) else 0),
      two_nsmul, two_mul]
    intro a b
    by_cases h : Reach g a b
    · rw [if_pos h, if_pos ((hsymR a b).1 h), hsymH a b h]
    · rw [if_neg h, if_neg (fun h' => h ((hsymR a b).2 h'))]
  have hcard : (reachPairs g).card = 2 * C := by
    rw [hsplit, Finset.card_filter, sum_symm_pairs n (fun a b => if Reach g a b then 1 else 0),
      two_nsmul, two_mul]
    intro a b
    by_cases h : Reach g a b
    · rw [if_pos h, if_pos ((hsymR a b).1 h)]
    · rw [if_neg h, if_neg (fun h' => h ((hsymR a b).2 h'))]
  have hval : averagePathLength g = if 0 < C then T / (C : ℚ) else 0 := by
    unfold averagePathLength
    by_cases hn : g.numVertices ≤ 1
    · rw [if_pos hn]
      have : C = 0 := by
        rw [hC]
        refine Finset.sum_eq_zero fun v hv => Finset.sum_eq_zero fun u hu => ?_
        rw [Finset.mem_filter, Finset.mem_range] at hu
        have := Finset.mem_range.1 hv
        omega
      simp [this]
    · rw [if_neg hn, foldl_pair (fun v => ∑ u ∈ (Finset.range n).filter (fun u => v < u),
        (if Reach g v u then (hop v u : ℚ) else 0))
        (fun v => ∑ u ∈ (Finset.range n).filter (fun u => v < u), (if Reach g v u then 1 else 0))
        _ g.numVertices _ g.numVertices (le_refl _)]
      intro s v hv
      have hset : (List.range' (v + 1) (g.numVertices - (v + 1))).toFinset.filter
          (fun u => (dist g v u).isSome = true) =
          ((Finset.range n).filter (fun u => v < u)).filter (fun u => Reach g v u) := by
        ext u
        simp only [Finset.mem_filter, List.mem_toFinset, List.mem_range'_1, Finset.mem_range,
          dist_isSome hg hv]
        constructor
        · rintro ⟨h, hr⟩; exact ⟨⟨by omega, by omega⟩, hr⟩
        · rintro ⟨h, hr⟩; exact ⟨⟨by omega, by omega⟩, hr⟩
      have hA : ∑ u ∈ ((Finset.range n).filter (fun u => v < u)).filter (fun u => Reach g v u),
          (((dist g v u).getD 0 : ℕ) : ℚ) = ∑ u ∈ (Finset.range n).filter (fun u => v < u),
            (if Reach g v u then (hop v u : ℚ) else 0) := by
        rw [← Finset.sum_filter (p := fun u => Reach g v u)]
        refine Finset.sum_congr rfl fun u hu => ?_
        rw [Finset.mem_filter] at hu
        rw [dist_getD hg hv (hhop v u hu.2)]
      rw [foldl_addIf _ _ _ List.nodup_range', hset, Finset.card_filter, hA]
  constructor
  · intro h
    have : C = 0 := by rw [h] at hcard; simpa using hcard.symm
    rw [hval, this]; simp
  · intro h
    have hpos : 0 < C := by
      have := Finset.card_pos.2 h
      omega
    rw [hval, if_pos hpos, hsum, hcard]
    push_cast
    rw [mul_div_mul_left _ _ (two_ne_zero)]

/-- The directed path `2 → 1 → 0`. -/
def backPath : Graph Nat Int := reached id .directed false 3 [.addEdge 2 1 1, .addEdge 1 0 1]

/-- **C150 (disagreement).** In a directed graph only paths from a smaller to a larger vertex number are
counted: for the path `2 → 1 → 0`, which has three shortest paths of positive length, the result is 0. -/
theorem averagePathLength_directed :
    averagePathLength backPath = 0 ∧ IsDist backPath 2 1 1 ∧ IsDist backPath 1 0 1 ∧ IsDist backPath 2 0 2 := by
  have hw : backPath.WF := reached_wf _ _ _ _ _
  refine ⟨by decide +kernel, ?_, ?_, ?_⟩
  · exact (dist_eq_some hw (by decide) 1 1).1 (by decide)
  · exact (dist_eq_some hw (by decide) 0 1).1 (by decide)
  · exact (dist_eq_some hw (by decide) 0 2).1 (by decide)

/-! ## Non-vacuity -/

/-- A shortest-distance function exists for every graph. -/
example (g : Graph V E) : ∃ hop : ℕ → ℕ → ℕ, ∀ v u, Reach g v u → IsDist g v u (hop v u) := by
  classical
  exact ⟨fun v u => if h : ∃ k, IsDist g v u k then h.choose else 0, fun v u h => by
    rw [reach_isDist] at h
    simp only [dif_pos h]
    exact h.choose_spec⟩

example : sampleUndirected.WF ∧ sampleUndirected.Symm ∧ averagePathLength sampleUndirected = 5 / 4 ∧
    graphDiameter sampleUndirected = ⊤ ∧ graphDensity sampleUndirected = 3 / 10 :=
  ⟨reached_wf _ _ _ _ _, reached_symm _ _ _ _, by decide +kernel, by decide +kernel, by decide +kernel⟩

/-- A triangle `0 - 1 - 2` with a tail `2 - 3`. -/
def kite : Graph Nat Int :=
  reached id .undirected false 4 [.addEdge 0 1 1, .addEdge 1 2 1, .addEdge 2 0 1, .addEdge 2 3 1]

example : kite.WF ∧ kite.Symm ∧ averageClustering kite = 7 / 9 ∧ graphDiameter kite = 2 ∧
    closenessCentrality kite = [3 / 4, 3 / 4, 1, 3 / 5] ∧ degreeCentrality kite = [2 / 3, 2 / 3, 1, 1 / 3] :=
  ⟨reached_wf _ _ _ _ _, reached_symm _ _ _ _, by decide +kernel, by decide +kernel, by decide +kernel,
    by decide +kernel⟩

end Verif.Graph.Measure
