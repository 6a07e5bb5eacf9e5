import Verif.GraphAlg.KruskalProps
import Mathlib.Algebra.BigOperators.Group.Finset.Basic
import Mathlib.Algebra.Order.BigOperators.Group.Finset

/-!
# Property C14: Prim's algorithm
-/

set_option autoImplicit false

namespace Verif.Graph

variable {V K : Type} [AddCommGroup K] [LinearOrder K] [IsOrderedAddMonoid K]

/-- `x` has an edge of weight at most `t` that leaves the tree. -/
def Leaves (g : Graph V K) (s : PrimState K) (t : K) (x : Nat) : Prop :=
  ∃ y w, g.edgeWeight x y = .ret w ∧ s.inMST y = false ∧ w ≤ t

/-- The vertices of the tree. -/
def PrimState.verts (g : Graph V K) (s : PrimState K) : Finset Nat :=
  (Finset.range g.numVertices).filter (fun v => s.inMST v = true)

/-- Invariant of the loop of `Prim`. -/
structure PrimInv (g : Graph V K) (start : Nat) (s : PrimState K) : Prop where
  root : s.inMST start = true
  lt : ∀ v, s.inMST v = true → v < g.numVertices
  pqEdge : ∀ w u v, (w, u, v) ∈ s.pq → g.edgeWeight u v = .ret w ∧ s.inMST u = true
  pqCross : ∀ x y w, g.edgeWeight x y = .ret w → s.inMST x = true → s.inMST y = false → (w, x, y) ∈ s.pq
  edges : ∀ u v w, (u, v, w) ∈ s.edges → g.edgeWeight u v = .ret w ∧ s.inMST u = true ∧ s.inMST v = true
  acyc : SeqAcyclic s.edges
  conn : ∀ v, s.inMST v = true → Conn s.edges start v
  light : ∀ t x y, s.inMST x = true → s.inMST y = true → Leaves g s t x → Leaves g s t y →
    Conn (s.edges.filter (fun e => decide (e.2.2 ≤ t))) x y
  bot : ∀ x y w, g.edgeWeight x y = .ret w → s.inMST x = true → s.inMST y = true →
    Conn (s.edges.filter (fun e => decide (e.2.2 ≤ w))) x y
  added : s.edgesAdded = s.edges.length
  total : s.total = weightOf s.edges
  count : s.edges.length + 1 = (s.verts g).card

theorem mem_foldl_cons {α β : Type} (f : α → β) (l : List α) (q : List β) (x : β) :
    x ∈ l.foldl (fun q e => f e :: q) q ↔ x ∈ q ∨ ∃ e ∈ l, f e = x := by
  induction l generalizing q with
  | nil => simp
  | cons a l ih =>
    rw [List.foldl_cons, ih]
    simp only [List.mem_cons]
    constructor
    · rintro ((rfl | h) | ⟨e, he, rfl⟩)
      · exact Or.inr ⟨a, Or.inl rfl, rfl⟩
      · exact Or.inl h
      · exact Or.inr ⟨e, Or.inr he, rfl⟩
    · rintro (h | ⟨e, rfl | he, rfl⟩)
      · exact Or.inl (Or.inr h)
      · exact Or.inl (Or.inl rfl)
      · exact Or.inr ⟨e, he, rfl⟩

theorem length_foldl_cons {α β : Type} (f : α → β) (l : List α) (q : List β) :
    (l.foldl (fun q e => f e :: q) q).length = q.length + l.length := by
  induction l generalizing q with
  | nil => simp
  | cons a l ih => rw [List.foldl_cons, ih]; simp; omega

omit [IsOrderedAddMonoid K] in
theorem primInv_init {g : Graph V K} (hg : g.WF) {start : Nat} (h : start < g.numVertices) :
    PrimInv g start (primInit g start) := by
  have hin : ∀ v, (primInit g start).inMST v = true ↔ v = start := by
    intro v
    by_cases hv : v = start
    · subst hv; simp [primInit]
    · simp [primInit, Function.update_of_ne hv, hv]
  have hpq : ∀ w u v, (w, u, v) ∈ (primInit g start).pq ↔ u = start ∧ g.edgeWeight u v = .ret w := by
    intro w u v
    simp only [primInit, mem_foldl_cons]
    constructor
    · rintro (h | ⟨e, he, heq⟩)
      · simp at h
      · cases heq; exact ⟨rfl, hg.weight_iff.2 he⟩
    · rintro ⟨rfl, hw⟩
      exact Or.inr ⟨_, hg.weight_iff.1 hw, rfl⟩
  constructor
  · exact (hin start).2 rfl
  · intro v hv; rw [(hin v).1 hv]; exact h
  · intro w u v hm; obtain ⟨rfl, h2⟩ := (hpq w u v).1 hm; exact ⟨h2, (hin u).2 rfl⟩
  · intro x y w he hx _; exact (hpq w x y).2 ⟨(hin x).1 hx, he⟩
  · intro u v w hm; simp [primInit] at hm
  · intro A B u v w hm; simp [primInit] at hm
  · intro v hv; rw [(hin v).1 hv]; exact .refl _ _
  · intro t x y hx hy _ _; rw [(hin x).1 hx, (hin y).1 hy]; exact .refl _ _
  · intro x y w _ hx hy; rw [(hin x).1 hx, (hin y).1 hy]; exact .refl _ _
  · simp [primInit]
  · simp [primInit, weightOf]
  · have : (primInit g start).verts g = {start} := by
      ext v
      simp only [PrimState.verts, Finset.mem_filter, Finset.mem_range, hin, Finset.mem_singleton]
      exact ⟨fun h => h.2, by rintro rfl; exact ⟨h, rfl⟩⟩
    rw [this]; simp [primInit]

/-- Number of entries that may still be popped. -/
def primMeasure (g : Graph V K) (s : PrimState K) : Nat :=
  s.pq.length + ∑ v ∈ Finset.range g.numVertices \ s.verts g, (g.nbrs v).length

omit [AddCommGroup K] [LinearOrder K] [IsOrderedAddMonoid K] in
theorem verts_update {g : Graph V K} (s s' : PrimState K) {v : Nat} (hv : v < g.numVertices)
    (hs : s'.inMST = Function.update s.inMST v true) : s'.verts g = insert v (s.verts g) := by
  ext x
  simp only [PrimState.verts, Finset.mem_filter, Finset.mem_range, Finset.mem_insert, hs]
  by_cases hx : x = v
  · subst hx; simp [hv]
  · simp [Function.update_of_ne hx, hx]

omit [IsOrderedAddMonoid K] in
theorem primInv_step {g : Graph V K} (hg : g.WF) (hsym : g.Symm) {start : Nat} {s s' : PrimState K}
    (hI : PrimInv g start s) (hs : primStep g s = some s') :
    PrimInv g start s' ∧ primMeasure g s' < primMeasure g s := by
  unfold primStep at hs
  split at hs
  swap
  · cases hs
  next hcond =>
  split at hs
  · cases hs
  next w u v rest hpop =>
  have hperm := popMin_perm _ _ hpop
  have hmin := popMin_le _ tripleLe_total tripleLe_trans _ hpop
  have hlen : rest.length + 1 = s.pq.length := by have := hperm.length_eq; simpa using this
  have hmemrest : ∀ {x : K × Nat × Nat}, x ∈ rest → x ∈ s.pq := fun hx => hperm.subset (List.mem_cons_of_mem _ hx)
  obtain ⟨huv, hu⟩ := hI.pqEdge w u v (hperm.subset List.mem_cons_self)
  have hvn : v < g.numVertices := (hg.adj_lt (hg.adj_iff_weight.2 ⟨w, huv⟩)).2
  split at hs
  · next hv =>
    cases hs
    refine ⟨⟨hI.root, hI.lt, fun w u v hm => hI.pqEdge w u v (hmemrest hm), ?_, hI.edges, hI.acyc, hI.conn,
      hI.light, hI.bot, hI.added, hI.total, hI.count⟩, ?_⟩
    · intro x y w' he hx hy
      have h1 := hperm.symm.subset (hI.pqCross x y w' he hx hy)
      rcases List.mem_cons.1 h1 with h1 | h1
      · cases h1; rw [hv] at hy; cases hy
      · exact h1
    · simp only [primMeasure, PrimState.verts]; omega
  · next hv =>
    have hv : s.inMST v = false := by simpa using hv
    cases hs
    have hvu : v ≠ u := by rintro rfl; rw [hu] at hv; cases hv
    -- membership after the update
    have hin : ∀ x, Function.update s.inMST v true x = true ↔ x = v ∨ s.inMST x = true := by
      intro x
      by_cases hx : x = v
      · subst hx; simp
      · simp [Function.update_of_ne hx, hx]
    have hout : ∀ x, Function.update s.inMST v true x = false ↔ x ≠ v ∧ s.inMST x = false := by
      intro x
      by_cases hx : x = v
      · subst hx; simp
      · simp [Function.update_of_ne hx, hx]
    -- crossing edges are at least as heavy as the chosen one
    have hcross : ∀ x y w', g.edgeWeight x y = .ret w' → s.inMST x = true → s.inMST y = false → w ≤ w' := by
      intro x y w' he hx hy
      exact tripleLe_fst (hmin _ (hI.pqCross x y w' he hx hy))
    have huleaves : ∀ t, w ≤ t → Leaves g s t u := fun t ht => ⟨v, w, huv, hv, ht⟩
    have hmono : ∀ t {a b : Nat}, Conn (s.edges.filter (fun e => decide (e.2.2 ≤ t))) a b →
        Conn ((s.edges ++ [(u, v, w)]).filter (fun e => decide (e.2.2 ≤ t))) a b := by
      intro t a b h
      refine h.mono (fun e he => ?_)
      rw [List.filter_append]; exact List.mem_append_left _ he
    have hnew : ∀ t, w ≤ t → Conn ((s.edges ++ [(u, v, w)]).filter (fun e => decide (e.2.2 ≤ t))) u v := by
      intro t ht
      exact .edge (w := w) (List.mem_filter.2 ⟨by simp, by simpa using ht⟩)
    have hinS : ∀ {a b : Nat}, Conn s.edges a b → a = b ∨ (s.inMST a = true ∧ s.inMST b = true) := by
      intro a b h
      induction h with
      | rel a b h => obtain ⟨w', h⟩ := h; exact Or.inr (hI.edges a b w' h).2
      | refl a => exact Or.inl rfl
      | symm a b _ ih =>
        rcases ih with h | h
        · exact Or.inl h.symm
        · exact Or.inr ⟨h.2, h.1⟩
      | trans a b c _ _ ih1 ih2 =>
        rcases ih1 with rfl | h1
        · exact ih2
        · rcases ih2 with rfl | h2
          · exact Or.inr h1
          · exact Or.inr ⟨h1.1, h2.2⟩
    have hverts : v ∉ s.verts g := by simp [PrimState.verts, hv]
    refine ⟨?_, ?_⟩
    · constructor
      all_goals dsimp only
      · rw [hin]; exact Or.inr hI.root
      · intro x hx
        rcases (hin x).1 hx with rfl | hx
        · exact hvn
        · exact hI.lt x hx
      · intro w' a b hm
        rw [mem_foldl_cons] at hm
        rcases hm with hm | ⟨e, he, heq⟩
        · obtain ⟨h1, h2⟩ := hI.pqEdge w' a b (hmemrest hm)
          exact ⟨h1, (hin a).2 (Or.inr h2)⟩
        · cases heq
          exact ⟨hg.weight_iff.2 (List.mem_filter.1 he).1, (hin v).2 (Or.inl rfl)⟩
      · intro x y w' he hx hy
        rw [mem_foldl_cons]
        rcases (hin x).1 hx with rfl | hx
        · right
          exact ⟨⟨y, w'⟩, List.mem_filter.2 ⟨hg.weight_iff.1 he, by simpa using hy⟩, rfl⟩
        · left
          obtain ⟨hyv, hy⟩ := (hout y).1 hy
          have h1 := hperm.symm.subset (hI.pqCross x y w' he hx hy)
          rcases List.mem_cons.1 h1 with h1 | h1
          · cases h1; exact absurd rfl hyv
          · exact h1
      · intro a b c hm
        rcases List.mem_append.1 hm with hm | hm
        · obtain ⟨h1, h2, h3⟩ := hI.edges a b c hm
          exact ⟨h1, (hin a).2 (Or.inr h2), (hin b).2 (Or.inr h3)⟩
        · simp at hm
          obtain ⟨rfl, rfl, rfl⟩ := hm
          exact ⟨huv, (hin a).2 (Or.inr hu), (hin b).2 (Or.inl rfl)⟩
      · rw [seqAcyclic_append]
        refine ⟨hI.acyc, fun hc => ?_⟩
        rcases hinS hc with h | h
        · exact hvu h.symm
        · rw [hv] at h; cases h.2
      · intro x hx
        have hold : ∀ {a b : Nat}, Conn s.edges a b → Conn (s.edges ++ [(u, v, w)]) a b :=
          fun h => h.mono (fun e he => List.mem_append_left _ he)
        rcases (hin x).1 hx with rfl | hx
        · exact (hold (hI.conn u hu)).trans (.edge (w := w) (by simp))
        · exact hold (hI.conn x hx)
      · intro t x y hx hy hlx hly
        -- a tree vertex that still leaves the tree within `t`
        have hreach : ∀ x, s.inMST x = true →
            (∃ y w', g.edgeWeight x y = .ret w' ∧ Function.update s.inMST v true y = false ∧ w' ≤ t) →
            w ≤ t ∧ Conn ((s.edges ++ [(u, v, w)]).filter (fun e => decide (e.2.2 ≤ t))) x v := by
          rintro x hx ⟨y, w', he, hy, hw'⟩
          obtain ⟨_, hy⟩ := (hout y).1 hy
          have hwt := (hcross x y w' he hx hy).trans hw'
          exact ⟨hwt, (hmono t (hI.light t x u hx hu ⟨y, w', he, hy, hw'⟩ (huleaves t hwt))).trans (hnew t hwt)⟩
        rcases (hin x).1 hx with rfl | hx' <;> rcases (hin y).1 hy with rfl | hy'
        · exact .refl _ _
        · exact (hreach y hy' hly).2.symm
        · exact (hreach x hx' hlx).2
        · exact (hreach x hx' hlx).2.trans (hreach y hy' hly).2.symm
      · intro x y w' he hx hy
        have hside : ∀ x, s.inMST x = true → g.edgeWeight x v = .ret w' →
            Conn ((s.edges ++ [(u, v, w)]).filter (fun e => decide (e.2.2 ≤ w'))) x v := by
          intro x hx he
          have hww := hcross x v w' he hx hv
          exact (hmono w' (hI.light w' x u hx hu ⟨v, w', he, hv, le_refl _⟩ (huleaves w' hww))).trans (hnew w' hww)
        rcases (hin x).1 hx with rfl | hx' <;> rcases (hin y).1 hy with rfl | hy'
        · exact .refl _ _
        · exact (hside y hy' (hsym _ _ _ he)).symm
        · exact hside x hx' he
        · exact hmono w' (hI.bot x y w' he hx' hy')
      · simp [hI.added]
      · rw [weightOf_append, hI.total]; simp [weightOf]
      · rw [verts_update s _ hvn rfl, Finset.card_insert_of_notMem hverts, ← hI.count]
        simp
    · simp only [primMeasure]
      rw [verts_update s _ hvn rfl, length_foldl_cons]
      have hsplit : ∑ x ∈ Finset.range g.numVertices \ s.verts g, (g.nbrs x).length =
          (g.nbrs v).length + ∑ x ∈ Finset.range g.numVertices \ insert v (s.verts g), (g.nbrs x).length := by
        have : Finset.range g.numVertices \ s.verts g =
            insert v (Finset.range g.numVertices \ insert v (s.verts g)) := by
          ext x
          simp only [Finset.mem_sdiff, Finset.mem_range, Finset.mem_insert, not_or]
          by_cases hx : x = v
          · subst hx; simp [hvn, hverts]
          · simp [hx]
        rw [this, Finset.sum_insert (by simp)]
      have hfl := List.length_filter_le (fun e => !Function.update s.inMST v true e.to) (g.nbrs v)
      omega

/-- **C14.** `Prim` of an undirected graph returns, whatever the start vertex.  The edges returned are edges of
the graph without a cycle, `totalWeight` is their weight, and `isComplete` tells whether the graph is
connected.  If the graph is connected they form a spanning tree, and no spanning tree is lighter.  (If it is
not connected, they connect exactly the vertices reachable from the start vertex used.) -/
theorem prim_correct {g : Graph V K} (hg : g.WF) (hsym : g.Symm) (start : Nat) :
    ∃ r, prim g start = some r ∧
      (∀ u v w, (u, v, w) ∈ r.edges → g.edgeWeight u v = .ret w) ∧ Acyclic r.edges ∧
      r.totalWeight = weightOf r.edges ∧
      (r.isComplete = true ↔ ∀ u v, u < g.numVertices → v < g.numVertices → Reach g u v) ∧
      (0 < g.numVertices → ∀ v, Reach g (if start ≥ g.numVertices then 0 else start) v →
        Conn r.edges (if start ≥ g.numVertices then 0 else start) v) ∧
      ((∀ u v, u < g.numVertices → v < g.numVertices → Reach g u v) →
        SpanningForest g r.edges ∧ ∀ T, SpanningForest g T → r.totalWeight ≤ weightOf T) := by
  unfold prim
  by_cases h0 : g.numVertices = 0
  · rw [if_pos h0]
    have hac : Acyclic ([] : List (Nat × Nat × K)) := by intro i u v w h; simp at h
    refine ⟨_, rfl, by simp, hac, by simp [weightOf], ?_, by omega, ?_⟩
    · simp only [true_iff]; intro u v hu; omega
    · intro _
      refine ⟨⟨by simp, hac, ?_⟩, ?_⟩
      · rintro u v ⟨k, hk⟩
        have := (hg.walk_lt hk).1; omega
      · intro T hT
        have : T = [] := by
          rcases T with _ | ⟨⟨u, v, w⟩, T⟩
          · rfl
          · have := hg.adj_lt (hg.adj_iff_weight.2 ⟨w, hT.edges u v w (by simp)⟩)
            omega
        subst this; simp [weightOf]
  rw [if_neg h0]
  dsimp only
  generalize hst : (if start ≥ g.numVertices then 0 else start) = st
  have hstn : st < g.numVertices := by rw [← hst]; split <;> omega
  obtain ⟨s, h1, hI, h3⟩ := whileFuel_rule (primStep g) (PrimInv g st) (primMeasure g)
    (fun a a' hA ha => primInv_step hg hsym hA ha) (g.entries + g.numVertices + 1) (primInit g st)
    (primInv_init hg hstn)
    (by
      have hverts : (primInit g st).verts g = {st} := by
        ext v
        rw [PrimState.verts, Finset.mem_filter, Finset.mem_range, Finset.mem_singleton]
        simp only [primInit]
        by_cases hv : v = st
        · subst hv; simp [hstn]
        · simp [Function.update_of_ne hv, hv]
      unfold primMeasure
      rw [hverts]
      have : g.entries = (g.nbrs st).length + ∑ v ∈ Finset.range g.numVertices \ {st}, (g.nbrs v).length := by
        unfold Graph.entries
        rw [← Finset.sum_sdiff (s₁ := {st}) (s₂ := Finset.range g.numVertices) (by simpa using hstn)]
        simp; omega
      simp only [primInit, length_foldl_cons, List.length_nil]
      omega)
  rw [h1]
  have hvle : (s.verts g).card ≤ g.numVertices := by
    calc (s.verts g).card ≤ (Finset.range g.numVertices).card := Finset.card_le_card (Finset.filter_subset _ _)
      _ = _ := Finset.card_range _
  -- at the end the tree contains everything reachable
  have hclosed : ∀ v, Reach g st v → s.inMST v = true := by
    by_cases hfull : (s.verts g).card = g.numVertices
    · intro v ⟨k, hk⟩
      have heq := Finset.eq_of_subset_of_card_le (Finset.filter_subset (fun v => s.inMST v = true)
        (Finset.range g.numVertices)) (by rw [Finset.card_range]; exact le_of_eq hfull.symm)
      have hv : v ∈ Finset.range g.numVertices := Finset.mem_range.2 (hg.walk_lt hk).2
      rw [← heq] at hv
      exact (Finset.mem_filter.1 hv).2
    · have hpq : s.pq = [] := by
        unfold primStep at h3
        rw [if_pos (by have := hI.count; rw [hI.added]; omega)] at h3
        split at h3
        · next h => exact (popMin_none _ _).1 h
        · next h => split at h3 <;> cases h3
      rintro v ⟨k, hk⟩
      induction hk with
      | nil _ => exact hI.root
      | @snoc a b k _ ha ih =>
        by_contra hb
        obtain ⟨w, hw⟩ := hg.adj_iff_weight.1 ha
        have := hI.pqCross a b w hw ih (by simpa using hb)
        rw [hpq] at this; simp at this
  have hin : InRange g.numVertices s.edges :=
    fun u v w hm => hg.adj_lt (hg.adj_iff_weight.2 ⟨w, (hI.edges u v w hm).1⟩)
  have hspan : (∀ u v, u < g.numVertices → v < g.numVertices → Reach g u v) →
      SpanningForest g s.edges ∧ ∀ T, SpanningForest g T → weightOf s.edges ≤ weightOf T := by
    intro hconn
    have hall : ∀ v, v < g.numVertices → s.inMST v = true := fun v hv => hclosed v (hconn st v hstn hv)
    have := minimum_of_bottleneck hg hI.acyc (fun u v w hm => (hI.edges u v w hm).1)
      (fun u v w he => by
        have hlt := hg.adj_lt (hg.adj_iff_weight.2 ⟨w, he⟩)
        exact hI.bot u v w he (hall u hlt.1) (hall v hlt.2))
    exact ⟨this.1, fun T hT => (this.2 T hT).1⟩
  refine ⟨_, rfl, fun u v w hm => (hI.edges u v w hm).1, hI.acyc.acyclic hin, hI.total, ?_, ?_, ?_⟩
  · constructor
    · intro hc
      have hc : s.edges.length = g.numVertices - 1 := by simpa using hc
      have hfull : (s.verts g).card = g.numVertices := by have := hI.count; omega
      have heq := Finset.eq_of_subset_of_card_le (Finset.filter_subset (fun v => s.inMST v = true)
        (Finset.range g.numVertices)) (by rw [Finset.card_range]; exact le_of_eq hfull.symm)
      have hall : ∀ v, v < g.numVertices → Reach g st v := by
        intro v hv
        have hv' : v ∈ Finset.range g.numVertices := Finset.mem_range.2 hv
        rw [← heq] at hv'
        have hc := hI.conn v (Finset.mem_filter.1 hv').2
        have gen : ∀ {a b : Nat}, Conn s.edges a b → Reach g a b ∨ a = b := by
          intro a b h
          induction h with
          | rel a b h =>
            obtain ⟨w, hw⟩ := h
            have ha := hg.adj_iff_weight.2 ⟨w, (hI.edges a b w hw).1⟩
            exact Or.inl ⟨1, (Walk.nil (hg.adj_lt ha).1).snoc ha⟩
          | refl a => exact Or.inr rfl
          | symm _ _ _ ih =>
            rcases ih with ih | ih
            · exact Or.inl (ih.symm hg hsym)
            · exact Or.inr ih.symm
          | trans _ _ _ _ _ ih1 ih2 =>
            rcases ih1 with ih1 | rfl
            · rcases ih2 with ih2 | rfl
              · exact Or.inl (ih1.trans ih2)
              · exact Or.inl ih1
            · exact ih2
        rcases gen hc with h | rfl
        · exact h
        · exact ⟨0, .nil hv⟩
      intro a b ha hb
      exact ((hall a ha).symm hg hsym).trans (hall b hb)
    · intro hconn
      have h := (hspan hconn).1
      simpa using (h.complete_iff hg hsym (by omega)).2 hconn
  · intro _ v hv
    exact hI.conn v (hclosed v hv)
  · intro hconn
    obtain ⟨h4, h5⟩ := hspan hconn
    exact ⟨h4, fun T hT => by dsimp only; rw [hI.total]; exact h5 T hT⟩

/-! ### Concrete instances -/

/-- A connected graph with two cycles. -/
def sampleConnected : Graph Nat Int :=
  reached id .undirected false 5 [.addEdge 0 1 4, .addEdge 1 2 1, .addEdge 2 3 2, .addEdge 3 0 3,
    .addEdge 0 2 5, .addEdge 4 3 (-1)]

example : sampleConnected.WF ∧ sampleConnected.Symm := ⟨reached_wf _ _ _ _ _, reached_symm _ _ _ _⟩

example : isConnected sampleConnected = some true := by decide

example : prim sampleConnected 1 =
    some ⟨true, [(1, 2, 1), (2, 3, 2), (3, 4, -1), (3, 0, 3)], 5⟩ := by decide

end Verif.Graph
