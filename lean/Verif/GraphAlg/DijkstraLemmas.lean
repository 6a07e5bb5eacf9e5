import Verif.GraphAlg.DijkstraModel
import Verif.GraphAlg.PathProps
import Mathlib.Algebra.Order.BigOperators.Group.Finset

/-! # Invariant of Dijkstra's algorithm: helper lemmas -/

set_option autoImplicit false

namespace Verif.Graph

variable {V K : Type} [AddCommGroup K] [LinearOrder K] [IsOrderedAddMonoid K]

theorem relax_fold (u : Nat) (du : K) (es : List (Edge K)) (s : DjState K) (hu : s.dist u = du)
    (hw : ∀ e ∈ es, 0 ≤ e.weight) :
    ∃ (nw : List (K × Nat)) (s' : DjState K), es.foldl (relax u) s = s' ∧
      s'.pq = s.pq ++ nw ∧ s'.nodesVisited = s.nodesVisited ∧ nw.length ≤ es.length ∧ nw.Nodup ∧
      (∀ v, s'.dist v ≤ s.dist v) ∧
      (∀ e ∈ es, s'.dist e.to ≤ ((du + e.weight : K) : WithTop K)) ∧
      (∀ v, (s'.dist v = s.dist v ∧ s'.parent v = s.parent v) ∨
        ∃ w, (⟨v, w⟩ : Edge K) ∈ es ∧ s'.dist v = ((du + w : K) : WithTop K) ∧
          ((du + w : K) : WithTop K) < s.dist v ∧ s'.parent v = some u ∧ (du + w, v) ∈ nw) ∧
      (∀ x v, (x, v) ∈ nw → ∃ w, (⟨v, w⟩ : Edge K) ∈ es ∧ x = du + w ∧ (x : WithTop K) < s.dist v ∧
        s'.dist v ≤ x) ∧
      s'.dist u = du := by
  induction es generalizing s with
  | nil =>
    exact ⟨[], s, rfl, by simp, rfl, by simp, by simp, fun _ => le_refl _, by simp,
      fun _ => Or.inl ⟨rfl, rfl⟩, by simp, hu⟩
  | cons e es ih =>
    rw [List.foldl_cons]
    have hw' : ∀ e' ∈ es, 0 ≤ e'.weight := fun e' he' => hw e' (List.mem_cons_of_mem _ he')
    have hwe := hw e List.mem_cons_self
    by_cases himp : ((du + e.weight : K) : WithTop K) < s.dist e.to
    · have hne : u ≠ e.to := by
        intro h
        rw [← h, hu, WithTop.coe_lt_coe] at himp
        exact absurd himp (not_lt.2 (le_add_of_nonneg_right hwe))
      have h1 : relax u s e = { s with
          dist := Function.update s.dist e.to ((du + e.weight : K) : WithTop K)
          parent := Function.update s.parent e.to (some u)
          pq := s.pq ++ [(du + e.weight, e.to)] } := by
        unfold relax
        rw [hu]
        simp only [himp, if_true]
      rw [h1]
      obtain ⟨nw, s', e0, e1, e2, e3, e4, e5, e6, e7, e8, e9⟩ := ih { s with
          dist := Function.update s.dist e.to ((du + e.weight : K) : WithTop K)
          parent := Function.update s.parent e.to (some u)
          pq := s.pq ++ [(du + e.weight, e.to)] } (by simp [Function.update_of_ne hne, hu]) hw'
      dsimp only at e1 e2 e5 e7 e8
      refine ⟨(du + e.weight, e.to) :: nw, s', e0, by simp [e1], e2, by simpa using e3, ?_, ?_, ?_, ?_, ?_, e9⟩
      · refine List.nodup_cons.2 ⟨?_, e4⟩
        intro hmem
        obtain ⟨w, _, _, h4, _⟩ := e8 _ _ hmem
        simp at h4
      · intro v
        refine (e5 v).trans ?_
        by_cases hv : v = e.to
        · subst hv; rw [Function.update_self]; exact le_of_lt himp
        · simp [Function.update_of_ne hv]
      · intro e' he'
        rcases List.mem_cons.1 he' with rfl | he'
        · have := e5 e'.to; simpa using this
        · exact e6 e' he'
      · intro v
        by_cases hv : v = e.to
        · subst hv
          right
          rcases e7 e.to with ⟨h2, h3⟩ | ⟨w, h2, h3, h4, h5, h6⟩
          · exact ⟨e.weight, List.mem_cons_self, by rw [h2]; simp, himp, by rw [h3]; simp,
              List.mem_cons_self⟩
          · rw [Function.update_self] at h4
            exact ⟨w, List.mem_cons_of_mem _ h2, h3, h4.trans himp, h5, List.mem_cons_of_mem _ h6⟩
        · rcases e7 v with ⟨h2, h3⟩ | ⟨w, h2, h3, h4, h5, h6⟩
          · left; exact ⟨by rw [h2, Function.update_of_ne hv], by rw [h3, Function.update_of_ne hv]⟩
          · right
            rw [Function.update_of_ne hv] at h4
            exact ⟨w, List.mem_cons_of_mem _ h2, h3, h4, h5, List.mem_cons_of_mem _ h6⟩
      · intro x v hx
        rcases List.mem_cons.1 hx with h | hx
        · cases h
          exact ⟨e.weight, List.mem_cons_self, rfl, himp, by have := e5 e.to; simpa using this⟩
        · obtain ⟨w, h2, h3, h4, h5⟩ := e8 x v hx
          refine ⟨w, List.mem_cons_of_mem _ h2, h3, ?_, h5⟩
          by_cases hv : v = e.to
          · subst hv
            rw [Function.update_self] at h4
            exact h4.trans himp
          · rwa [Function.update_of_ne hv] at h4
    · have h1 : relax u s e = s := by
        unfold relax
        rw [hu]
        simp only [himp, if_false]
      rw [h1]
      obtain ⟨nw, s', e0, e1, e2, e3, e4, e5, e6, e7, e8, e9⟩ := ih s hu hw'
      refine ⟨nw, s', e0, e1, e2, by simp; omega, e4, e5, ?_, ?_, ?_, e9⟩
      · intro e' he'
        rcases List.mem_cons.1 he' with rfl | he'
        · exact (e5 _).trans (not_lt.1 himp)
        · exact e6 e' he'
      · intro v
        rcases e7 v with h | ⟨w, h2, h3⟩
        · exact Or.inl h
        · exact Or.inr ⟨w, List.mem_cons_of_mem _ h2, h3⟩
      · intro x v hx
        obtain ⟨w, h2, h3⟩ := e8 x v hx
        exact ⟨w, List.mem_cons_of_mem _ h2, h3⟩

/-- Invariant of the main loop; the ghost `ord` lists the settled vertices in the order of settling. -/
structure DjInv (g : Graph V K) (start : Nat) (ord : List Nat) (s : DjState K) : Prop where
  ordnd : ord.Nodup
  ordlt : ∀ u ∈ ord, u < g.numVertices ∧ ∃ d : K, s.dist u = d
  walk : ∀ v (d : K), s.dist v = d → ∃ k, WWalk g start v k d
  closed : ∀ u ∈ ord, ∀ v w, g.edgeWeight u v = .ret w → s.dist v ≤ s.dist u + (w : WithTop K)
  inq : ∀ v (d : K), v ∉ ord → s.dist v = d → (d, v) ∈ s.pq
  qle : ∀ d v, (d, v) ∈ s.pq → s.dist v ≤ (d : WithTop K)
  qlt : ∀ d v, (d, v) ∈ s.pq → v < g.numVertices
  sep : ∀ u ∈ ord, ∀ d v, (d, v) ∈ s.pq → s.dist u ≤ (d : WithTop K)
  fresh : ∀ d v, (d, v) ∈ s.pq → s.dist v = (d : WithTop K) → v ∉ ord
  pqnd : s.pq.Nodup
  start0 : s.dist start = ((0 : K) : WithTop K)
  parStart : s.parent start = none
  par : ∀ v p, s.parent v = some p → p ∈ ord ∧
    (∃ w, g.edgeWeight p v = .ret w ∧ s.dist v = s.dist p + (w : WithTop K)) ∧
    (v ∈ ord → ord.idxOf p < ord.idxOf v)
  parNone : ∀ v (d : K), s.parent v = none → s.dist v = d → v = start

theorem djInv_init (g : Graph V K) {start : Nat} (h : start < g.numVertices) :
    DjInv g start [] (djInit start) := by
  have hd : ∀ v (d : K), (djInit start : DjState K).dist v = d → v = start ∧ d = 0 := by
    intro v d hd
    by_cases hv : v = start
    · subst hv
      simp only [djInit, Function.update_self] at hd
      exact ⟨rfl, (WithTop.coe_injective hd).symm⟩
    · simp [djInit, Function.update_of_ne hv] at hd
  have h0 : (djInit start : DjState K).dist start = ((0 : K) : WithTop K) := by simp [djInit]
  refine
    { ordnd := List.nodup_nil
      ordlt := by simp
      walk := ?_
      closed := by simp
      inq := ?_
      qle := ?_
      qlt := ?_
      sep := by simp
      fresh := by simp
      pqnd := by simp [djInit]
      start0 := h0
      parStart := rfl
      par := by simp [djInit]
      parNone := ?_ }
  · intro v d hvd
    obtain ⟨rfl, rfl⟩ := hd v d hvd
    exact ⟨0, .nil h⟩
  · intro v d _ hvd
    obtain ⟨rfl, rfl⟩ := hd v d hvd
    simp [djInit]
  · intro d v hv
    simp [djInit] at hv
    obtain ⟨rfl, rfl⟩ := hv
    rw [h0]
  · intro d v hv
    simp [djInit] at hv
    omega
  · intro v d _ hvd
    exact (hd v d hvd).1

/-- All edge weights are nonnegative. -/
def Nonneg (g : Graph V K) : Prop := ∀ u v w, g.edgeWeight u v = .ret w → 0 ≤ w

theorem WWalk.nonneg {g : Graph V K} (hw : Nonneg g) {s v k : Nat} {d : K} (h : WWalk g s v k d) : 0 ≤ d := by
  induction h with
  | nil _ => exact le_refl _
  | snoc _ he ih => exact add_nonneg ih (hw _ _ _ he)

/-- Dropping an outdated entry keeps the invariant. -/
theorem djInv_skip {g : Graph V K} {start : Nat} {ord : List Nat} {s : DjState K}
    (hI : DjInv g start ord s) {d : K} {u : Nat} {rest : List (K × Nat)}
    (hp : popMin pairLe s.pq = some ((d, u), rest)) (hd : s.dist u < (d : WithTop K)) (nv : Nat) :
    DjInv g start ord { s with pq := rest, nodesVisited := nv } := by
  have hperm := popMin_perm _ _ hp
  have hsub : ∀ x ∈ rest, x ∈ s.pq := fun x hx => hperm.subset (List.mem_cons_of_mem _ hx)
  exact
    { ordnd := hI.ordnd
      ordlt := hI.ordlt
      walk := hI.walk
      closed := hI.closed
      inq := by
        intro v d' hv hvd
        have h1 := hperm.symm.subset (hI.inq v d' hv hvd)
        rcases List.mem_cons.1 h1 with h | h
        · cases h
          have h2 : s.dist u = (d : WithTop K) := hvd
          rw [h2] at hd
          exact absurd hd (lt_irrefl _)
        · exact h
      qle := fun d v h => hI.qle d v (hsub _ h)
      qlt := fun d v h => hI.qlt d v (hsub _ h)
      sep := fun u hu d v h => hI.sep u hu d v (hsub _ h)
      fresh := fun d v h => hI.fresh d v (hsub _ h)
      pqnd := (List.nodup_cons.1 (hperm.nodup_iff.2 hI.pqnd)).2
      start0 := hI.start0
      parStart := hI.parStart
      par := hI.par
      parNone := hI.parNone }

/-- Settling the vertex of a current least entry keeps the invariant. -/
theorem djInv_settle {g : Graph V K} (hg : g.WF) (hw : Nonneg g) {start : Nat} {ord : List Nat}
    {s : DjState K} (hI : DjInv g start ord s) {d : K} {u : Nat} {rest : List (K × Nat)}
    (hp : popMin pairLe s.pq = some ((d, u), rest)) (hd : ¬ s.dist u < (d : WithTop K)) (nv : Nat) :
    ∃ s', (g.nbrs u).foldl (relax u) { s with pq := rest, nodesVisited := nv } = s' ∧
      DjInv g start (ord ++ [u]) s' ∧ u ∉ ord ∧ u < g.numVertices ∧
      s'.pq.length + 1 ≤ s.pq.length + (g.nbrs u).length := by
  have hperm := popMin_perm _ _ hp
  have hmin : ∀ x v, (x, v) ∈ s.pq → d ≤ x := fun x v hx =>
    pairLe_fst (popMin_le pairLe pairLe_total pairLe_trans _ hp _ hx)
  have hmem : (d, u) ∈ s.pq := hperm.subset List.mem_cons_self
  have hdu : s.dist u = (d : WithTop K) := le_antisymm (hI.qle d u hmem) (not_lt.1 hd)
  have huo : u ∉ ord := hI.fresh d u hmem hdu
  have hun : u < g.numVertices := hI.qlt d u hmem
  have hsub : ∀ x ∈ rest, x ∈ s.pq := fun x hx => hperm.subset (List.mem_cons_of_mem _ hx)
  have hnd := List.nodup_cons.1 (hperm.nodup_iff.2 hI.pqnd)
  have hlen := hperm.length_eq
  have hew : ∀ e ∈ g.nbrs u, g.edgeWeight u e.to = .ret e.weight := fun e he => hg.weight_iff.2 he
  obtain ⟨nw, s', e0, e1, e2, e3, e4, e5, e6, e7, e8, e9⟩ :=
    relax_fold u d (g.nbrs u) { s with pq := rest, nodesVisited := nv } hdu
      (fun e he => hw u e.to e.weight (hew e he))
  dsimp only at e1 e2 e5 e7 e8
  refine ⟨s', e0, ?_, huo, hun, by rw [e1]; simp at hlen ⊢; omega⟩
  have hsrc : ∀ v w, (⟨v, w⟩ : Edge K) ∈ g.nbrs u → g.edgeWeight u v = .ret w := fun v w h => hew _ h
  have hge : ∀ v w, (⟨v, w⟩ : Edge K) ∈ g.nbrs u → d ≤ d + w := fun v w h =>
    le_add_of_nonneg_right (hw u v w (hsrc v w h))
  have hset : ∀ v ∈ ord, s'.dist v = s.dist v ∧ s'.parent v = s.parent v := by
    intro v hv
    rcases e7 v with h | ⟨w, h2, _, h4, _⟩
    · exact h
    · exfalso
      have h5 := hI.sep v hv d u hmem
      have h6 : (d : WithTop K) ≤ ((d + w : K) : WithTop K) := WithTop.coe_le_coe.2 (hge v w h2)
      exact absurd (h4.trans_le h5) (not_lt.2 h6)
  have hu' : s'.dist u = s.dist u ∧ s'.parent u = s.parent u := by
    rcases e7 u with h | ⟨w, h2, _, h4, _⟩
    · exact h
    · exfalso
      rw [hdu, WithTop.coe_lt_coe] at h4
      exact absurd h4 (not_lt.2 (hge u w h2))
  have hstart' : s'.dist start = ((0 : K) : WithTop K) ∧ s'.parent start = none := by
    rcases e7 start with h | ⟨w, h2, _, h4, _⟩
    · exact ⟨h.1.trans hI.start0, h.2.trans hI.parStart⟩
    · exfalso
      rw [hI.start0, WithTop.coe_lt_coe] at h4
      obtain ⟨k, hk⟩ := hI.walk u d hdu
      exact absurd h4 (not_lt.2 ((hk.nonneg hw).trans (hge start w h2)))
  exact
    { ordnd := by
        rw [List.nodup_append]
        refine ⟨hI.ordnd, by simp, ?_⟩
        rintro a ha b hb rfl
        simp at hb; subst hb; exact huo ha
      ordlt := by
        intro v hv
        rcases List.mem_append.1 hv with hv | hv
        · rw [(hset v hv).1]; exact hI.ordlt v hv
        · simp at hv; subst hv; rw [hu'.1]; exact ⟨hun, d, hdu⟩
      walk := by
        intro v x hx
        rcases e7 v with h | ⟨w, h2, h3, _⟩
        · rw [h.1] at hx; exact hI.walk v x hx
        · rw [h3] at hx
          have hx := WithTop.coe_injective hx
          subst hx
          obtain ⟨k, hk⟩ := hI.walk u d hdu
          exact ⟨_, hk.snoc (hsrc v w h2)⟩
      closed := by
        intro x hx v w hvw
        rcases List.mem_append.1 hx with hx | hx
        · rw [(hset x hx).1]
          exact (e5 v).trans (hI.closed x hx v w hvw)
        · simp at hx; subst hx
          rw [hu'.1, hdu]
          exact e6 _ (hg.weight_iff.1 hvw)
      inq := by
        intro v x hv hx
        have hvo : v ∉ ord := fun h => hv (List.mem_append_left _ h)
        have hvu : v ≠ u := fun h => hv (by simp [h])
        rw [e1]
        rcases e7 v with h | ⟨w, _, h3, _, _, h6⟩
        · rw [h.1] at hx
          have := hperm.symm.subset (hI.inq v x hvo hx)
          rcases List.mem_cons.1 this with h | h
          · cases h; exact absurd rfl hvu
          · exact List.mem_append_left _ h
        · rw [h3] at hx
          have hx := WithTop.coe_injective hx
          subst hx
          exact List.mem_append_right _ h6
      qle := by
        intro x v hx
        rw [e1] at hx
        rcases List.mem_append.1 hx with hx | hx
        · exact (e5 v).trans (hI.qle x v (hsub _ hx))
        · obtain ⟨w, _, _, _, h5⟩ := e8 x v hx
          exact h5
      qlt := by
        intro x v hx
        rw [e1] at hx
        rcases List.mem_append.1 hx with hx | hx
        · exact hI.qlt x v (hsub _ hx)
        · obtain ⟨w, h2, _⟩ := e8 x v hx
          exact (hg.nbrs_lt h2).2
      sep := by
        intro a ha x v hx
        have hle : ∀ b ∈ ord ++ [u], s'.dist b ≤ (d : WithTop K) := by
          intro b hb
          rcases List.mem_append.1 hb with hb | hb
          · rw [(hset b hb).1]; exact hI.sep b hb d u hmem
          · simp at hb; subst hb; rw [hu'.1, hdu]
        refine (hle a ha).trans ?_
        rw [e1] at hx
        rcases List.mem_append.1 hx with hx | hx
        · exact WithTop.coe_le_coe.2 (hmin x v (hsub _ hx))
        · obtain ⟨w, h2, h3, _⟩ := e8 x v hx
          subst h3
          exact WithTop.coe_le_coe.2 (hge v w h2)
      fresh := by
        intro x v hx hvx hv
        rw [e1] at hx
        rcases List.mem_append.1 hx with hx | hx
        · rcases List.mem_append.1 hv with hv | hv
          · rw [(hset v hv).1] at hvx
            exact hI.fresh x v (hsub _ hx) hvx hv
          · simp at hv; subst hv
            rw [hu'.1, hdu] at hvx
            have := WithTop.coe_injective hvx
            subst this
            exact hnd.1 hx
        · obtain ⟨w, _, _, h4, _⟩ := e8 x v hx
          have hsame : s'.dist v = s.dist v := by
            rcases List.mem_append.1 hv with hv | hv
            · exact (hset v hv).1
            · simp at hv; subst hv; exact hu'.1
          rw [← hsame, hvx] at h4
          exact absurd h4 (lt_irrefl _)
      pqnd := by
        rw [e1, List.nodup_append]
        refine ⟨hnd.2, e4, ?_⟩
        rintro ⟨x, v⟩ h1 b h2 rfl
        obtain ⟨w, _, _, h4, _⟩ := e8 x v h2
        exact absurd h4 (not_lt.2 (hI.qle x v (hsub _ h1)))
      start0 := hstart'.1
      parStart := hstart'.2
      par := by
        intro v p hvp
        have hidx : ∀ x ∈ ord, (ord ++ [u]).idxOf x = ord.idxOf x := fun x hx =>
          List.idxOf_append_of_mem hx
        have hidu : (ord ++ [u]).idxOf u = ord.length := by
          rw [List.idxOf_append_of_notMem huo]; simp
        rcases e7 v with h | ⟨w, h2, h3, h4, h5, _⟩
        · rw [h.2] at hvp
          obtain ⟨h6, ⟨w, h7, h8⟩, h9⟩ := hI.par v p hvp
          refine ⟨List.mem_append_left _ h6, ⟨w, h7, ?_⟩, ?_⟩
          · rw [h.1, (hset p h6).1, h8]
          · intro hv
            rw [hidx p h6]
            rcases List.mem_append.1 hv with hv | hv
            · rw [hidx v hv]; exact h9 hv
            · simp at hv; subst hv
              rw [hidu]; exact List.idxOf_lt_length_iff.2 h6
        · rw [h5] at hvp
          cases hvp
          refine ⟨by simp, ⟨w, hsrc v w h2, ?_⟩, ?_⟩
          · rw [h3, hu'.1, hdu, WithTop.coe_add]
          · intro hv
            exfalso
            have hsame : s'.dist v = s.dist v := by
              rcases List.mem_append.1 hv with hv | hv
              · exact (hset v hv).1
              · simp at hv; subst hv; exact hu'.1
            rw [← hsame, h3] at h4
            exact absurd h4 (lt_irrefl _)
      parNone := by
        intro v x hv hx
        rcases e7 v with h | ⟨w, _, _, _, h5, _⟩
        · rw [h.2] at hv; rw [h.1] at hx; exact hI.parNone v x hv hx
        · rw [h5] at hv; cases hv }

/-- Termination measure: queue entries plus adjacency entries of unsettled vertices. -/
def djMeasure (g : Graph V K) (ord : List Nat) (s : DjState K) : Nat :=
  s.pq.length + ∑ v ∈ Finset.range g.numVertices, if v ∈ ord then 0 else (g.nbrs v).length

theorem djMeasure_settle (g : Graph V K) {ord : List Nat} {s s' : DjState K} {u : Nat}
    (huo : u ∉ ord) (hun : u < g.numVertices)
    (hlen : s'.pq.length + 1 ≤ s.pq.length + (g.nbrs u).length) :
    djMeasure g (ord ++ [u]) s' < djMeasure g ord s := by
  unfold djMeasure
  have hlt : u ∈ Finset.range g.numVertices := Finset.mem_range.2 hun
  rw [← Finset.add_sum_erase _ _ hlt, ← Finset.add_sum_erase _ _ hlt]
  have h1 : ∑ v ∈ (Finset.range g.numVertices).erase u, (if v ∈ ord ++ [u] then 0 else (g.nbrs v).length) =
      ∑ v ∈ (Finset.range g.numVertices).erase u, if v ∈ ord then 0 else (g.nbrs v).length := by
    apply Finset.sum_congr rfl
    intro v hv
    have := Finset.ne_of_mem_erase hv
    simp [this]
  rw [h1]
  simp [huo]
  omega

theorem djStep_inv {g : Graph V K} (hg : g.WF) (hw : Nonneg g) {start : Nat} (ord : List Nat)
    (s s' : DjState K) (hI : DjInv g start ord s ∧ s.nodesVisited = ord.length) (hs : djStep g s = some s') :
    ∃ ord', (DjInv g start ord' s' ∧ s'.nodesVisited = ord'.length) ∧
      djMeasure g ord' s' < djMeasure g ord s := by
  obtain ⟨hI, hcnt⟩ := hI
  unfold djStep at hs
  split at hs
  · cases hs
  next d u rest hp =>
  split at hs
  · next hd =>
    cases hs
    refine ⟨ord, ⟨djInv_skip hI hp hd _, hcnt⟩, ?_⟩
    have := (popMin_perm _ _ hp).length_eq
    simp at this
    simp [djMeasure]; omega
  · next hd =>
    cases hs
    obtain ⟨s', h1, h2, h3, h4, h5⟩ := djInv_settle hg hw hI hp hd (s.nodesVisited + 1)
    refine ⟨ord ++ [u], ?_, ?_⟩
    · rw [h1]
      refine ⟨h2, ?_⟩
      obtain ⟨nw, s'', e0, e1, e2, _⟩ := relax_fold u d (g.nbrs u)
        { s with pq := rest, nodesVisited := s.nodesVisited + 1 }
        (le_antisymm (hI.qle d u ((popMin_perm _ _ hp).subset List.mem_cons_self)) (not_lt.1 hd))
        (fun e he => hw u e.to e.weight (hg.weight_iff.2 he))
      rw [← h1, e0, e2]; simp [hcnt]
    · rw [h1]; exact djMeasure_settle g h3 h4 h5

theorem djMeasure_init (g : Graph V K) (start : Nat) :
    djMeasure g [] (djInit start : DjState K) < g.entries + 2 := by
  simp [djMeasure, djInit, Graph.entries]; omega

theorem dijkstra_terminates {g : Graph V K} (hg : g.WF) (hw : Nonneg g) {start : Nat}
    (h : start < g.numVertices) :
    ∃ ord s, whileFuel (djStep g) (g.entries + 2) (djInit start) = some s ∧
      DjInv g start ord s ∧ s.pq = [] ∧ s.nodesVisited = ord.length := by
  obtain ⟨ord, s, h1, ⟨h2, hc⟩, h3⟩ := whileFuel_rule_ghost (djStep g)
    (fun ord s => DjInv g start ord s ∧ s.nodesVisited = ord.length) (djMeasure g)
    (djStep_inv hg hw) (g.entries + 2) [] (djInit start) ⟨djInv_init g h, rfl⟩ (djMeasure_init g start)
  refine ⟨ord, s, h1, h2, ?_, hc⟩
  unfold djStep at h3
  split at h3
  · next hn => exact (popMin_none _ _).1 hn
  · split at h3 <;> cases h3

/-- Any walk either is at least as heavy as the tentative distance of its end or at least as heavy as the
least queue entry. -/
theorem DjInv.cut {g : Graph V K} (hw : Nonneg g) {start : Nat} {ord : List Nat} {s : DjState K}
    (hI : DjInv g start ord s) (m : WithTop K) (hm : ∀ d v, (d, v) ∈ s.pq → m ≤ (d : WithTop K))
    {v k : Nat} {x : K} (h : WWalk g start v k x) : s.dist v ≤ (x : WithTop K) ∨ m ≤ (x : WithTop K) := by
  induction h with
  | nil _ => left; rw [hI.start0]
  | @snoc u v k x w _ he ih =>
    have hwn := hw _ _ _ he
    have hxw : (x : WithTop K) ≤ ((x + w : K) : WithTop K) := WithTop.coe_le_coe.2 (le_add_of_nonneg_right hwn)
    rcases ih with h | h
    · by_cases hu : u ∈ ord
      · left
        refine (hI.closed u hu v w he).trans ?_
        rw [WithTop.coe_add]
        exact add_le_add_left h _
      · right
        cases hdu : s.dist u with
        | top => rw [hdu] at h; exact absurd (top_le_iff.1 h) (WithTop.coe_ne_top)
        | coe du =>
          rw [hdu] at h
          exact ((hm du u (hI.inq u du hu hdu)).trans h).trans hxw
    · exact Or.inr (h.trans hxw)

theorem DjInv.final {g : Graph V K} (hw : Nonneg g) {start : Nat} {ord : List Nat} {s : DjState K}
    (hI : DjInv g start ord s) (hq : s.pq = []) {v k : Nat} {x : K} (h : WWalk g start v k x) :
    s.dist v ≤ (x : WithTop K) := by
  rcases hI.cut hw ⊤ (by rw [hq]; simp) h with h | h
  · exact h
  · exact absurd (top_le_iff.1 h) WithTop.coe_ne_top

end Verif.Graph
