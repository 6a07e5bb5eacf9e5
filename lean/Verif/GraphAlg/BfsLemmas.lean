import Verif.GraphAlg.TraverseModel
import Mathlib.Data.List.Nodup
import Mathlib.Data.List.Dedup
import Mathlib.Tactic.Push
import Mathlib.Tactic.Tauto
import Mathlib.Data.Fintype.Card

/-! # Invariant of breadth-first search: helper lemmas -/

set_option autoImplicit false

namespace Verif.Graph

variable {V E : Type}

/-- Effect of the neighbour loop of `BFS`: the fresh neighbours are appended to the queue, each once. -/
theorem bfsVisit_fold (u : Nat) (es : List (Edge E)) (s : TrState) (hu : s.visited u = true) :
    ∃ nw : List Nat, nw.Nodup ∧
      (∀ v, v ∈ nw ↔ s.visited v = false ∧ ∃ e ∈ es, e.to = v) ∧
      es.foldl (bfsVisit u) s =
        { visited := fun v => s.visited v || decide (v ∈ nw)
          parent := fun v => if v ∈ nw then some u else s.parent v
          dist := fun v => if v ∈ nw then (s.dist u).map (· + 1) else s.dist v
          work := s.work ++ nw
          order := s.order
          nodesVisited := s.nodesVisited } := by
  induction es generalizing s with
  | nil =>
    refine ⟨[], List.nodup_nil, by simp, ?_⟩
    cases s; simp
  | cons e es ih =>
    rw [List.foldl_cons]
    by_cases hv : s.visited e.to = true
    · have h1 : bfsVisit u s e = s := by simp [bfsVisit, hv]
      rw [h1]
      obtain ⟨nw, h2, h3, h4⟩ := ih s hu
      refine ⟨nw, h2, fun v => ?_, h4⟩
      rw [h3]
      constructor
      · rintro ⟨a, e', he', rfl⟩; exact ⟨a, e', List.mem_cons_of_mem _ he', rfl⟩
      · rintro ⟨a, e', he', rfl⟩
        rcases List.mem_cons.1 he' with rfl | he'
        · rw [hv] at a; cases a
        · exact ⟨a, e', he', rfl⟩
    · have hv : s.visited e.to = false := by simpa using hv
      have hne : u ≠ e.to := by rintro rfl; rw [hu] at hv; cases hv
      generalize hs' : bfsVisit u s e = s'
      have h1 := hs'
      simp only [bfsVisit, hv, Bool.false_eq_true, if_false] at h1
      obtain ⟨nw, h2, h3, h4⟩ := ih s' (by rw [← h1]; simp [Function.update_of_ne hne, hu])
      have h3' : e.to ∉ nw := by rw [h3, ← h1]; simp
      refine ⟨e.to :: nw, List.nodup_cons.2 ⟨h3', h2⟩, fun v => ?_, ?_⟩
      · rw [List.mem_cons, h3, ← h1]
        simp only [List.mem_cons]
        by_cases hve : v = e.to
        · subst hve; simp [hv]
        · simp only [Function.update_of_ne hve, hve, false_or]
          constructor
          · rintro ⟨a, e', he', rfl⟩; exact ⟨a, e', Or.inr he', rfl⟩
          · rintro ⟨a, e', he' | he', rfl⟩
            · exact absurd (by rw [he']) hve
            · exact ⟨a, e', he', rfl⟩
      · rw [h4, ← h1]
        simp only [List.mem_cons, List.append_assoc, List.singleton_append, Function.update_of_ne hne]
        congr 1 <;> funext v <;> by_cases hve : v = e.to
        all_goals first | (subst hve; simp [h3']) | simp [hve]

/-- The invariant of the main loop of `BFS`. -/
structure BfsInv (g : Graph V E) (start : Nat) (s : TrState) : Prop where
  cover : ∀ v, s.visited v = true ↔ v ∈ s.order ++ s.work
  nodup : (s.order ++ s.work).Nodup
  lt : ∀ v ∈ s.order ++ s.work, v < g.numVertices
  distSome : ∀ v, s.visited v = true ↔ (s.dist v).isSome
  walk : ∀ v k, s.dist v = some k → Walk g start v k
  sorted : (s.order ++ s.work).Pairwise (fun x y => ∀ a b, s.dist x = some a → s.dist y = some b → a ≤ b)
  near : ∀ x ∈ s.work, ∀ y ∈ s.work, ∀ a b, s.dist x = some a → s.dist y = some b → b ≤ a + 1
  closed : ∀ u ∈ s.order, ∀ v, Adj g u v →
    s.visited v = true ∧ ∀ a b, s.dist u = some a → s.dist v = some b → b ≤ a + 1
  startDist : s.dist start = some 0
  par : ∀ v p, s.parent v = some p → Adj g p v ∧ p ∈ s.order ∧
    ∃ a, s.dist p = some a ∧ s.dist v = some (a + 1)
  parNone : ∀ v, s.parent v = none → s.visited v = true → v = start
  parStart : s.parent start = none
  count : s.nodesVisited = s.order.length

theorem bfsInv_init (g : Graph V E) {start : Nat} (h : start < g.numVertices) :
    BfsInv g start (bfsInit start) where
  cover v := by
    by_cases hv : v = start <;> simp [bfsInit, hv]
  nodup := by simp [bfsInit]
  lt v hv := by simp [bfsInit] at hv; omega
  distSome v := by by_cases hv : v = start <;> simp [bfsInit, hv]
  walk v k hk := by
    by_cases hv : v = start
    · subst hv; simp [bfsInit] at hk; subst hk; exact .nil h
    · simp [bfsInit, hv] at hk
  sorted := by simp [bfsInit]
  near x hx y hy a b ha hb := by
    simp [bfsInit] at hx hy; subst hx; subst hy; rw [ha] at hb; cases hb; omega
  closed u hu := by simp [bfsInit] at hu
  startDist := by simp [bfsInit]
  par v p h := by simp [bfsInit] at h
  parNone v _ hv := by
    by_contra hne; simp [bfsInit, hne] at hv
  parStart := rfl
  count := rfl

theorem bfsInv_step {g : Graph V E} (hg : g.WF) {start : Nat} {s s' : TrState}
    (hI : BfsInv g start s) (hs : bfsStep g s = some s') : BfsInv g start s' := by
  unfold bfsStep at hs
  split at hs
  · cases hs
  next u q hw =>
  cases hs
  have huv : s.visited u = true := (hI.cover u).2 (by simp [hw])
  obtain ⟨nw, hnd, hmem, heq⟩ := bfsVisit_fold u (g.nbrs u)
    { s with work := q, order := s.order ++ [u], nodesVisited := s.nodesVisited + 1 } huv
  rw [heq]
  simp only at hmem ⊢
  have hnew : ∀ v, v ∈ nw ↔ s.visited v = false ∧ Adj g u v := by
    intro v; rw [hmem, hg.adj_iff]
  have hfresh : ∀ v ∈ nw, s.visited v = false := fun v hv => ((hnew v).1 hv).1
  have hall : (s.order ++ [u]) ++ (q ++ nw) = (s.order ++ s.work) ++ nw := by rw [hw]; simp
  have hall' : (s.order ++ [u]) ++ q = s.order ++ s.work := by rw [hw]; simp
  have hdisj : ∀ v, s.visited v = true → v ∉ nw := by
    intro v hv h; rw [hfresh v h] at hv; cases hv
  obtain ⟨du, hdu⟩ := Option.isSome_iff_exists.1 ((hI.distSome u).1 huv)
  have hun : u ∉ nw := hdisj u huv
  -- old vertices keep their distance
  have hold : ∀ v, s.visited v = true →
      (if v ∈ nw then (s.dist u).map (· + 1) else s.dist v) = s.dist v :=
    fun v hv => if_neg (hdisj v hv)
  have hnewd : ∀ v, v ∈ nw → (if v ∈ nw then (s.dist u).map (· + 1) else s.dist v) = some (du + 1) := by
    intro v hv; rw [if_pos hv, hdu]; rfl
  have hvis : ∀ v, v ∈ s.order ++ s.work → s.visited v = true := fun v hv => (hI.cover v).2 hv
  -- every queue entry is at distance du or du+1
  have hqhi : ∀ y ∈ s.work, ∀ b, s.dist y = some b → b ≤ du + 1 := by
    intro y hy b hb
    exact hI.near u (by simp [hw]) y hy du b hdu hb
  have hqlo : ∀ y ∈ s.work, ∀ b, s.dist y = some b → du ≤ b := by
    intro y hy b hb
    have h := hI.sorted
    rw [hw, List.pairwise_append] at h
    rw [hw] at hy
    rcases List.mem_cons.1 hy with rfl | hy
    · rw [hdu] at hb; cases hb; exact le_refl _
    · exact (List.pairwise_cons.1 h.2.1).1 y hy du b hdu hb
  have hordlo : ∀ y ∈ s.order, ∀ b, s.dist y = some b → b ≤ du := by
    intro y hy b hb
    have h := hI.sorted
    rw [List.pairwise_append] at h
    exact h.2.2 y hy u (by simp [hw]) b du hb hdu
  clear heq
  constructor
  all_goals dsimp only
  · -- cover
    intro v
    simp only [hall]
    rw [List.mem_append, ← hI.cover v]
    simp
  · -- nodup
    simp only [hall]
    rw [List.nodup_append]
    refine ⟨hI.nodup, hnd, ?_⟩
    rintro a ha b hb rfl
    exact hdisj a (hvis a ha) hb
  · -- lt
    intro v hv
    simp only [hall] at hv
    rcases List.mem_append.1 hv with hv | hv
    · exact hI.lt v hv
    · exact (hg.adj_lt ((hnew v).1 hv).2).2
  · -- distSome
    intro v
    by_cases hv : v ∈ nw
    · simp [hv, hdu]
    · simp [hv, hI.distSome v]
  · -- walk
    intro v k hk
    by_cases hv : v ∈ nw
    · rw [if_pos hv, hdu] at hk
      cases hk
      exact (hI.walk u du hdu).snoc ((hnew v).1 hv).2
    · rw [if_neg hv] at hk
      exact hI.walk v k hk
  · -- sorted
    simp only [hall]
    rw [List.pairwise_append]
    refine ⟨?_, ?_, ?_⟩
    · refine hI.sorted.imp_of_mem ?_
      intro x y hx hy h a b ha hb
      rw [hold x (hvis x hx)] at ha
      rw [hold y (hvis y hy)] at hb
      exact h a b ha hb
    · rw [List.pairwise_iff_forall_sublist]
      intro x y hxy a b ha hb
      have hx : x ∈ nw := hxy.subset (by simp)
      have hy : y ∈ nw := hxy.subset (by simp)
      rw [hnewd x hx] at ha
      rw [hnewd y hy] at hb
      cases ha; cases hb; exact le_refl _
    · intro x hx y hy a b ha hb
      rw [hold x (hvis x hx)] at ha
      rw [hnewd y hy] at hb
      cases hb
      rcases List.mem_append.1 hx with hx | hx
      · have := hordlo x hx a ha; omega
      · exact hqhi x hx a ha
  · -- near
    intro x hx y hy a b ha hb
    have hqw : ∀ z, z ∈ q → z ∈ s.work := fun z hz => by rw [hw]; exact List.mem_cons_of_mem _ hz
    have lo : ∀ z c, z ∈ q ++ nw → (if z ∈ nw then (s.dist u).map (· + 1) else s.dist z) = some c →
        du ≤ c ∧ c ≤ du + 1 := by
      intro z c hz hc
      rcases List.mem_append.1 hz with hz | hz
      · rw [hold z (hvis z (List.mem_append_right _ (hqw z hz)))] at hc
        exact ⟨hqlo z (hqw z hz) c hc, hqhi z (hqw z hz) c hc⟩
      · rw [hnewd z hz] at hc; cases hc; exact ⟨by omega, le_refl _⟩
    have h1 := lo x a hx ha
    have h2 := lo y b hy hb
    omega
  · -- closed
    intro x hx v hxv
    rcases List.mem_append.1 hx with hx | hx
    · have hxvis := hvis x (List.mem_append_left _ hx)
      obtain ⟨h1, h2⟩ := hI.closed x hx v hxv
      refine ⟨by simp [h1], ?_⟩
      intro a b ha hb
      rw [hold x hxvis] at ha
      rw [hold v h1] at hb
      exact h2 a b ha hb
    · have hx : x = u := by simpa using hx
      subst hx
      by_cases hv : s.visited v = true
      · refine ⟨by simp [hv], ?_⟩
        intro a b ha hb
        rw [hold x huv, hdu] at ha
        cases ha
        rw [hold v hv] at hb
        rcases List.mem_append.1 ((hI.cover v).1 hv) with h | h
        · have := hordlo v h b hb; omega
        · exact hqhi v h b hb
      · have hv : s.visited v = false := by simpa using hv
        have hvn : v ∈ nw := (hnew v).2 ⟨hv, hxv⟩
        refine ⟨by simp [hvn], ?_⟩
        intro a b ha hb
        rw [hold x huv, hdu] at ha
        rw [hnewd v hvn] at hb
        cases ha; cases hb; exact le_refl _
  · -- startDist
    have hst : s.visited start = true := (hI.distSome start).2 (by simp [hI.startDist])
    show (if start ∈ nw then _ else _) = _
    rw [hold start hst, hI.startDist]
  · -- par
    intro v p hp
    by_cases hv : v ∈ nw
    · simp only [hv, if_true] at hp ⊢
      cases hp
      refine ⟨((hnew v).1 hv).2, by simp, du, ?_, by simp [hdu]⟩
      rw [if_neg hun, hdu]
    · simp only [hv, if_false] at hp ⊢
      obtain ⟨h1, h2, a, h3, h4⟩ := hI.par v p hp
      refine ⟨h1, by simp [h2], a, ?_, h4⟩
      rw [hold p (hvis p (List.mem_append_left _ h2)), h3]
  · -- parNone
    intro v hp hv
    by_cases hvn : v ∈ nw
    · simp [hvn] at hp
    · simp only [hvn, if_false] at hp
      simp [hvn] at hv
      exact hI.parNone v hp hv
  · -- parStart
    have hst : s.visited start = true := (hI.distSome start).2 (by simp [hI.startDist])
    show (if start ∈ nw then _ else _) = _
    rw [if_neg (hdisj start hst), hI.parStart]
  · simp [hI.count]

/-- A list of distinct numbers below `n` has at most `n` entries. -/
theorem nodup_length_le {l : List Nat} {n : Nat} (hn : l.Nodup) (hlt : ∀ v ∈ l, v < n) :
    l.length ≤ n := by
  rw [← List.toFinset_card_of_nodup hn, ← Finset.card_range n]
  apply Finset.card_le_card
  intro v hv
  simpa using hlt v (by simpa using hv)

theorem bfs_terminates {g : Graph V E} (hg : g.WF) {start : Nat} (h : start < g.numVertices) :
    ∃ s, whileFuel (bfsStep g) (g.numVertices + 1) (bfsInit start) = some s ∧
      BfsInv g start s ∧ s.work = [] := by
  obtain ⟨s, h1, h2, h3⟩ := whileFuel_rule (bfsStep g) (BfsInv g start)
    (fun s => g.numVertices - s.order.length)
    (by
      intro s s' hI hs
      have hI' := bfsInv_step hg hI hs
      refine ⟨hI', ?_⟩
      have hle : s'.order.length ≤ g.numVertices :=
        nodup_length_le (List.nodup_append.1 hI'.nodup).1
          (fun v hv => hI'.lt v (List.mem_append_left _ hv))
      have : s'.order.length = s.order.length + 1 := by
        unfold bfsStep at hs
        split at hs
        · cases hs
        next u q hw =>
        cases hs
        obtain ⟨nw, _, _, heq⟩ := bfsVisit_fold u (g.nbrs u)
          { s with work := q, order := s.order ++ [u], nodesVisited := s.nodesVisited + 1 }
          ((hI.cover u).2 (by simp [hw]))
        rw [heq]; simp
      omega)
    (g.numVertices + 1) (bfsInit start) (bfsInv_init g h)
    (by show g.numVertices - _ < _; omega)
  refine ⟨s, h1, h2, ?_⟩
  unfold bfsStep at h3
  split at h3
  · next hw => exact hw
  · cases h3

/-- At the end of `BFS` every walk is at least as long as the recorded distance. -/
theorem BfsInv.lower {g : Graph V E} {start : Nat} {s : TrState} (hI : BfsInv g start s)
    (hw : s.work = []) {v k : Nat} (h : Walk g start v k) : ∃ a, s.dist v = some a ∧ a ≤ k := by
  induction h with
  | nil _ => exact ⟨0, hI.startDist, le_refl _⟩
  | snoc _ ha ih =>
    obtain ⟨a, h1, h2⟩ := ih
    have hv := (hI.cover _).1 ((hI.distSome _).2 (by rw [h1]; rfl))
    rw [hw, List.append_nil] at hv
    obtain ⟨h3, h4⟩ := hI.closed _ hv _ ha
    obtain ⟨b, hb⟩ := Option.isSome_iff_exists.1 ((hI.distSome _).1 h3)
    exact ⟨b, hb, by have := h4 a b h1 hb; omega⟩

end Verif.Graph
