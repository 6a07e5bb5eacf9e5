import Verif.GraphAlg.TraverseProps

/-!
# Property C11: connected components and connectivity
-/

set_option autoImplicit false

namespace Verif.Graph

variable {V E : Type}

theorem adj_symm {g : Graph V E} (hg : g.WF) (hs : g.Symm) {u v : Nat} (h : Adj g u v) : Adj g v u := by
  obtain ⟨x, hx⟩ := hg.adj_iff_weight.1 h
  exact hg.adj_iff_weight.2 ⟨x, hs u v x hx⟩

theorem Reach.trans {g : Graph V E} {a b c : Nat} (h1 : Reach g a b) (h2 : Reach g b c) : Reach g a c := by
  obtain ⟨k, hk⟩ := h2
  induction hk with
  | nil _ => exact h1
  | snoc _ ha ih => exact ih.snoc ha

theorem Reach.symm {g : Graph V E} (hg : g.WF) (hs : g.Symm) {a b : Nat} (h : Reach g a b) : Reach g b a := by
  obtain ⟨k, hk⟩ := h
  induction hk with
  | nil h => exact ⟨0, .nil h⟩
  | snoc _ ha ih =>
    exact (show Reach g _ _ from ⟨1, (Walk.nil (hg.adj_lt ha).2).snoc (adj_symm hg hs ha)⟩).trans ih

theorem ccVisit_fold (num : Nat) (es : List (Edge E)) (s : CcState) :
    ∃ nw : List Nat, nw.Nodup ∧
      (∀ v, v ∈ nw ↔ s.componentId v = none ∧ ∃ e ∈ es, e.to = v) ∧
      es.foldl (ccVisit num) s =
        { componentId := fun v => if v ∈ nw then some num else s.componentId v
          queue := s.queue ++ nw
          component := s.component } := by
  induction es generalizing s with
  | nil => exact ⟨[], List.nodup_nil, by simp, by cases s; simp⟩
  | cons e es ih =>
    rw [List.foldl_cons]
    by_cases hv : s.componentId e.to = none
    · generalize hs' : ccVisit num s e = s'
      have h1 := hs'
      simp only [ccVisit, hv, if_true] at h1
      obtain ⟨nw, h2, h3, h4⟩ := ih s'
      have h3' : e.to ∉ nw := by rw [h3, ← h1]; simp
      refine ⟨e.to :: nw, List.nodup_cons.2 ⟨h3', h2⟩, fun v => ?_, ?_⟩
      · rw [List.mem_cons, h3, ← h1]
        simp only [List.mem_cons]
        by_cases hve : v = e.to
        · subst hve; simp [hv]
        · simp only [Function.update_of_ne hve, hve, false_or]
          constructor
          · rintro ⟨a, e', he', rfl⟩; exact ⟨a, e', Or.inr he', rfl⟩
          · rintro ⟨a, e', he' | he', rfl⟩
            · exact absurd (by rw [he']) hve
            · exact ⟨a, e', he', rfl⟩
      · rw [h4, ← h1]
        simp only [List.mem_cons, List.append_assoc, List.singleton_append]
        congr 1
        funext v
        by_cases hve : v = e.to
        · subst hve; simp
        · simp [hve]
    · have h1 : ccVisit num s e = s := by simp [ccVisit, hv]
      rw [h1]
      obtain ⟨nw, h2, h3, h4⟩ := ih s
      refine ⟨nw, h2, fun v => ?_, h4⟩
      rw [h3]
      constructor
      · rintro ⟨a, e', he', rfl⟩; exact ⟨a, e', List.mem_cons_of_mem _ he', rfl⟩
      · rintro ⟨a, e', he', rfl⟩
        rcases List.mem_cons.1 he' with rfl | he'
        · exact absurd a hv
        · exact ⟨a, e', he', rfl⟩

/-- Invariant of the inner loop; `id0` is the labelling before the search from `v`. -/
structure CcInv (g : Graph V E) (id0 : Nat → Option Nat) (num v : Nat) (s : CcState) : Prop where
  ids : ∀ x, s.componentId x = if x ∈ s.component ++ s.queue then some num else id0 x
  nodup : (s.component ++ s.queue).Nodup
  fresh : ∀ x ∈ s.component ++ s.queue, id0 x = none ∧ Reach g v x
  root : v ∈ s.component ++ s.queue
  closed : ∀ u ∈ s.component, ∀ y, Adj g u y → s.componentId y ≠ none

theorem ccInv_step {g : Graph V E} (hg : g.WF) {id0 : Nat → Option Nat} {num v : Nat} {s s' : CcState}
    (hI : CcInv g id0 num v s) (hs : ccStep g num s = some s') :
    CcInv g id0 num v s' ∧ s'.component.length = s.component.length + 1 := by
  unfold ccStep at hs
  split at hs
  · cases hs
  next u q hw =>
  cases hs
  obtain ⟨nw, hnd, hmem, heq⟩ := ccVisit_fold num (g.nbrs u)
    { s with queue := q, component := s.component ++ [u] }
  rw [heq]
  simp only at hmem
  have hnew : ∀ x, x ∈ nw ↔ s.componentId x = none ∧ Adj g u x := by
    intro x; rw [hmem, hg.adj_iff]
  have hall : (s.component ++ [u]) ++ (q ++ nw) = (s.component ++ s.queue) ++ nw := by rw [hw]; simp
  have hreach : Reach g v u := (hI.fresh u (by simp [hw])).2
  have hcov : ∀ x ∈ s.component ++ s.queue, s.componentId x = some num := by
    intro x hx; rw [hI.ids, if_pos hx]
  clear heq
  refine ⟨?_, by simp⟩
  constructor
  all_goals dsimp only
  · intro x
    simp only [hall]
    by_cases h1 : x ∈ nw
    · simp [h1]
    · rw [if_neg h1, hI.ids]
      simp [h1]
  · rw [hall, List.nodup_append]
    refine ⟨hI.nodup, hnd, ?_⟩
    rintro a ha b hb rfl
    have := ((hnew a).1 hb).1
    rw [hcov a ha] at this; cases this
  · intro x hx
    rw [hall] at hx
    rcases List.mem_append.1 hx with hx | hx
    · exact hI.fresh x hx
    · obtain ⟨h1, h2⟩ := (hnew x).1 hx
      refine ⟨?_, hreach.snoc h2⟩
      rw [hI.ids] at h1
      split at h1
      · cases h1
      · exact h1
  · rw [hall]; exact List.mem_append_left _ hI.root
  · intro x hx y hxy
    split
    · simp
    · next hy =>
      rcases List.mem_append.1 hx with hx | hx
      · exact hI.closed x hx y hxy
      · simp at hx; subst hx
        intro hnone
        exact hy ((hnew y).2 ⟨hnone, hxy⟩)

/-- Invariant of the outer loop before vertex `k`. -/
structure CcOInv (g : Graph V E) (k : Nat) (s : CcOuter) : Prop where
  idlt : ∀ x c, s.componentId x = some c → c < s.num ∧ x < g.numVertices
  len : s.components.length = s.num
  comp : ∀ (c : Nat) (l : List Nat), s.components[c]? = some l →
    l ≠ [] ∧ l.Nodup ∧ ∀ x, x ∈ l ↔ s.componentId x = some c
  closed : ∀ x y c, Adj g x y → s.componentId x = some c → s.componentId y = some c
  conn : ∀ x y c, s.componentId x = some c → s.componentId y = some c → Reach g x y
  done : ∀ x < k, s.componentId x ≠ none

theorem ccBody_inv {g : Graph V E} (hg : g.WF) (hsym : g.Symm) {k : Nat} {s : CcOuter}
    (hI : CcOInv g k s) (hk : k < g.numVertices) :
    ∃ s', ccBody g s k = some s' ∧ CcOInv g (k + 1) s' := by
  unfold ccBody
  by_cases hd : s.componentId k ≠ none
  · rw [if_pos hd]
    refine ⟨s, rfl, ⟨hI.idlt, hI.len, hI.comp, hI.closed, hI.conn, ?_⟩⟩
    intro x hx
    by_cases hxk : x = k
    · subst hxk; exact hd
    · exact hI.done x (by omega)
  rw [if_neg hd]
  have hd : s.componentId k = none := by simpa using hd
  obtain ⟨t, h1, hT, h3⟩ := whileFuel_rule (ccStep g s.num) (CcInv g s.componentId s.num k)
    (fun t => g.numVertices - t.component.length)
    (by
      intro a a' hA ha
      obtain ⟨hA', hl⟩ := ccInv_step hg hA ha
      refine ⟨hA', ?_⟩
      have : a'.component.length ≤ g.numVertices :=
        nodup_length_le (List.nodup_append.1 hA'.nodup).1 (fun x hx => by
          obtain ⟨j, hj⟩ := (hA'.fresh x (List.mem_append_left _ hx)).2
          exact (hg.walk_lt hj).2)
      omega)
    (g.numVertices + 1)
    { componentId := Function.update s.componentId k (some s.num), queue := [k], component := [] }
    { ids := fun x => by by_cases hx : x = k <;> simp [hx]
      nodup := by simp
      fresh := fun x hx => by
        simp at hx; subst hx; exact ⟨hd, 0, .nil hk⟩
      root := by simp
      closed := fun u hu => by simp at hu }
    (by show g.numVertices - _ < _; omega)
  have hq : t.queue = [] := by
    unfold ccStep at h3
    split at h3
    · assumption
    · cases h3
  rw [h1]
  refine ⟨_, rfl, ?_⟩
  have hids : ∀ x, t.componentId x = if x ∈ t.component then some s.num else s.componentId x := by
    intro x; rw [hT.ids, hq, List.append_nil]
  have hfresh : ∀ x ∈ t.component, s.componentId x = none ∧ Reach g k x := fun x hx =>
    hT.fresh x (List.mem_append_left _ hx)
  have hroot : k ∈ t.component := by have := hT.root; rwa [hq, List.append_nil] at this
  have hnew : ∀ x, x ∈ t.component ↔ t.componentId x = some s.num := by
    intro x
    rw [hids]
    by_cases hx : x ∈ t.component
    · simp [hx]
    · simp only [hx, if_false, false_iff]
      intro h
      have := (hI.idlt x _ h).1
      omega
  have holdid : ∀ x c, c < s.num → (t.componentId x = some c ↔ s.componentId x = some c) := by
    intro x c hc
    rw [hids]
    by_cases hx : x ∈ t.component
    · rw [if_pos hx, (hfresh x hx).1]
      simp; omega
    · rw [if_neg hx]
  have hclosed : ∀ x ∈ t.component, ∀ y, Adj g x y → y ∈ t.component := by
    intro x hx y hxy
    by_contra hy
    have h4 := hT.closed x hx y hxy
    rw [hids, if_neg hy] at h4
    obtain ⟨c, hc⟩ := Option.ne_none_iff_exists'.1 h4
    have := hI.closed y x c (adj_symm hg hsym hxy) hc
    rw [(hfresh x hx).1] at this; cases this
  constructor
  all_goals dsimp only
  · intro x c hx
    rw [hids] at hx
    split at hx
    · next hm =>
      cases hx
      obtain ⟨j, hj⟩ := (hfresh x hm).2
      exact ⟨by omega, (hg.walk_lt hj).2⟩
    · obtain ⟨h5, h6⟩ := hI.idlt x c hx
      exact ⟨by omega, h6⟩
  · simp [hI.len]
  · intro c l hl
    rw [List.getElem?_append] at hl
    split at hl
    · next hc =>
      obtain ⟨h5, h6, h7⟩ := hI.comp c l hl
      rw [hI.len] at hc
      exact ⟨h5, h6, fun x => by rw [h7, holdid x c hc]⟩
    · next hc =>
      rw [hI.len] at hc hl
      have : c - s.num = 0 := by
        by_contra h
        rw [List.getElem?_eq_none (by simp; omega)] at hl; cases hl
      have hcs : c = s.num := by omega
      rw [this] at hl
      simp at hl; subst hl; subst hcs
      refine ⟨List.ne_nil_of_mem hroot, ?_, hnew⟩
      exact (List.nodup_append.1 hT.nodup).1
  · intro x y c hxy hx
    rw [hids] at hx
    split at hx
    · next hm =>
      cases hx
      rw [hids, if_pos (hclosed x hm y hxy)]
    · have h5 := hI.closed x y c hxy hx
      exact (holdid y c (hI.idlt x c hx).1).2 h5
  · intro x y c hx hy
    by_cases hc : c = s.num
    · subst hc
      have hx' := (hfresh x ((hnew x).2 hx)).2
      have hy' := (hfresh y ((hnew y).2 hy)).2
      exact (hx'.symm hg hsym).trans hy'
    · have hlt : ∀ z, t.componentId z = some c → c < s.num := by
        intro z hz
        rw [hids] at hz
        split at hz
        · cases hz; exact absurd rfl hc
        · exact (hI.idlt z c hz).1
      exact hI.conn x y c ((holdid x c (hlt x hx)).1 hx) ((holdid y c (hlt x hx)).1 hy)
  · intro x hx
    rw [hids]
    split
    · simp
    · next hm =>
      have : x ≠ k := by rintro rfl; exact hm hroot
      exact hI.done x (by omega)

theorem ccOuter_run {g : Graph V E} (hg : g.WF) (hsym : g.Symm) (n : Nat) (hn : n ≤ g.numVertices) :
    ∃ s, (List.range n).foldlM (ccBody g) { componentId := fun _ => none, components := [], num := 0 } =
      some s ∧ CcOInv g n s := by
  induction n with
  | zero =>
    exact ⟨_, rfl, ⟨by simp, rfl, by simp, by simp, by simp, by simp⟩⟩
  | succ n ih =>
    obtain ⟨s, h1, h2⟩ := ih (by omega)
    obtain ⟨s', h3, h4⟩ := ccBody_inv hg hsym h2 (by omega)
    refine ⟨s', ?_, h4⟩
    rw [List.range_succ, List.foldlM_append, h1]
    simp [h3]

/-- **C11.** `ConnectedComponents` of an undirected graph returns.  Two vertices get the same label exactly
when there is a path between them; the labels are exactly `0 .. numComponents - 1`; and the `c`-th
component list contains the vertices labelled `c`, each once. -/
theorem connectedComponents_correct {g : Graph V E} (hg : g.WF) (hsym : g.Symm) :
    ∃ r, connectedComponents g = some r ∧
      r.componentId.length = g.numVertices ∧
      (∀ u v, u < g.numVertices → v < g.numVertices →
        (r.componentId[u]? = r.componentId[v]? ↔ Reach g u v)) ∧
      (∀ v, v < g.numVertices → ∃ c < r.numComponents, r.componentId[v]? = some (some c)) ∧
      (∀ c < r.numComponents, ∃ v < g.numVertices, r.componentId[v]? = some (some c)) ∧
      r.components.length = r.numComponents ∧
      (∀ (c : Nat) (l : List Nat), r.components[c]? = some l →
        l.Nodup ∧ ∀ v, v ∈ l ↔ r.componentId[v]? = some (some c)) := by
  unfold connectedComponents
  by_cases h0 : g.numVertices = 0
  · rw [if_pos h0]
    refine ⟨_, rfl, by simp [h0], ?_, ?_, ?_, rfl, ?_⟩
    · intro u v hu; omega
    · intro v hv; omega
    · intro c hc; simp at hc
    · intro c l hl; simp at hl
  rw [if_neg h0]
  obtain ⟨s, h1, hI⟩ := ccOuter_run hg hsym g.numVertices (le_refl _)
  rw [h1]
  refine ⟨_, rfl, by simp, ?_, ?_, ?_, hI.len, ?_⟩
  · intro u v hu hv
    rw [getElem?_range_map _ hu, getElem?_range_map _ hv, Option.some.injEq]
    constructor
    · intro h
      obtain ⟨c, hc⟩ := Option.ne_none_iff_exists'.1 (hI.done u hu)
      exact hI.conn u v c hc (h ▸ hc)
    · rintro ⟨k, hk⟩
      induction hk with
      | nil _ => rfl
      | snoc _ ha ih =>
        have hm := (hg.adj_lt ha).1
        have ih := ih hm
        obtain ⟨c, hc⟩ := Option.ne_none_iff_exists'.1 (hI.done _ hm)
        rw [ih, hc, hI.closed _ _ c ha hc]
  · intro v hv
    obtain ⟨c, hc⟩ := Option.ne_none_iff_exists'.1 (hI.done v hv)
    exact ⟨c, (hI.idlt v c hc).1, by rw [getElem?_range_map _ hv, hc]⟩
  · intro c hc
    have hc : c < s.components.length := by rw [hI.len]; exact hc
    obtain ⟨h2, _, h4⟩ := hI.comp c _ (List.getElem?_eq_getElem hc)
    obtain ⟨x, hx⟩ := List.exists_mem_of_ne_nil _ h2
    have h5 := (h4 x).1 hx
    have hxn := (hI.idlt x c h5).2
    exact ⟨x, hxn, by rw [getElem?_range_map _ hxn, h5]⟩
  · intro c l hl
    obtain ⟨_, h3, h4⟩ := hI.comp c l hl
    refine ⟨h3, fun v => ?_⟩
    rw [h4]
    by_cases hv : v < g.numVertices
    · rw [getElem?_range_map _ hv, Option.some.injEq]
    · constructor
      · intro h; exact absurd (hI.idlt v c h).2 hv
      · intro h; simp [hv] at h

/-- **C11** (connectivity).  `IsConnected` of an undirected graph is true exactly when any two vertices are
joined by a path. -/
theorem isConnected_correct {g : Graph V E} (hg : g.WF) (hsym : g.Symm) :
    ∃ b, isConnected g = some b ∧
      (b = true ↔ ∀ u v, u < g.numVertices → v < g.numVertices → Reach g u v) := by
  unfold isConnected
  by_cases h0 : g.numVertices = 0
  · rw [if_pos h0]
    exact ⟨true, rfl, by simp; intro u v hu; omega⟩
  rw [if_neg h0]
  obtain ⟨r, hr, hnd, hmem, hcount, _⟩ := bfs_correct hg (start := 0) (by omega)
  rw [hr]
  refine ⟨_, rfl, ?_⟩
  rw [beq_iff_eq, hcount]
  have hsub : ∀ v ∈ r.visitOrder, v < g.numVertices := by
    intro v hv
    obtain ⟨k, hk⟩ := (hmem v).1 hv
    exact (hg.walk_lt hk).2
  constructor
  · intro h
    have hall : ∀ v, v < g.numVertices → v ∈ r.visitOrder := by
      have hsubset : r.visitOrder.toFinset ⊆ Finset.range g.numVertices := by
        intro v hv; simpa using hsub v (by simpa using hv)
      have heq := Finset.eq_of_subset_of_card_le hsubset
        (by rw [List.toFinset_card_of_nodup hnd, Finset.card_range, h])
      intro v hv
      have : v ∈ r.visitOrder.toFinset := by rw [heq]; simpa using hv
      simpa using this
    intro u v hu hv
    exact (((hmem u).1 (hall u hu)).symm hg hsym).trans ((hmem v).1 (hall v hv))
  · intro h
    apply le_antisymm (nodup_length_le hnd hsub)
    rw [← List.toFinset_card_of_nodup hnd]
    calc g.numVertices = (Finset.range g.numVertices).card := (Finset.card_range _).symm
      _ ≤ _ := Finset.card_le_card (by
        intro v hv
        have hv : v < g.numVertices := by simpa using hv
        simpa using (hmem v).2 (h 0 v (by omega) hv))

/-! ### Concrete instances -/

/-- Two components: a path 0-1-2 and an edge 3-4. -/
def sampleUndirected : Graph Nat Int :=
  reached id .undirected false 5 [.addEdge 0 1 3, .addEdge 2 1 2, .addEdge 3 4 1]

example : sampleUndirected.WF ∧ sampleUndirected.Symm := ⟨reached_wf _ _ _ _ _, reached_symm _ _ _ _⟩

example : connectedComponents sampleUndirected = some
    { componentId := [some 0, some 0, some 0, some 1, some 1], components := [[0, 1, 2], [3, 4]],
      numComponents := 2 } := by decide

example : isConnected sampleUndirected = some false := by decide

/-- On a directed graph `IsConnected` only asks whether vertex 0 reaches everything: `0 → 1` is reported
connected although 1 does not reach 0. -/
example : isConnected (reached id .directed false 2 [.addEdge 0 1 1] : Graph Nat Int) = some true := by decide

end Verif.Graph
