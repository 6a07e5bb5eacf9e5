import Verif.Graph.Spec
import Mathlib.Data.List.Nodup
import Mathlib.Tactic.Ring
import Mathlib.Tactic.Push
import Mathlib.Tactic.Tauto
import Mathlib.Algebra.Order.Ring.Int

/-! # Refinement of the abstract graph by the adjacency-list model: helper lemmas -/

set_option autoImplicit false

namespace Verif.Graph

variable {V E : Type}

/-- Weight found by a first-match scan of an adjacency list. -/
def lk (es : List (Edge E)) (v : Nat) : Option E :=
  (es.find? (fun e => e.to == v)).map Edge.weight

theorem any_eq_lk (es : List (Edge E)) (v : Nat) :
    es.any (fun e => e.to == v) = (lk es v).isSome := by
  induction es with
  | nil => rfl
  | cons e es ih =>
    simp only [lk, List.any_cons, List.find?_cons] at *
    by_cases h : e.to == v <;> simp [h, ih]

theorem lk_append (es : List (Edge E)) (d v : Nat) (x : E) (h : lk es d = none) :
    lk (es ++ [⟨d, x⟩]) v = if v = d then some x else lk es v := by
  unfold lk at *
  rw [List.find?_append]
  by_cases hv : v = d
  · subst hv
    simp only [Option.map_eq_none_iff] at h
    simp [h]
  · have : (d == v) = false := by simpa using fun h => hv h.symm
    simp [List.find?_cons, this, hv]

theorem lk_none_iff (es : List (Edge E)) (v : Nat) :
    lk es v = none ↔ v ∉ es.map Edge.to := by
  simp [lk, List.find?_eq_none]

theorem lk_eraseP (es : List (Edge E)) (d v : Nat) (hn : (es.map Edge.to).Nodup) :
    lk (es.eraseP (fun e => e.to == d)) v = if v = d then none else lk es v := by
  induction es with
  | nil => simp [lk]
  | cons e es ih =>
    simp only [List.map_cons, List.nodup_cons] at hn
    by_cases he : e.to = d
    · have h1 : (e :: es).eraseP (fun e => e.to == d) = es := by
        simp [List.eraseP_cons, he]
      rw [h1]
      by_cases hv : v = d
      · subst hv
        rw [if_pos rfl, lk_none_iff, ← he]
        exact hn.1
      · rw [if_neg hv]
        have : (e.to == v) = false := by simp [he]; exact fun h => hv h.symm
        simp [lk, List.find?_cons, this]
    · have h1 : (e :: es).eraseP (fun e => e.to == d) = e :: es.eraseP (fun e => e.to == d) := by
        simp [List.eraseP_cons, he]
      rw [h1]
      have ih := ih hn.2
      unfold lk at *
      rw [List.find?_cons, List.find?_cons]
      by_cases hv : e.to = v
      · have : v ≠ d := fun h => he (hv.trans h)
        simp [hv, this]
      · have : (e.to == v) = false := by simpa using hv
        simp only [this]
        exact ih

theorem nodup_eraseP (es : List (Edge E)) (p : Edge E → Bool) (hn : (es.map Edge.to).Nodup) :
    ((es.eraseP p).map Edge.to).Nodup :=
  hn.sublist (List.eraseP_sublist.map _)

theorem nodup_append (es : List (Edge E)) (d : Nat) (x : E) (hn : (es.map Edge.to).Nodup)
    (h : lk es d = none) : ((es ++ [(⟨d, x⟩ : Edge E)]).map Edge.to).Nodup := by
  rw [List.map_append, List.nodup_append]
  refine ⟨hn, by simp, ?_⟩
  intro a ha b hb
  simp at hb
  subst hb
  rintro rfl
  rw [lk_none_iff] at h
  exact h ha

/-- The adjacency-list graph `g` represents the abstract graph `a`. -/
structure Rep (g : Graph V E) (a : AbsGraph E) : Prop where
  undir : a.undirected = decide (g.type = .undirected)
  selfOk : a.selfLoopsOk = g.allowSelfLoops
  n_eq : g.vertexData.length = a.n
  adj_len : g.adjList.length = a.n
  nodup : ∀ (u : Nat) (es : List (Edge E)), g.adjList[u]? = some es → (es.map Edge.to).Nodup
  lookup : ∀ (u : Nat) (es : List (Edge E)), g.adjList[u]? = some es → ∀ v, lk es v = a.w u v
  dom : ∀ u v, (a.w u v).isSome → u < a.n ∧ v < a.n
  symm : a.undirected = true → ∀ u v, a.w u v = a.w v u
  noself : a.selfLoopsOk = false → ∀ u, a.w u u = none
  count : g.numEdges = (a.edgePairs.card : Int)

theorem mem_edgePairs (a : AbsGraph E) (u v : Nat) : (u, v) ∈ a.edgePairs ↔
    (u < a.n ∧ v < a.n) ∧ (a.undirected = true → u ≤ v) ∧ (a.w u v).isSome = true := by
  unfold AbsGraph.edgePairs
  rw [Finset.mem_filter, Finset.mem_product, Finset.mem_range, Finset.mem_range]

theorem edgePairs_put_some (a : AbsGraph E) (s d : Nat) (x : E)
    (hs : s < a.n) (hd : d < a.n) (hnone : a.w s d = none)
    (symm : a.undirected = true → ∀ u v, a.w u v = a.w v u) :
    (a.put s d (some x)).edgePairs.card = a.edgePairs.card + 1 := by
  classical
  have key : (a.put s d (some x)).edgePairs =
      insert (if a.undirected = true ∧ d < s then (d, s) else (s, d)) a.edgePairs := by
    ext ⟨u, v⟩
    rw [Finset.mem_insert, mem_edgePairs, mem_edgePairs]
    simp only [AbsGraph.put]
    by_cases hu : a.undirected = true
    · simp only [hu, true_and, true_implies]
      by_cases hds : d < s
      · simp only [hds, if_true, Prod.mk.injEq]
        constructor
        · rintro ⟨⟨h1, h2⟩, h3, h4⟩
          split at h4
          · next h => left; omega
          · exact Or.inr ⟨⟨h1, h2⟩, h3, h4⟩
        · rintro (⟨rfl, rfl⟩ | ⟨⟨h1, h2⟩, h3, h4⟩)
          · simp [hs, hd, hds.le]
          · refine ⟨⟨h1, h2⟩, h3, ?_⟩
            split <;> simp_all
      · simp only [hds, if_false, Prod.mk.injEq]
        constructor
        · rintro ⟨⟨h1, h2⟩, h3, h4⟩
          split at h4
          · next h => left; omega
          · exact Or.inr ⟨⟨h1, h2⟩, h3, h4⟩
        · rintro (⟨rfl, rfl⟩ | ⟨⟨h1, h2⟩, h3, h4⟩)
          · simp [hs, hd]; omega
          · refine ⟨⟨h1, h2⟩, h3, ?_⟩
            split <;> simp_all
    · simp only [hu, Bool.false_eq_true, false_and, or_false, if_false, Prod.mk.injEq, false_implies, true_and]
      constructor
      · rintro ⟨⟨h1, h2⟩, h4⟩
        split at h4
        · next h => exact Or.inl h
        · exact Or.inr ⟨⟨h1, h2⟩, h4⟩
      · rintro (⟨rfl, rfl⟩ | ⟨⟨h1, h2⟩, h4⟩)
        · simp [hs, hd]
        · refine ⟨⟨h1, h2⟩, ?_⟩
          split <;> simp_all
  rw [key, Finset.card_insert_of_notMem]
  split
  · next h => rw [mem_edgePairs]; simp [symm h.1 d s, hnone]
  · rw [mem_edgePairs]; simp [hnone]

theorem edgePairs_put_none (a : AbsGraph E) (s d : Nat)
    (hs : s < a.n) (hd : d < a.n) (hsome : (a.w s d).isSome)
    (symm : a.undirected = true → ∀ u v, a.w u v = a.w v u) :
    (a.put s d none).edgePairs.card + 1 = a.edgePairs.card := by
  classical
  have key : (a.put s d none).edgePairs =
      a.edgePairs.erase (if a.undirected = true ∧ d < s then (d, s) else (s, d)) := by
    ext ⟨u, v⟩
    rw [Finset.mem_erase, mem_edgePairs, mem_edgePairs]
    simp only [AbsGraph.put]
    by_cases hu : a.undirected = true
    · simp only [hu, true_and, true_implies]
      by_cases hds : d < s
      · simp only [hds, if_true, ne_eq, Prod.mk.injEq]
        constructor
        · rintro ⟨⟨h1, h2⟩, h3, h4⟩
          split at h4
          · simp at h4
          · next h => exact ⟨fun hh => h (Or.inr hh), ⟨h1, h2⟩, h3, h4⟩
        · rintro ⟨h0, ⟨h1, h2⟩, h3, h4⟩
          refine ⟨⟨h1, h2⟩, h3, ?_⟩
          rw [if_neg]
          · exact h4
          · rintro (⟨rfl, rfl⟩ | h)
            · omega
            · exact h0 h
      · simp only [hds, if_false, ne_eq, Prod.mk.injEq]
        constructor
        · rintro ⟨⟨h1, h2⟩, h3, h4⟩
          split at h4
          · simp at h4
          · next h => exact ⟨fun hh => h (Or.inl hh), ⟨h1, h2⟩, h3, h4⟩
        · rintro ⟨h0, ⟨h1, h2⟩, h3, h4⟩
          refine ⟨⟨h1, h2⟩, h3, ?_⟩
          rw [if_neg]
          · exact h4
          · rintro (h | ⟨rfl, rfl⟩)
            · exact h0 h
            · have : u = v := by omega
              subst this
              exact h0 ⟨rfl, rfl⟩
    · simp only [hu, Bool.false_eq_true, false_and, or_false, if_false, Prod.mk.injEq, false_implies, true_and, ne_eq]
      constructor
      · rintro ⟨⟨h1, h2⟩, h4⟩
        split at h4
        · simp at h4
        · next h => exact ⟨h, ⟨h1, h2⟩, h4⟩
      · rintro ⟨h0, ⟨h1, h2⟩, h4⟩
        exact ⟨⟨h1, h2⟩, by rw [if_neg h0]; exact h4⟩
  rw [key, Finset.card_erase_add_one]
  split
  · next h => rw [mem_edgePairs]; exact ⟨⟨hd, hs⟩, fun _ => h.2.le, by rw [symm h.1]; exact hsome⟩
  · next h =>
    rw [mem_edgePairs]
    refine ⟨⟨hs, hd⟩, fun hu => ?_, hsome⟩
    simp only [hu, true_and, not_lt] at h
    exact h

/-- Both halves of an edit: the graph obtained by overwriting one adjacency list (and the reversed
one in an undirected graph) represents `a.put s d x`. -/
theorem rep_put {g : Graph V E} {a : AbsGraph E} (h : Rep g a) (s d : Nat) (x : Option E)
    (hs : s < a.n) (hd : d < a.n) (hself : a.selfLoopsOk = false → s ≠ d ∨ x = none)
    (upd : Nat → List (Edge E) → List (Edge E))
    (hupd : ∀ (p q : Nat) (es : List (Edge E)), g.adjList[p]? = some es → ((p = s ∧ q = d) ∨ (p = d ∧ q = s)) →
        a.w p q = a.w s d →
        (((upd q es).map Edge.to).Nodup ∧ ∀ v, lk (upd q es) v = if v = q then x else lk es v))
    (ne : Int) (es : List (Edge E)) (hes : g.adjList[s]? = some es)
    (hne : ne = ((a.put s d x).edgePairs.card : Int))
    (adj' : List (List (Edge E)))
    (hadj : (¬ (g.type = .undirected ∧ s ≠ d) ∧ adj' = g.adjList.set s (upd d es)) ∨
      ((g.type = .undirected ∧ s ≠ d) ∧ ∃ es', g.adjList[d]? = some es' ∧
        adj' = (g.adjList.set s (upd d es)).set d (upd s es'))) :
    Rep { g with adjList := adj', numEdges := ne } (a.put s d x) := by
  have hsL : s < g.adjList.length := by rw [h.adj_len]; exact hs
  have hdL : d < g.adjList.length := by rw [h.adj_len]; exact hd
  have hU := hupd s d es hes (Or.inl ⟨rfl, rfl⟩) rfl
  have look : ∀ (u : Nat) (es1 : List (Edge E)), adj'[u]? = some es1 →
      (es1.map Edge.to).Nodup ∧ ∀ v, lk es1 v = (a.put s d x).w u v := by
    intro u es1 h1
    rcases hadj with ⟨hnot, rfl⟩ | ⟨⟨hty, hsd⟩, es', hes', rfl⟩
    · by_cases hus : u = s
      · subst hus
        rw [List.getElem?_set_self hsL] at h1
        cases h1
        refine ⟨hU.1, fun v => ?_⟩
        rw [hU.2 v, h.lookup u es hes v]
        simp only [AbsGraph.put, true_and]
        by_cases hvd : v = d
        · simp [hvd]
        · simp only [hvd, if_false, false_or]
          split
          · next h2 =>
            exfalso
            have hty : g.type = .undirected := by simpa [h.undir] using h2.1
            exact hnot ⟨hty, fun hh => hvd (by rw [h2.2.2, hh])⟩
          · rfl
      · rw [List.getElem?_set_ne (Ne.symm hus)] at h1
        refine ⟨h.nodup u es1 h1, fun v => ?_⟩
        rw [h.lookup u es1 h1 v]
        simp only [AbsGraph.put, hus, false_and, false_or]
        split
        · next h2 =>
          exfalso
          have : g.type = .undirected := by simpa [h.undir] using h2.1
          exact hnot ⟨this, fun hh => hus (h2.2.1.trans hh.symm)⟩
        · rfl
    · have hund : a.undirected = true := by simp [h.undir, hty]
      have hR := hupd d s es' hes' (Or.inr ⟨rfl, rfl⟩) (h.symm hund d s)
      by_cases hud : u = d
      · subst hud
        rw [List.getElem?_set_self (by simpa using hdL)] at h1
        cases h1
        refine ⟨hR.1, fun v => ?_⟩
        rw [hR.2 v, h.lookup u es' hes' v]
        simp only [AbsGraph.put, hund, true_and, Ne.symm hsd, false_and, false_or]
      · rw [List.getElem?_set_ne (Ne.symm hud)] at h1
        by_cases hus : u = s
        · subst hus
          rw [List.getElem?_set_self hsL] at h1
          cases h1
          refine ⟨hU.1, fun v => ?_⟩
          rw [hU.2 v, h.lookup u es hes v]
          simp only [AbsGraph.put, hund, true_and, hsd, false_and, or_false]
        · rw [List.getElem?_set_ne (Ne.symm hus)] at h1
          refine ⟨h.nodup u es1 h1, fun v => ?_⟩
          rw [h.lookup u es1 h1 v]
          simp [AbsGraph.put, hus, hud]
  refine
    { undir := h.undir
      selfOk := h.selfOk
      n_eq := h.n_eq
      adj_len := ?_
      nodup := fun u es1 h1 => (look u es1 h1).1
      lookup := fun u es1 h1 => (look u es1 h1).2
      dom := ?_
      symm := ?_
      noself := ?_
      count := hne }
  · show adj'.length = a.n
    rcases hadj with ⟨_, rfl⟩ | ⟨_, es', _, rfl⟩ <;> simp [h.adj_len]
  · intro u v huv
    simp only [AbsGraph.put] at huv ⊢
    split at huv
    · next h2 => rcases h2 with ⟨rfl, rfl⟩ | ⟨_, rfl, rfl⟩ <;> exact ⟨by assumption, by assumption⟩
    · exact h.dom u v huv
  · intro hund u v
    have hund' : a.undirected = true := hund
    simp only [AbsGraph.put, hund', true_and]
    rw [h.symm hund' u v]
    have e : ((u = s ∧ v = d) ∨ (u = d ∧ v = s)) = ((v = s ∧ u = d) ∨ (v = d ∧ u = s)) := by
      apply propext; tauto
    simp only [e]
  · intro hs0 u
    have hs0' : a.selfLoopsOk = false := hs0
    simp only [AbsGraph.put]
    split
    · next h2 =>
      rcases hself hs0' with h3 | h3
      · exfalso; rcases h2 with ⟨rfl, rfl⟩ | ⟨_, rfl, rfl⟩ <;> exact h3 rfl
      · exact h3
    · exact h.noself hs0' u

theorem rep_empty (t : GType) (b : Bool) :
    Rep (Graph.empty t b : Graph V E) (AbsGraph.empty (decide (t = .undirected)) b) := by
  refine ⟨rfl, rfl, rfl, rfl, ?_, ?_, ?_, ?_, ?_, ?_⟩ <;>
    simp [Graph.empty, AbsGraph.empty, AbsGraph.edgePairs]

theorem rep_ofSize (cast : Nat → V) (n : Nat) (t : GType) (b : Bool) :
    Rep (Graph.ofSize cast n t b : Graph V E)
      { AbsGraph.empty (decide (t = .undirected)) b with n := n } := by
  refine ⟨rfl, rfl, ?_, ?_, ?_, ?_, ?_, ?_, ?_, ?_⟩ <;>
    simp [Graph.ofSize, AbsGraph.empty, AbsGraph.edgePairs, List.getElem?_replicate, lk]

theorem rep_addVertex {g : Graph V E} {a : AbsGraph E} (h : Rep g a) (x : V) :
    Rep (g.addVertex x).1 { a with n := a.n + 1 } := by
  have hget : ∀ (u : Nat) (es : List (Edge E)), (g.adjList ++ [[]])[u]? = some es →
      g.adjList[u]? = some es ∨ (u = g.adjList.length ∧ es = []) := by
    intro u es h1
    rw [List.getElem?_append] at h1
    split at h1
    · exact Or.inl h1
    · next hh =>
      right
      have : u - g.adjList.length = 0 := by
        by_contra h0
        rw [List.getElem?_eq_none (by simp; omega)] at h1
        simp at h1
      rw [this] at h1
      simp at h1
      exact ⟨by omega, h1⟩
  refine
    { undir := h.undir
      selfOk := h.selfOk
      n_eq := by simp [Graph.addVertex, h.n_eq]
      adj_len := by simp [Graph.addVertex, h.adj_len]
      nodup := ?_
      lookup := ?_
      dom := ?_
      symm := h.symm
      noself := h.noself
      count := ?_ }
  · intro u es h1
    rcases hget u es h1 with h2 | ⟨_, rfl⟩
    · exact h.nodup u es h2
    · simp
  · intro u es h1 v
    rcases hget u es h1 with h2 | ⟨h2, rfl⟩
    · exact h.lookup u es h2 v
    · show lk [] v = a.w u v
      cases hw : a.w u v with
      | none => rfl
      | some y =>
        have := (h.dom u v (by simp [hw])).1
        rw [h.adj_len] at h2
        omega
  · intro u v huv
    have := h.dom u v huv
    exact ⟨Nat.lt_succ_of_lt this.1, Nat.lt_succ_of_lt this.2⟩
  · show g.numEdges = _
    rw [h.count]
    congr 2
    ext ⟨u, v⟩
    rw [mem_edgePairs, mem_edgePairs]
    constructor
    · rintro ⟨⟨h1, h2⟩, h3⟩
      exact ⟨⟨Nat.lt_succ_of_lt h1, Nat.lt_succ_of_lt h2⟩, h3⟩
    · rintro ⟨⟨h1, h2⟩, h3, h4⟩
      exact ⟨h.dom u v h4, h3, h4⟩

theorem rep_clear {g : Graph V E} {a : AbsGraph E} (h : Rep g a) :
    Rep g.clear { a with n := 0, w := fun _ _ => none } := by
  refine ⟨h.undir, h.selfOk, rfl, rfl, ?_, ?_, ?_, ?_, ?_, ?_⟩ <;>
    simp [Graph.clear, AbsGraph.edgePairs]

theorem Rep.getAdj {g : Graph V E} {a : AbsGraph E} (h : Rep g a) {u : Nat} (hu : u < a.n) :
    ∃ es, g.adjList[u]? = some es := by
  have : u < g.adjList.length := by rw [h.adj_len]; exact hu
  exact ⟨g.adjList[u], List.getElem?_eq_getElem this⟩

theorem rep_addEdge {g : Graph V E} {a : AbsGraph E} (h : Rep g a) (s d : Nat) (x : E) :
    Rep (g.step (.addEdge s d x)).1 (a.step (V := V) (.addEdge s d x)).1 ∧
      (g.step (.addEdge s d x)).2 = (a.step (V := V) (.addEdge s d x)).2 := by
  simp only [Graph.step, Graph.addEdge, AbsGraph.step, h.n_eq]
  by_cases hr : s < a.n ∧ d < a.n
  · have hr' : ¬ (s ≥ a.n ∨ d ≥ a.n) := by omega
    obtain ⟨es, hes⟩ := h.getAdj hr.1
    simp only [hr', hr, and_self, not_true, if_false, hes]
    by_cases hsl : g.allowSelfLoops = false ∧ s = d
    · rw [if_pos hsl, if_pos (Or.inl (by rw [h.selfOk]; exact hsl))]
      exact ⟨h, rfl⟩
    · simp only [hsl, if_false]
      rw [any_eq_lk, h.lookup s es hes d]
      have hsl' : ¬ (a.selfLoopsOk = false ∧ s = d) := by rw [h.selfOk]; exact hsl
      by_cases hw : (a.w s d).isSome
      · simp only [hw, if_true, or_true]
        exact ⟨h, trivial⟩
      · have hnone : a.w s d = none := by simpa using hw
        simp only [hw, hsl', or_self, if_false, Bool.false_eq_true]
        have hupd : ∀ (p q : Nat) (es : List (Edge E)), g.adjList[p]? = some es → ((p = s ∧ q = d) ∨ (p = d ∧ q = s)) →
            a.w p q = a.w s d →
            (((es ++ [(⟨q, x⟩ : Edge E)]).map Edge.to).Nodup ∧
              ∀ v, lk (es ++ [⟨q, x⟩]) v = if v = q then some x else lk es v) := by
          intro p q es hp _ hpq
          have hq : lk es q = none := by rw [h.lookup p es hp q, hpq, hnone]
          exact ⟨nodup_append es q x (h.nodup p es hp) hq, fun v => lk_append es q v x hq⟩
        have hcount : g.numEdges + 1 = (((a.put s d (some x)).edgePairs.card : Nat) : Int) := by
          rw [edgePairs_put_some a s d x hr.1 hr.2 hnone h.symm, h.count]
          push_cast; rfl
        by_cases hty : g.type = .undirected ∧ s ≠ d
        · obtain ⟨es', hes'⟩ := h.getAdj hr.2
          have hget : (g.adjList.set s (es ++ [⟨d, x⟩]))[d]? = some es' := by
            rw [List.getElem?_set_ne hty.2]; exact hes'
          rw [if_pos hty]
          simp only [hget]
          refine ⟨?_, trivial⟩
          exact rep_put h s d (some x) hr.1 hr.2
            (fun h0 => Or.inl (fun hh => hsl' ⟨h0, hh⟩))
            (fun q es => es ++ [⟨q, x⟩]) hupd _ es hes hcount _
            (Or.inr ⟨hty, es', hes', rfl⟩)
        · rw [if_neg hty]
          refine ⟨?_, rfl⟩
          exact rep_put h s d (some x) hr.1 hr.2
            (fun h0 => Or.inl (fun hh => hsl' ⟨h0, hh⟩))
            (fun q es => es ++ [⟨q, x⟩]) hupd _ es hes hcount _
            (Or.inl ⟨hty, rfl⟩)
  · have hr' : s ≥ a.n ∨ d ≥ a.n := by omega
    simp only [hr', hr, not_false_eq_true, if_true]
    exact ⟨h, trivial⟩

theorem rep_removeEdge {g : Graph V E} {a : AbsGraph E} (h : Rep g a) (s d : Nat) :
    Rep (g.step (.removeEdge s d)).1 (a.step (V := V) (.removeEdge s d)).1 ∧
      (g.step (.removeEdge s d)).2 = (a.step (V := V) (.removeEdge s d)).2 := by
  simp only [Graph.step, Graph.removeEdge, AbsGraph.step, h.n_eq]
  by_cases hr : s < a.n ∧ d < a.n
  · have hr' : ¬ (s ≥ a.n ∨ d ≥ a.n) := by omega
    obtain ⟨es, hes⟩ := h.getAdj hr.1
    simp only [hr', hr, if_false, hes, true_and]
    rw [any_eq_lk, h.lookup s es hes d]
    by_cases hw : (a.w s d).isSome
    · simp only [hw, if_true]
      have hupd : ∀ (p q : Nat) (es : List (Edge E)), g.adjList[p]? = some es → ((p = s ∧ q = d) ∨ (p = d ∧ q = s)) →
          a.w p q = a.w s d →
          (((es.eraseP (fun e => e.to == q)).map Edge.to).Nodup ∧
            ∀ v, lk (es.eraseP (fun e => e.to == q)) v = if v = q then none else lk es v) := by
        intro p q es hp _ _
        exact ⟨nodup_eraseP es _ (h.nodup p es hp), fun v => lk_eraseP es q v (h.nodup p es hp)⟩
      have hcount : g.numEdges - 1 = (((a.put s d none).edgePairs.card : Nat) : Int) := by
        rw [h.count, ← edgePairs_put_none a s d hr.1 hr.2 hw h.symm]
        push_cast; ring
      by_cases hty : g.type = .undirected ∧ s ≠ d
      · obtain ⟨es', hes'⟩ := h.getAdj hr.2
        have hget : (g.adjList.set s (es.eraseP (fun e => e.to == d)))[d]? = some es' := by
          rw [List.getElem?_set_ne hty.2]; exact hes'
        rw [if_pos hty]
        simp only [hget]
        refine ⟨?_, trivial⟩
        exact rep_put h s d none hr.1 hr.2 (fun _ => Or.inr rfl)
          (fun q es => es.eraseP (fun e => e.to == q)) hupd _ es hes hcount _
          (Or.inr ⟨hty, es', hes', rfl⟩)
      · rw [if_neg hty]
        refine ⟨?_, rfl⟩
        exact rep_put h s d none hr.1 hr.2 (fun _ => Or.inr rfl)
          (fun q es => es.eraseP (fun e => e.to == q)) hupd _ es hes hcount _
          (Or.inl ⟨hty, rfl⟩)
    · simp only [hw, if_false, Bool.false_eq_true]
      exact ⟨h, trivial⟩
  · have hr' : s ≥ a.n ∨ d ≥ a.n := by omega
    have hr2 : ¬ (s < a.n ∧ d < a.n ∧ (a.w s d).isSome = true) := fun hh => hr ⟨hh.1, hh.2.1⟩
    simp only [hr', if_true, hr2, if_false]
    exact ⟨h, trivial⟩

theorem rep_step {g : Graph V E} {a : AbsGraph E} (h : Rep g a) (op : Op V E) :
    Rep (g.step op).1 (a.step op).1 ∧ (g.step op).2 = (a.step op).2 := by
  cases op with
  | addVertex x => exact ⟨rep_addVertex h x, by simp [Graph.step, Graph.addVertex, AbsGraph.step, h.n_eq]⟩
  | addEdge s d x => exact rep_addEdge h s d x
  | removeEdge s d => exact rep_removeEdge h s d
  | clear => exact ⟨rep_clear h, rfl⟩

theorem rep_run {g : Graph V E} {a : AbsGraph E} (h : Rep g a) (ops : List (Op V E)) :
    Rep (g.run ops).1 (a.run ops).1 ∧ (g.run ops).2 = (a.run ops).2 := by
  induction ops generalizing g a with
  | nil => exact ⟨h, rfl⟩
  | cons op ops ih =>
    obtain ⟨h1, h2⟩ := rep_step h op
    obtain ⟨h3, h4⟩ := ih h1
    exact ⟨h3, by simp [Graph.run, AbsGraph.run, h2, h4]⟩

end Verif.Graph
