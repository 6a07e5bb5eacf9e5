import Verif.GraphAlg.DijkstraLemmas
import Mathlib.Tactic.Abel

/-!
# Properties C07 and C08: Dijkstra's shortest paths
-/

set_option autoImplicit false

namespace Verif.Graph

variable {V K : Type} [AddCommGroup K] [LinearOrder K] [IsOrderedAddMonoid K]

/-- Specification: `d` is the least total weight of a walk from `s` to `v`. -/
def IsShortest (g : Graph V K) (s v : Nat) (d : K) : Prop :=
  (∃ k, WWalk g s v k d) ∧ ∀ k' d', WWalk g s v k' d' → d ≤ d'

/-- Specification: the edges along the vertex list exist and their weights add up to the number. -/
inductive PathWeight (g : Graph V K) : List Nat → K → Prop
  | single (v : Nat) : PathWeight g [v] 0
  | cons {u v : Nat} {p : List Nat} {w d : K} : g.edgeWeight u v = .ret w → PathWeight g (v :: p) d →
      PathWeight g (u :: v :: p) (w + d)

/-- **C07.** With nonnegative weights, `Dijkstra` from a valid start returns; `distance[v]` is the minimum
total weight of a walk from the start to `v`, and infinite exactly when there is no walk; the number of
visited nodes is the number of reachable vertices. -/
theorem dijkstra_correct {g : Graph V K} (hg : g.WF) (hw : Nonneg g) {start : Nat}
    (hstart : start < g.numVertices) :
    ∃ r, dijkstra g start = some r ∧
      r.distance.length = g.numVertices ∧ r.parent.length = g.numVertices ∧
      (∀ v (d : K), r.distance[v]? = some (d : WithTop K) ↔ IsShortest g start v d) ∧
      (∀ v, v < g.numVertices → (r.distance[v]? = some ⊤ ↔ ¬ Reach g start v)) ∧
      (∃ l : List Nat, l.Nodup ∧ (∀ v, v ∈ l ↔ Reach g start v) ∧ r.nodesVisited = l.length) := by
  obtain ⟨ord, s, h1, hI, hq, hc⟩ := dijkstra_terminates hg hw hstart
  unfold dijkstra
  rw [if_neg (by omega), h1]
  refine ⟨_, rfl, by simp, by simp, ?_, ?_, ord, hI.ordnd, ?_, hc⟩
  · intro v d
    dsimp only
    constructor
    · intro h
      have hv : v < g.numVertices := by
        have := (List.getElem?_eq_some_iff.1 h).1
        simpa using this
      rw [getElem?_range_map _ hv] at h
      have h : s.dist v = (d : WithTop K) := Option.some.inj h
      refine ⟨hI.walk v d h, fun k' d' hk' => ?_⟩
      have := hI.final hw hq hk'
      rw [h] at this
      exact WithTop.coe_le_coe.1 this
    · rintro ⟨⟨k, hk⟩, hmin⟩
      have hv : v < g.numVertices := (hg.walk_lt (hk.walk hg)).2
      rw [getElem?_range_map _ hv]
      have h2 := hI.final hw hq hk
      cases hd : s.dist v with
      | top => rw [hd] at h2; exact absurd (top_le_iff.1 h2) WithTop.coe_ne_top
      | coe x =>
        rw [hd] at h2
        obtain ⟨k', hk'⟩ := hI.walk v x hd
        have := le_antisymm (WithTop.coe_le_coe.1 h2) (hmin k' x hk')
        rw [this]
  · intro v hv
    dsimp only
    rw [getElem?_range_map _ hv]
    constructor
    · intro h
      have h : s.dist v = ⊤ := Option.some.inj h
      rintro ⟨k, hk⟩
      obtain ⟨d, hd⟩ := hk.wwalk hg
      have := hI.final hw hq hd
      rw [h] at this
      exact WithTop.coe_ne_top (top_le_iff.1 this)
    · intro h
      cases hd : s.dist v with
      | top => rfl
      | coe x =>
        obtain ⟨k', hk'⟩ := hI.walk v x hd
        exact absurd ⟨k', hk'.walk hg⟩ h
  · intro v
    constructor
    · intro hv
      obtain ⟨_, d, hd⟩ := hI.ordlt v hv
      obtain ⟨k, hk⟩ := hI.walk v d hd
      exact ⟨k, hk.walk hg⟩
    · rintro ⟨k, hk⟩
      obtain ⟨d, hd⟩ := hk.wwalk hg
      have h2 := hI.final hw hq hd
      by_contra hv
      cases hx : s.dist v with
      | top => rw [hx] at h2; exact absurd (top_le_iff.1 h2) WithTop.coe_ne_top
      | coe x =>
        have := hI.inq v x hv hx
        rw [hq] at this; simp at this

/-- Along a chain of parent pointers the distances differ by the weight of the chain. -/
theorem chain_weight {g : Graph V K} {ord : List Nat} {start : Nat} {s : DjState K} (hI : DjInv g start ord s)
    {p : List Nat} (hch : p.IsChain (fun a b => s.parent b = some a)) :
    ∀ a b (x y : K), p.head? = some a → p.getLast? = some b → s.dist a = x → s.dist b = y →
      PathWeight g p (y - x) := by
  induction p with
  | nil => intro a b x y h; simp at h
  | cons u p ih =>
    intro a b x y ha hb hx hy
    simp at ha; subst ha
    cases p with
    | nil =>
      simp at hb; subst hb
      rw [hx] at hy
      have := WithTop.coe_injective hy
      subst this
      rw [sub_self]; exact .single _
    | cons v p =>
      rw [List.isChain_cons_cons] at hch
      rw [List.getLast?_cons_cons] at hb
      obtain ⟨_, ⟨w, hw, hd⟩, _⟩ := hI.par v u hch.1
      rw [hx, ← WithTop.coe_add] at hd
      have := ih hch.2 v b (x + w) y (by simp) hb hd hy
      have h2 : y - x = w + (y - (x + w)) := by abel
      rw [h2]
      exact .cons hw this

theorem PathWeight.chain {g : Graph V K} (hg : g.WF) {p : List Nat} {d : K} (h : PathWeight g p d) :
    p.IsChain (Adj g) := by
  induction h with
  | single v => simp
  | cons hw _ ih => exact List.isChain_cons_cons.2 ⟨hg.adj_iff_weight.2 ⟨_, hw⟩, ih⟩

/-- **C08.** The vertex list `ReconstructPath` builds from Dijkstra's parents is, for every reachable
target, a path of the graph from the start to the target whose edge weights add up to the reported
distance; for an unreachable target it is empty. -/
theorem reconstructPath_dijkstra {g : Graph V K} (hg : g.WF) (hw : Nonneg g) {start target : Nat}
    (hstart : start < g.numVertices) (htarget : target < g.numVertices) :
    ∃ r, dijkstra g start = some r ∧
      (∀ d : K, r.distance[target]? = some (d : WithTop K) →
        ∃ p, reconstructPath r.parent start target = some (.ret p) ∧
          PathBetween g start target p ∧ PathWeight g p d) ∧
      (r.distance[target]? = some ⊤ → reconstructPath r.parent start target = some (.ret [])) := by
  obtain ⟨ord, s, h1, hI, hq, hc⟩ := dijkstra_terminates hg hw hstart
  unfold dijkstra
  rw [if_neg (by omega), h1]
  refine ⟨_, rfl, ?_, ?_⟩
  · intro d hd
    dsimp only at hd ⊢
    rw [getElem?_range_map _ htarget] at hd
    have hd : s.dist target = (d : WithTop K) := Option.some.inj hd
    have hpar : ∀ v p, ((List.range g.numVertices).map s.parent)[v]? = some (some p) ↔
        v < g.numVertices ∧ s.parent v = some p := by
      intro v p
      by_cases hv : v < g.numVertices
      · rw [getElem?_range_map _ hv]; simp [hv]
      · simp [hv]
    have hord : ∀ v (x : K), s.dist v = x → v ∈ ord := by
      intro v x hx
      by_contra hv
      have := hI.inq v x hv hx
      rw [hq] at this; simp at this
    obtain ⟨p, e1, e2, e3, e4, e5⟩ := reconstructPath_chain
      (parent := (List.range g.numVertices).map s.parent) (start := start) (target := target)
      (P := fun v => v ∈ ord) (rank := fun v => ord.idxOf v)
      (by
        intro v hv
        obtain ⟨hvn, x, hx⟩ := hI.ordlt v hv
        cases hp : s.parent v with
        | none => exact Or.inl (hI.parNone v x hp hx)
        | some q =>
          obtain ⟨h2, _, h4⟩ := hI.par v q hp
          exact Or.inr ⟨q, (hpar v q).2 ⟨hvn, hp⟩, h2, h4 hv⟩)
      (by
        intro v hv
        have h2 := List.idxOf_lt_length_iff.2 hv
        have h3 := nodup_length_le hI.ordnd (fun u hu => (hI.ordlt u hu).1)
        simp; omega)
      (by simpa using htarget) (hord target d hd)
    have hch : p.IsChain (fun a b => s.parent b = some a) := e4.imp (fun a b h => ((hpar b a).1 h).2)
    have hpw := chain_weight hI hch start target 0 d e2 e3 hI.start0 hd
    rw [sub_zero] at hpw
    exact ⟨p, e1, ⟨e2, e3, hpw.chain hg⟩, hpw⟩
  · intro hd
    dsimp only at hd ⊢
    rw [getElem?_range_map _ htarget] at hd
    have hd : s.dist target = ⊤ := Option.some.inj hd
    have hne : target ≠ start := by
      rintro rfl; rw [hI.start0] at hd; exact absurd hd WithTop.coe_ne_top
    have hp : s.parent target = none := by
      cases hp : s.parent target with
      | none => rfl
      | some q =>
        obtain ⟨h2, ⟨w, _, h3⟩, _⟩ := hI.par target q hp
        obtain ⟨_, x, hx⟩ := hI.ordlt q h2
        rw [hx, hd] at h3
        exact absurd h3.symm (by rw [← WithTop.coe_add]; exact WithTop.coe_ne_top)
    unfold reconstructPath
    rw [getElem?_range_map _ htarget, hp]
    simp [hne]

theorem chase_loop (parent : Nat → Option Nat) (P : Nat → Prop) (rank : Nat → Nat) (start : Nat)
    (hP : ∀ v, P v → (v = start ∧ parent v = none) ∨ ∃ p, parent v = some p ∧ P p ∧ rank p < rank v) :
    ∀ (m c : Nat) (acc : List Nat) (fuel : Nat), P c → rank c = m → m + 2 ≤ fuel →
      ∃ q : List Nat, whileFuel (chaseStep parent) fuel (some c, acc) = some (none, acc ++ q) ∧
        q.head? = some c ∧ q.getLast? = some start ∧ q.IsChain (fun a b => parent a = some b) := by
  intro m
  induction m using Nat.strong_induction_on with
  | _ m ih =>
    intro c acc fuel hc hr hf
    obtain ⟨f, rfl⟩ : ∃ f, fuel = f + 2 := ⟨fuel - 2, by omega⟩
    rcases hP c hc with ⟨rfl, hn⟩ | ⟨p, hp, hPp, hlt⟩
    · refine ⟨[c], ?_, by simp, by simp, by simp⟩
      simp [whileFuel, chaseStep, hn]
    · obtain ⟨q, h1, h2, h3, h4⟩ := ih (rank p) (by omega) p (acc ++ [c]) (f + 1) hPp rfl (by omega)
      refine ⟨c :: q, ?_, by simp, ?_, ?_⟩
      · rw [show f + 2 = (f + 1) + 1 from rfl, whileFuel]
        simp only [chaseStep, hp]
        rw [h1]; simp
      · cases q with
        | nil => simp at h2
        | cons a q => rw [List.getLast?_cons_cons]; exact h3
      · cases q with
        | nil => simp at h2
        | cons a q =>
          simp at h2; subst h2
          exact List.isChain_cons_cons.2 ⟨hp, h4⟩

/-- **C07/C08** for `DijkstraPath`.  With nonnegative weights the early-terminating search between valid
vertices returns; `found` says whether the target can be reached; if so, `totalWeight` is the minimum
weight of a walk and `path` is a path from start to target of exactly that weight. -/
theorem dijkstraPath_correct {g : Graph V K} (hg : g.WF) (hw : Nonneg g) {start target : Nat}
    (hstart : start < g.numVertices) (htarget : target < g.numVertices) :
    ∃ r, dijkstraPath g start target = some r ∧
      (r.found = true ↔ Reach g start target) ∧
      (r.found = true → ∃ d : K, r.totalWeight = d ∧ IsShortest g start target d ∧
        PathBetween g start target r.path ∧ PathWeight g r.path d) := by
  unfold dijkstraPath
  rw [if_neg (by omega)]
  by_cases hst : start = target
  · subst hst
    rw [if_pos rfl]
    refine ⟨_, rfl, ⟨fun _ => ⟨0, .nil hstart⟩, fun _ => rfl⟩, fun _ => ⟨0, rfl, ?_, ?_, .single _⟩⟩
    · exact ⟨⟨0, .nil hstart⟩, fun k' d' h => h.nonneg hw⟩
    · exact ⟨rfl, rfl, by simp⟩
  rw [if_neg hst]
  obtain ⟨ord, s, h1, h2, h3⟩ := whileFuel_rule_ghost (dpStep g target)
    (fun ord (s : DpState K) => target ∉ ord ∧
      if s.hit then
        ∃ pq rest nv d, popMin pairLe pq = some ((d, target), rest) ∧
          DjInv g start ord { s.core with pq := pq, nodesVisited := nv }
      else DjInv g start ord s.core)
    (fun ord s => if s.hit then 0 else djMeasure g ord s.core)
    (by
      intro ord s s' hI hs
      unfold dpStep at hs
      split at hs
      · cases hs
      next hh =>
      have hh : s.hit = false := by simpa using hh
      rw [hh] at hI
      simp only [Bool.false_eq_true, if_false] at hI
      obtain ⟨hto, hI⟩ := hI
      split at hs
      · cases hs
      next d u rest hp =>
      have hlen := (popMin_perm _ _ hp).length_eq
      simp only [List.length_cons] at hlen
      dsimp only at hs
      split at hs
      · next hut =>
        cases hs
        subst hut
        refine ⟨ord, ⟨hto, ?_⟩, ?_⟩
        · simp only [if_true]
          exact ⟨s.core.pq, rest, s.core.nodesVisited, d, hp, hI⟩
        · simp [hh, djMeasure]; omega
      · next hut =>
        split at hs
        · next hd =>
          cases hs
          refine ⟨ord, ⟨hto, ?_⟩, ?_⟩
          · simp only [hh, Bool.false_eq_true, if_false]
            exact djInv_skip hI hp hd _
          · simp [hh, djMeasure]; omega
        · next hd =>
          cases hs
          obtain ⟨s', e1, e2, e3, e4, e5⟩ := djInv_settle hg hw hI hp hd (s.core.nodesVisited + 1)
          refine ⟨ord ++ [u], ⟨?_, ?_⟩, ?_⟩
          · intro hm
            rcases List.mem_append.1 hm with hm | hm
            · exact hto hm
            · simp at hm; exact hut hm.symm
          · simp only [hh, Bool.false_eq_true, if_false]
            rw [e1]
            exact e2
          · simp only [hh, Bool.false_eq_true, if_false]
            rw [e1]
            exact djMeasure_settle g e3 e4 e5)
    (g.entries + 2) [] { core := djInit start, hit := false }
    (by simp only [Bool.false_eq_true, if_false]; exact ⟨by simp, djInv_init g hstart⟩)
    (by
      simp only [Bool.false_eq_true, if_false]
      exact djMeasure_init g start)
  obtain ⟨hto, hI⟩ := h2
  rw [h1]
  dsimp only
  by_cases hh : s.hit = true
  · rw [if_pos hh] at hI ⊢
    obtain ⟨pq, rest, nv, d, hp, hI⟩ := hI
    have hmem : (d, target) ∈ pq := (popMin_perm _ _ hp).subset List.mem_cons_self
    have hmin : ∀ x v, (x, v) ∈ pq → d ≤ x := fun x v hx =>
      pairLe_fst (popMin_le pairLe pairLe_total pairLe_trans _ hp _ hx)
    have hle : s.core.dist target ≤ (d : WithTop K) := hI.qle d target hmem
    have hdt : s.core.dist target = (d : WithTop K) := by
      refine le_antisymm hle ?_
      cases hx : s.core.dist target with
      | top => exact le_top
      | coe x => exact WithTop.coe_le_coe.2 (hmin x target (hI.inq target x hto hx))
    have hshort : IsShortest g start target d := by
      refine ⟨hI.walk target d hdt, fun k' d' hk' => ?_⟩
      rcases hI.cut hw (d : WithTop K) (fun x v hx => WithTop.coe_le_coe.2 (hmin x v hx)) hk' with h | h
      · have h : s.core.dist target ≤ (d' : WithTop K) := h
        rw [hdt] at h; exact WithTop.coe_le_coe.1 h
      · exact WithTop.coe_le_coe.1 h
    have hseen : ∀ v (x : K), s.core.dist v = x → s.core.parent v = none → v = start := fun v x hx hp =>
      hI.parNone v x hp hx
    obtain ⟨q, e1, e2, e3, e4⟩ := chase_loop s.core.parent (fun v => v ∈ ord ∨ v = target)
      (fun v => if v ∈ ord then ord.idxOf v else ord.length) start
      (by
        intro v hv
        have hfin : ∃ x : K, s.core.dist v = x := by
          rcases hv with hv | rfl
          · exact (hI.ordlt v hv).2
          · exact ⟨d, hdt⟩
        obtain ⟨x, hx⟩ := hfin
        cases hp : s.core.parent v with
        | none => exact Or.inl ⟨hseen v x hx hp, rfl⟩
        | some q =>
          obtain ⟨h4, _, h6⟩ := hI.par v q hp
          refine Or.inr ⟨q, rfl, Or.inl h4, ?_⟩
          rw [if_pos h4]
          by_cases hvo : v ∈ ord
          · rw [if_pos hvo]; exact h6 hvo
          · rw [if_neg hvo]; exact List.idxOf_lt_length_iff.2 h4)
      _ target [] (g.numVertices + 2) (Or.inr rfl) rfl
      (by
        simp only [hto, if_false]
        have h3 := nodup_length_le hI.ordnd (fun u hu => (hI.ordlt u hu).1)
        omega)
    rw [e1]
    refine ⟨_, rfl, ⟨fun _ => ?_, fun _ => rfl⟩, fun _ => ⟨d, hdt, hshort, ?_⟩⟩
    · obtain ⟨k, hk⟩ := hI.walk target d hdt
      exact ⟨k, hk.walk hg⟩
    · dsimp only
      have hch : (q.reverse).IsChain (fun a b => s.core.parent b = some a) := by
        rw [List.isChain_reverse]; exact e4
      have h5 : q.reverse.head? = some start := by rw [List.head?_reverse, e3]
      have h6 : q.reverse.getLast? = some target := by rw [List.getLast?_reverse, e2]
      have hpw := chain_weight hI hch start target 0 d h5 h6 hI.start0 hdt
      rw [sub_zero] at hpw
      simp only [List.nil_append]
      exact ⟨⟨h5, h6, hpw.chain hg⟩, hpw⟩
  · rw [if_neg hh] at hI ⊢
    have hq : s.core.pq = [] := by
      unfold dpStep at h3
      rw [if_neg hh] at h3
      split at h3
      · next hn => exact (popMin_none _ _).1 hn
      · dsimp only at h3
        split at h3
        · cases h3
        · split at h3 <;> cases h3
    refine ⟨_, rfl, ⟨by simp, ?_⟩, by simp⟩
    rintro ⟨k, hk⟩
    exfalso
    obtain ⟨x, hx⟩ := hk.wwalk hg
    have h4 := hI.final hw hq hx
    cases hy : s.core.dist target with
    | top => rw [hy] at h4; exact absurd (top_le_iff.1 h4) WithTop.coe_ne_top
    | coe y =>
      have := hI.inq target y hto hy
      rw [hq] at this; simp at this

/-! ### Concrete instances -/

theorem sampleDirected_wf : sampleDirected.WF := reached_wf _ _ _ _ _

theorem sampleDirected_nonneg : Nonneg sampleDirected := by
  intro u v w h
  have h := sampleDirected_wf.weight_iff.1 h
  have : ∀ u < 5, ∀ e ∈ sampleDirected.nbrs u, 0 ≤ e.weight := by decide
  exact this u (sampleDirected_wf.nbrs_lt h).1 _ h

example : Nonneg sampleDirected ∧ sampleDirected.WF ∧ 0 < sampleDirected.numVertices :=
  ⟨sampleDirected_nonneg, sampleDirected_wf, by decide⟩

example : (dijkstra sampleDirected 0).map (fun r => r.distance) =
    some [((0 : Int) : WithTop Int), (3 : Int), (1 : Int), (8 : Int), ⊤] := by decide

example : (dijkstraPath sampleDirected 0 3).map (fun r => (r.path, r.totalWeight)) =
    some ([0, 2, 1, 3], ((8 : Int) : WithTop Int)) := by decide

end Verif.Graph
