import Verif.GraphAlg.TraverseProps
import Mathlib.Data.List.Chain

/-!
# Path reconstruction and components (properties C08 in part, C11)
-/

set_option autoImplicit false

namespace Verif.Graph

variable {V E : Type}

/-- Specification: `p` is a path of the graph from `s` to `t`. -/
def PathBetween (g : Graph V E) (s t : Nat) (p : List Nat) : Prop :=
  p.head? = some s ∧ p.getLast? = some t ∧ p.IsChain (Adj g)

/-! ### The loop of `ReconstructPath` -/

theorem rp_loop {parent : List (Option Nat)} {start : Nat} (P : Nat → Prop) (rank : Nat → Nat)
    (hP : ∀ v, P v → v = start ∨ ∃ p, parent[v]? = some (some p) ∧ P p ∧ rank p < rank v) :
    ∀ (m c : Nat) (acc : List Nat) (fuel : Nat), P c → rank c = m → m + 2 ≤ fuel →
      ∃ (q : List Nat) (x : Option Nat),
        whileFuel (rpStep parent start) fuel ⟨some c, false, acc, false⟩ =
          some ⟨x, true, acc ++ q, false⟩ ∧
        q.head? = some c ∧ q.getLast? = some start ∧
        q.IsChain (fun a b => parent[a]? = some (some b)) ∧ q.length ≤ m + 1 ∧ ∀ v ∈ q, P v := by
  intro m
  induction m using Nat.strong_induction_on with
  | _ m ih =>
    intro c acc fuel hc hr hf
    obtain ⟨f, rfl⟩ : ∃ f, fuel = f + 2 := ⟨fuel - 2, by omega⟩
    by_cases hcs : c = start
    · subst hcs
      refine ⟨[c], some c, ?_, by simp, by simp, by simp, by simp, by simpa using hc⟩
      simp [whileFuel, rpStep]
    · rcases hP c hc with h | ⟨p, hp, hPp, hlt⟩
      · exact absurd h hcs
      obtain ⟨q, x, h1, h2, h3, h4, h5, h6⟩ := ih (rank p) (by omega) p (acc ++ [c]) (f + 1) hPp rfl (by omega)
      refine ⟨c :: q, x, ?_, by simp, ?_, ?_, ?_, ?_⟩
      · rw [show f + 2 = (f + 1) + 1 from rfl, whileFuel]
        simp only [rpStep, hcs, hp, Bool.or_self, Bool.false_eq_true, if_false]
        rw [h1]; simp
      · cases q with
        | nil => simp at h2
        | cons a q => rw [List.getLast?_cons_cons]; exact h3
      · cases q with
        | nil => simp at h2
        | cons a q =>
          simp at h2; subst h2
          exact List.isChain_cons_cons.2 ⟨hp, h4⟩
      · simp; omega
      · intro v hv
        rcases List.mem_cons.1 hv with rfl | hv
        · exact hc
        · exact h6 v hv

/-- `ReconstructPath` on a parent vector whose pointers lead back to the start (witnessed by a rank
below the vector's length) returns the chain of parents from the start to the target. -/
theorem reconstructPath_chain {parent : List (Option Nat)} {start target : Nat}
    (P : Nat → Prop) (rank : Nat → Nat)
    (hP : ∀ v, P v → v = start ∨ ∃ p, parent[v]? = some (some p) ∧ P p ∧ rank p < rank v)
    (hrank : ∀ v, P v → rank v ≤ parent.length) (hlt : target < parent.length) (ht : P target) :
    ∃ p, reconstructPath parent start target = some (.ret p) ∧
      p.head? = some start ∧ p.getLast? = some target ∧
      p.IsChain (fun a b => parent[b]? = some (some a)) ∧ ∀ v ∈ p, P v := by
  obtain ⟨q, x, h1, h2, h3, h4, h5, h6⟩ := rp_loop P rank hP _ target [] (parent.length + 2) ht rfl
    (by have := hrank target ht; omega)
  refine ⟨q.reverse, ?_, ?_, ?_, ?_, ?_⟩
  · unfold reconstructPath
    have hg : parent[target]? = some parent[target] := List.getElem?_eq_getElem hlt
    rw [hg]
    simp only
    rw [if_neg, h1]
    · simp
    · rintro ⟨a, b⟩
      rcases hP target ht with h | ⟨p, hp, _⟩
      · exact b h
      · rw [hg, a] at hp; cases hp
  · rw [List.head?_reverse, h3]
  · rw [List.getLast?_reverse, h2]
  · rw [List.isChain_reverse]; exact h4
  · intro v hv; exact h6 v (List.mem_reverse.1 hv)

/-- **C08** (breadth-first part).  `ShortestPathUnweighted` between valid vertices always returns; it
reports `found` exactly when the target can be reached, and then `path` is a path of the graph from start
to target, with as many edges as `totalWeight` says, and no walk has fewer edges. -/
theorem shortestPathUnweighted_correct {g : Graph V E} (hg : g.WF) {start target : Nat}
    (hs : start < g.numVertices) (ht : target < g.numVertices) :
    ∃ r, shortestPathUnweighted g start target = some (.ret r) ∧
      (r.found = true ↔ Reach g start target) ∧
      (r.found = true → PathBetween g start target r.path ∧ r.path.length = r.totalWeight + 1 ∧
        ∀ k, Walk g start target k → r.totalWeight ≤ k) := by
  unfold shortestPathUnweighted
  rw [if_neg (by omega)]
  by_cases hst : start = target
  · subst hst
    rw [if_pos rfl]
    refine ⟨_, rfl, ⟨fun _ => ⟨0, .nil hs⟩, fun _ => rfl⟩, fun _ => ⟨⟨rfl, rfl, by simp⟩, rfl, ?_⟩⟩
    intro k _; exact Nat.zero_le _
  rw [if_neg hst]
  obtain ⟨r, hr, _, _, _, hdl, hpl, hd, hinf, hpar, hpn, _⟩ := bfs_correct hg hs
  simp only [hr]
  have hlt : target < r.distance.length := by omega
  cases hdt : r.distance[target] with
  | none =>
    have hg' : r.distance[target]? = some none := by rw [List.getElem?_eq_getElem hlt, hdt]
    rw [hg']
    exact ⟨_, rfl, ⟨by simp, fun h => absurd h ((hinf target ht).1 hg')⟩, by simp⟩
  | some d =>
    have hg' : r.distance[target]? = some (some d) := by rw [List.getElem?_eq_getElem hlt, hdt]
    rw [hg']
    have hrd : ∀ v k, r.distance[v]? = some (some k) → v < g.numVertices := by
      intro v k h
      rw [← hdl]; exact (List.getElem?_eq_some_iff.1 h).1
    obtain ⟨p, h1, h2, h3, h4, h5⟩ := reconstructPath_chain (parent := r.parent) (start := start)
      (target := target) (P := fun v => ∃ k, r.distance[v]? = some (some k))
      (rank := fun v => ((r.distance[v]?).getD none).getD 0)
      (by
        rintro v ⟨k, hk⟩
        by_cases hvs : v = start
        · exact Or.inl hvs
        · right
          have hv := hrd v k hk
          have hv' : v < r.parent.length := by omega
          cases hpv : r.parent[v] with
          | none =>
            have : r.parent[v]? = some none := by rw [List.getElem?_eq_getElem hv', hpv]
            rcases (hpn v hv).1 this with h | h
            · exact absurd h hvs
            · exact absurd ⟨k, ((hd v k).1 hk).1⟩ h
          | some q =>
            have : r.parent[v]? = some (some q) := by rw [List.getElem?_eq_getElem hv', hpv]
            obtain ⟨_, j, hj, hj'⟩ := hpar v q this
            refine ⟨q, this, ⟨j, hj⟩, ?_⟩
            rw [hj, hj']; simp)
      (by
        -- a shortest walk is shorter than the number of vertices: ranks along the parents are distinct
        rintro v ⟨k, hk⟩
        simp only [hk, Option.getD_some]
        -- collect the vertices at distances 0..k
        have : ∀ (m u : Nat), r.distance[u]? = some (some m) →
            ∃ l : List Nat, l.length = m + 1 ∧ l.Nodup ∧ (∀ x ∈ l, x < g.numVertices) ∧
              ∀ x ∈ l, ∃ j ≤ m, r.distance[x]? = some (some j) := by
          intro m
          induction m with
          | zero =>
            intro u hu
            exact ⟨[u], rfl, by simp, by simpa using hrd u 0 hu, by simpa using hu⟩
          | succ m ih =>
            intro u hu
            have hun := hrd u _ hu
            have hu' : u < r.parent.length := by omega
            have hne : u ≠ start := by
              rintro rfl
              have := ((hd u (m+1)).1 hu).2 0 (.nil hs)
              omega
            cases hpv : r.parent[u] with
            | none =>
              have h0 : r.parent[u]? = some none := by rw [List.getElem?_eq_getElem hu', hpv]
              rcases (hpn u hun).1 h0 with h | h
              · exact absurd h hne
              · exact absurd ⟨_, ((hd u _).1 hu).1⟩ h
            | some q =>
              have h0 : r.parent[u]? = some (some q) := by rw [List.getElem?_eq_getElem hu', hpv]
              obtain ⟨_, j, hj, hj'⟩ := hpar u q h0
              rw [hu] at hj'
              have hjm : j = m := by simpa using hj'.symm
              subst hjm
              obtain ⟨l, h1, h2, h3, h4⟩ := ih q hj
              refine ⟨u :: l, by simp [h1], List.nodup_cons.2 ⟨?_, h2⟩, ?_, ?_⟩
              · intro hul
                obtain ⟨i, hi, hi'⟩ := h4 u hul
                rw [hu] at hi'
                simp at hi'; omega
              · intro x hx
                rcases List.mem_cons.1 hx with rfl | hx
                · exact hun
                · exact h3 x hx
              · intro x hx
                rcases List.mem_cons.1 hx with rfl | hx
                · exact ⟨j + 1, le_refl _, hu⟩
                · obtain ⟨i, hi, hi'⟩ := h4 x hx
                  exact ⟨i, by omega, hi'⟩
        obtain ⟨l, h1, h2, h3, _⟩ := this k v hk
        have := nodup_length_le h2 h3
        omega)
      (by omega) ⟨d, hg'⟩
    simp only [h1, Option.map_some, Outcome.bind_ret, Outcome.pure_eq]
    refine ⟨_, rfl, ⟨fun _ => ⟨d, ((hd target d).1 hg').1⟩, fun _ => rfl⟩, fun _ => ⟨⟨h2, h3, ?_⟩, ?_, ?_⟩⟩
    · refine h4.imp ?_
      intro a b hab
      exact (hpar b a hab).1
    · show p.length = d + 1
      -- distances along the path increase by one
      have gen : ∀ (p : List Nat) (a : Nat) (j : Nat), p.IsChain (fun a b => r.parent[b]? = some (some a)) →
          p.head? = some a → r.distance[a]? = some (some j) →
          ∀ b, p.getLast? = some b → r.distance[b]? = some (some (j + (p.length - 1))) := by
        intro p
        induction p with
        | nil => intro a j _ h; simp at h
        | cons x p ih =>
          intro a j hch ha hj b hb
          simp at ha; subst ha
          cases p with
          | nil => simp at hb; subst hb; simpa using hj
          | cons y p =>
            rw [List.isChain_cons_cons] at hch
            rw [List.getLast?_cons_cons] at hb
            obtain ⟨_, i, hi, hi'⟩ := hpar y x hch.1
            rw [hj] at hi; cases hi
            have := ih y (j + 1) hch.2 (by simp) hi' b hb
            rw [this]; simp; omega
      have h0 : r.distance[start]? = some (some 0) :=
        (hd start 0).2 ⟨.nil hs, fun k _ => Nat.zero_le k⟩
      have := gen p start 0 h4 h2 h0 target h3
      rw [hg'] at this
      have hne : p ≠ [] := by rintro rfl; simp at h2
      have : 0 < p.length := List.length_pos_iff.2 hne
      simp at *; omega
    · intro k hk
      exact ((hd target d).1 hg').2 k hk

example : shortestPathUnweighted sampleDirected 0 3 = some (.ret ⟨true, [0, 1, 3], 2, 4⟩) := by decide
example : shortestPathUnweighted sampleDirected 0 4 = some (.ret ⟨false, [], 0, 4⟩) := by decide

end Verif.Graph
