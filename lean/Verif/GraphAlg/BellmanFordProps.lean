import Verif.GraphAlg.BellmanFordModel
import Verif.GraphAlg.DijkstraProps
import Mathlib.Data.Finset.Card
import Mathlib.Tactic.Linarith

/-!
# Property C09: Bellman-Ford
-/

set_option autoImplicit false

namespace Verif.Graph

variable {V K : Type} [AddCommGroup K] [LinearOrder K] [IsOrderedAddMonoid K]

/-- Specification: a closed walk of negative weight through a vertex reachable from `start`. -/
def NegCycle (g : Graph V K) (start : Nat) : Prop :=
  ∃ x k c, Reach g start x ∧ WWalk g x x k c ∧ c < 0

theorem mem_bfEdges {g : Graph V K} (hg : g.WF) (u v : Nat) (w : K) :
    (u, v, w) ∈ bfEdges g ↔ g.edgeWeight u v = .ret w := by
  rw [hg.weight_iff]
  simp only [bfEdges, List.mem_flatMap, List.mem_range, List.mem_map, Prod.mk.injEq]
  constructor
  · rintro ⟨a, _, e, he, rfl, rfl, rfl⟩; exact he
  · intro h
    exact ⟨u, (hg.nbrs_lt h).1, _, h, rfl, rfl, rfl⟩

/-! ### One relaxation, one pass -/

omit [IsOrderedAddMonoid K] in
theorem bfRelax_cases (s : BfState K) (e : Nat × Nat × K) :
    (bfRelax s e = s ∧ s.dist e.2.1 ≤ s.dist e.1 + (e.2.2 : WithTop K)) ∨
    (s.dist e.1 ≠ ⊤ ∧ s.dist e.1 + (e.2.2 : WithTop K) < s.dist e.2.1 ∧
      bfRelax s e = { dist := Function.update s.dist e.2.1 (s.dist e.1 + (e.2.2 : WithTop K))
                      parent := Function.update s.parent e.2.1 (some e.1)
                      changed := true }) := by
  unfold bfRelax
  by_cases h : s.dist e.1 = ⊤
  · left; simp [h]
  · by_cases h2 : s.dist e.1 + (e.2.2 : WithTop K) < s.dist e.2.1
    · right; refine ⟨h, h2, ?_⟩; simp [h, h2]
    · left; exact ⟨by simp [h, h2], not_lt.1 h2⟩

omit [IsOrderedAddMonoid K] in
theorem bfRelax_le (s : BfState K) (e : Nat × Nat × K) (v : Nat) : (bfRelax s e).dist v ≤ s.dist v := by
  rcases bfRelax_cases s e with ⟨h, _⟩ | ⟨_, h2, h3⟩
  · rw [h]
  · rw [h3]
    by_cases hv : v = e.2.1
    · subst hv; simp only [Function.update_self]; exact le_of_lt h2
    · simp [Function.update_of_ne hv]

theorem bfFold_spec (edges : List (Nat × Nat × K)) (s : BfState K) :
    (∀ v, (edges.foldl bfRelax s).dist v ≤ s.dist v) ∧
    (∀ e ∈ edges, (edges.foldl bfRelax s).dist e.2.1 ≤ s.dist e.1 + (e.2.2 : WithTop K)) ∧
    ((edges.foldl bfRelax s).changed = false → s.changed = false ∧ edges.foldl bfRelax s = s) := by
  induction edges generalizing s with
  | nil => simp
  | cons e es ih =>
    rw [List.foldl_cons]
    obtain ⟨h1, h2, h3⟩ := ih (bfRelax s e)
    refine ⟨fun v => (h1 v).trans (bfRelax_le s e v), ?_, ?_⟩
    · intro e' he'
      rcases List.mem_cons.1 he' with rfl | he'
      · refine (h1 _).trans ?_
        rcases bfRelax_cases s e' with ⟨h, hle⟩ | ⟨_, _, h4⟩
        · rw [h]; exact hle
        · rw [h4]; simp
      · exact (h2 e' he').trans (add_le_add_left (bfRelax_le s e _) _)
    · intro hc
      obtain ⟨h4, h5⟩ := h3 hc
      rcases bfRelax_cases s e with ⟨h, _⟩ | ⟨_, _, h6⟩
      · rw [h] at h4 h5 ⊢; exact ⟨h4, h5⟩
      · rw [h6] at h4; cases h4

/-- Every finite distance is the weight of a walk. -/
def BfSound (g : Graph V K) (start : Nat) (s : BfState K) : Prop :=
  (∀ v (d : K), s.dist v = d → ∃ k, WWalk g start v k d) ∧ s.dist start ≤ 0

theorem bfSound_relax {g : Graph V K} (hg : g.WF) {start : Nat} {s : BfState K} (hs : BfSound g start s)
    {e : Nat × Nat × K} (he : e ∈ bfEdges g) : BfSound g start (bfRelax s e) := by
  refine ⟨?_, (bfRelax_le s e start).trans hs.2⟩
  rcases bfRelax_cases s e with ⟨h, _⟩ | ⟨hfin, _, h3⟩
  · rw [h]; exact hs.1
  · rw [h3]
    intro v d hd
    by_cases hv : v = e.2.1
    · subst hv
      simp only [Function.update_self] at hd
      obtain ⟨x, hx⟩ := WithTop.ne_top_iff_exists.1 hfin
      rw [← hx, ← WithTop.coe_add] at hd
      have := WithTop.coe_injective hd
      subst this
      obtain ⟨k, hk⟩ := hs.1 e.1 x hx.symm
      exact ⟨_, hk.snoc ((mem_bfEdges hg e.1 e.2.1 e.2.2).1 he)⟩
    · simp only [Function.update_of_ne hv] at hd
      exact hs.1 v d hd

theorem bfSound_pass {g : Graph V K} (hg : g.WF) {start : Nat} {s : BfState K} (hs : BfSound g start s) :
    BfSound g start (bfPass (bfEdges g) s) := by
  unfold bfPass
  have gen : ∀ (l : List (Nat × Nat × K)) (s : BfState K), (∀ e ∈ l, e ∈ bfEdges g) → BfSound g start s →
      BfSound g start (l.foldl bfRelax s) := by
    intro l
    induction l with
    | nil => intro s _ h; exact h
    | cons e l ih =>
      intro s hl h
      rw [List.foldl_cons]
      exact ih _ (fun x hx => hl x (List.mem_cons_of_mem _ hx)) (bfSound_relax hg h (hl e List.mem_cons_self))
  exact gen _ _ (fun _ h => h) hs

theorem bfSound_passes {g : Graph V K} (hg : g.WF) {start : Nat} (k : Nat) {s : BfState K}
    (hs : BfSound g start s) : BfSound g start (bfPasses (bfEdges g) k s) := by
  induction k generalizing s with
  | zero => exact hs
  | succ k ih =>
    simp only [bfPasses]
    split
    · exact ih (bfSound_pass hg hs)
    · exact bfSound_pass hg hs

theorem bfSound_init (g : Graph V K) {start : Nat} (h : start < g.numVertices) :
    BfSound g start (bfInit start) := by
  refine ⟨?_, by simp [bfInit]⟩
  intro v d hd
  by_cases hv : v = start
  · subst hv
    simp only [bfInit, Function.update_self] at hd
    have : d = 0 := (WithTop.coe_injective hd).symm
    subst this
    exact ⟨0, .nil h⟩
  · simp [bfInit, Function.update_of_ne hv] at hd

/-! ### Completeness of the passes -/

/-- All edges are relaxed. -/
def BfClosed (g : Graph V K) (s : BfState K) : Prop :=
  ∀ u v w, g.edgeWeight u v = .ret w → s.dist v ≤ s.dist u + (w : WithTop K)

theorem BfClosed.lower {g : Graph V K} {start : Nat} {s : BfState K} (hc : BfClosed g s)
    (h0 : s.dist start ≤ 0) {v k : Nat} {x : K} (h : WWalk g start v k x) : s.dist v ≤ (x : WithTop K) := by
  induction h with
  | nil _ => exact h0
  | snoc _ he ih =>
    refine (hc _ _ _ he).trans ?_
    rw [WithTop.coe_add]
    exact add_le_add_left ih _

/-- Walks of at most `i` edges are accounted for. -/
def BfUpTo (g : Graph V K) (start i : Nat) (s : BfState K) : Prop :=
  ∀ v k x, k ≤ i → WWalk g start v k x → s.dist v ≤ (x : WithTop K)

theorem bfPass_upTo {g : Graph V K} (hg : g.WF) {start i : Nat} {s : BfState K} (h : BfUpTo g start i s) :
    BfUpTo g start (i + 1) (bfPass (bfEdges g) s) := by
  obtain ⟨h1, h2, _⟩ := bfFold_spec (bfEdges g) { s with changed := false }
  intro v k x hk hwalk
  cases hwalk with
  | nil hs => exact (h1 _).trans (h start 0 0 (Nat.zero_le _) (.nil hs))
  | @snoc u v k d w hw he =>
    have := h2 (u, v, w) ((mem_bfEdges hg u v w).2 he)
    refine this.trans ?_
    rw [WithTop.coe_add]
    exact add_le_add_left (h u k d (by omega) hw) _

theorem bfPass_closed {g : Graph V K} (hg : g.WF) {s : BfState K}
    (hc : (bfPass (bfEdges g) s).changed = false) : BfClosed g (bfPass (bfEdges g) s) := by
  obtain ⟨_, h2, h3⟩ := bfFold_spec (bfEdges g) { s with changed := false }
  have h4 := (h3 hc).2
  intro u v w he
  have := h2 (u, v, w) ((mem_bfEdges hg u v w).2 he)
  unfold bfPass
  rw [h4] at this ⊢
  exact this

theorem bfPasses_upTo {g : Graph V K} (hg : g.WF) {start : Nat} (k : Nat) :
    ∀ {i : Nat} {s : BfState K}, BfUpTo g start i s →
      BfClosed g (bfPasses (bfEdges g) k s) ∨ BfUpTo g start (i + k) (bfPasses (bfEdges g) k s) := by
  induction k with
  | zero => intro i s h; exact Or.inr h
  | succ k ih =>
    intro i s h
    have h1 := bfPass_upTo hg h
    simp only [bfPasses]
    split
    · rw [show i + (k + 1) = (i + 1) + k by omega]
      exact ih h1
    · next hc => exact Or.inl (bfPass_closed hg (by simpa using hc))

/-! ### Cutting cycles out of walks -/

/-- A walk given by its vertices and partial weights. -/
theorem wwalk_iff_seq {g : Graph V K} {s v k : Nat} {d : K} :
    WWalk g s v k d ↔ s < g.numVertices ∧ ∃ (f : Nat → Nat) (p : Nat → K), f 0 = s ∧ f k = v ∧ p 0 = 0 ∧ p k = d ∧
      ∀ i < k, g.edgeWeight (f i) (f (i + 1)) = .ret (p (i + 1) - p i) := by
  constructor
  · intro h
    induction h with
    | nil h => exact ⟨h, fun _ => s, fun _ => 0, rfl, rfl, rfl, rfl, by simp⟩
    | @snoc u v k d w _ he ih =>
      obtain ⟨hs, f, p, h0, h1, h2, h3, h4⟩ := ih
      refine ⟨hs, Function.update f (k + 1) v, Function.update p (k + 1) (d + w), ?_, by simp, ?_, by simp, ?_⟩
      · rw [Function.update_of_ne (by omega)]; exact h0
      · rw [Function.update_of_ne (by omega)]; exact h2
      · intro i hi
        by_cases hik : i = k
        · subst hik
          simp only [Function.update_self]
          rw [Function.update_of_ne (by omega), Function.update_of_ne (by omega), h1, h3, he]
          simp
        · rw [Function.update_of_ne (by omega), Function.update_of_ne (by omega),
            Function.update_of_ne (by omega), Function.update_of_ne (by omega)]
          exact h4 i (by omega)
  · rintro ⟨hs, f, p, h0, h1, h2, h3, h4⟩
    have gen : ∀ j, j ≤ k → WWalk g s (f j) j (p j) := by
      intro j
      induction j with
      | zero => intro _; rw [h0, h2]; exact .nil hs
      | succ j ih =>
        intro hj
        have := (ih (by omega)).snoc (h4 j (by omega))
        simpa using this
    have := gen k (le_refl _)
    rwa [h1, h3] at this

/-- Without reachable negative cycles, every walk can be replaced by one of fewer than `n` edges that is
no heavier. -/
theorem short_walk {g : Graph V K} (hg : g.WF) {start : Nat} (hneg : ¬ NegCycle g start) :
    ∀ (k v : Nat) (d : K), WWalk g start v k d →
      ∃ k' d', k' < g.numVertices ∧ d' ≤ d ∧ WWalk g start v k' d' := by
  intro k
  induction k using Nat.strong_induction_on with
  | _ k ih =>
    intro v d h
    by_cases hk : k < g.numVertices
    · exact ⟨k, d, hk, le_refl _, h⟩
    obtain ⟨hs, f, p, h0, h1, h2, h3, h4⟩ := wwalk_iff_seq.1 h
    have hflt : ∀ i ≤ k, f i < g.numVertices := by
      intro i hi
      rcases Nat.eq_zero_or_pos i with rfl | hp
      · rw [h0]; exact hs
      · have := h4 (i - 1) (by omega)
        rw [show i - 1 + 1 = i by omega] at this
        exact (hg.adj_lt (hg.adj_iff_weight.2 ⟨_, this⟩)).2
    obtain ⟨i, hi, j, hj, hij, hfij⟩ : ∃ i ∈ Finset.range (k + 1), ∃ j ∈ Finset.range (k + 1), i ≠ j ∧ f i = f j := by
      apply Finset.exists_ne_map_eq_of_card_lt_of_maps_to (t := Finset.range g.numVertices)
      · simp; omega
      · intro i hi
        simp only [Finset.coe_range, Set.mem_Iio] at hi ⊢
        exact hflt i (by omega)
    wlog hlt : i < j generalizing i j
    · exact this j hj i hi (Ne.symm hij) hfij.symm (by omega)
    simp only [Finset.mem_range] at hi hj
    -- the cycle
    have hcyc : WWalk g (f i) (f i) (j - i) (p j - p i) := by
      refine wwalk_iff_seq.2 ⟨hflt i (by omega), fun t => f (i + t), fun t => p (i + t) - p i, rfl, ?_, ?_, ?_, ?_⟩
      · beta_reduce; rw [show i + (j - i) = j by omega]; exact hfij.symm
      · simp
      · beta_reduce; rw [show i + (j - i) = j by omega]
      · intro t ht
        beta_reduce
        rw [show i + (t + 1) = i + t + 1 by omega, h4 (i + t) (by omega)]
        congr 1; abel
    have hreach : Reach g start (f i) := by
      refine ⟨i, WWalk.walk hg (d := p i) (wwalk_iff_seq.2 ⟨hs, f, p, h0, rfl, h2, rfl, ?_⟩)⟩
      intro t ht; exact h4 t (by omega)
    have hc0 : 0 ≤ p j - p i := by
      by_contra hc
      exact hneg ⟨f i, j - i, p j - p i, hreach, hcyc, not_le.1 hc⟩
    -- the shortened walk
    have hshort : WWalk g start v (k - (j - i)) (d - (p j - p i)) := by
      refine wwalk_iff_seq.2 ⟨hs, fun t => if t ≤ i then f t else f (t + (j - i)),
        fun t => if t ≤ i then p t else p (t + (j - i)) - (p j - p i), ?_, ?_, ?_, ?_, ?_⟩
      · simp [h0]
      · dsimp only
        split
        · have : k - (j - i) = i := by omega
          rw [this, hfij, ← h1]; congr 1; omega
        · rw [show k - (j - i) + (j - i) = k by omega]; exact h1
      · simp [h2]
      · dsimp only
        split
        · have h5 : k - (j - i) = i := by omega
          have h6 : j = k := by omega
          rw [h5, ← h3, h6]; abel
        · rw [show k - (j - i) + (j - i) = k by omega, h3]
      · intro t ht
        dsimp only
        by_cases h5 : t + 1 ≤ i
        · rw [if_pos (show t ≤ i by omega), if_pos h5, if_pos h5, if_pos (show t ≤ i by omega)]
          exact h4 t (by omega)
        · by_cases h6 : t ≤ i
          · have h7 : t = i := by omega
            subst h7
            rw [if_pos h6, if_neg h5, if_neg h5, if_pos h6, hfij]
            rw [show t + 1 + (j - t) = j + 1 by omega, h4 j (by omega)]
            congr 1; abel
          · rw [if_neg h6, if_neg h5, if_neg h5, if_neg h6]
            rw [show t + 1 + (j - i) = t + (j - i) + 1 by omega, h4 (t + (j - i)) (by omega)]
            congr 1; abel
    obtain ⟨k', d', h5, h6, h7⟩ := ih (k - (j - i)) (by omega) v _ hshort
    exact ⟨k', d', h5, h6.trans (sub_le_self _ hc0), h7⟩

/-- Repeating a cycle. -/
theorem WWalk.append {g : Graph V K} {s x v j k : Nat} {c d : K} (h1 : WWalk g s x j c)
    (h2 : WWalk g x v k d) : ∃ k', WWalk g s v k' (c + d) := by
  induction h2 with
  | nil _ => rw [add_zero]; exact ⟨j, h1⟩
  | snoc _ he ih =>
    obtain ⟨k', hk'⟩ := ih
    rw [← add_assoc]
    exact ⟨_, hk'.snoc he⟩

theorem bf_final_upTo {g : Graph V K} (hg : g.WF) {start : Nat} (h : start < g.numVertices)
    (hneg : ¬ NegCycle g start) :
    BfClosed g (bfPasses (bfEdges g) (g.numVertices - 1) (bfInit start)) := by
  have h0 : BfUpTo g start 0 (bfInit start) := by
    intro v k x hk hw
    have : k = 0 := by omega
    subst this
    cases hw
    simp [bfInit]
  rcases bfPasses_upTo hg (g.numVertices - 1) h0 with hc | hu
  · exact hc
  · have hs := bfSound_passes hg (g.numVertices - 1) (bfSound_init g h)
    intro u v w he
    cases hdu : (bfPasses (bfEdges g) (g.numVertices - 1) (bfInit start)).dist u with
    | top => simp
    | coe x =>
      obtain ⟨k, hk⟩ := hs.1 u x hdu
      obtain ⟨k', d', h1, h2, h3⟩ := short_walk hg hneg _ _ _ (hk.snoc he)
      refine (hu v k' d' (by omega) h3).trans ?_
      rw [← WithTop.coe_add]
      exact WithTop.coe_le_coe.2 h2

theorem bfViolated_false {g : Graph V K} (hg : g.WF) (s : BfState K) :
    bfViolated (bfEdges g) s = false ↔ BfClosed g s := by
  unfold bfViolated
  rw [List.any_eq_false]
  constructor
  · intro h u v w he
    have := h (u, v, w) ((mem_bfEdges hg u v w).2 he)
    simp only [Bool.and_eq_true, decide_eq_true_eq, not_and, not_lt] at this
    by_cases hu : s.dist u = ⊤
    · simp [hu]
    · exact this hu
  · rintro h ⟨u, v, w⟩ he
    have := h u v w ((mem_bfEdges hg u v w).1 he)
    simp only [Bool.and_eq_true, decide_eq_true_eq, not_and, not_lt]
    exact fun _ => this

theorem closed_no_negCycle {g : Graph V K} (hg : g.WF) {start : Nat} {s : BfState K} (hs : BfSound g start s)
    (hc : BfClosed g s) : ¬ NegCycle g start := by
  rintro ⟨x, k, c, ⟨j, hj⟩, hcyc, hneg⟩
  obtain ⟨d, hd⟩ := hj.wwalk hg
  have h1 := hc.lower hs.2 hd
  cases hx : s.dist x with
  | top => rw [hx] at h1; exact absurd (top_le_iff.1 h1) WithTop.coe_ne_top
  | coe y =>
    obtain ⟨i, hi⟩ := hs.1 x y hx
    obtain ⟨k', hk'⟩ := hi.append hcyc
    have h2 := hc.lower hs.2 hk'
    rw [hx, WithTop.coe_le_coe] at h2
    exact absurd (le_add_iff_nonneg_right y |>.1 h2) (not_le.2 hneg)

/-- **C09.** `BellmanFord` from a valid start, with arbitrary weights.  If a negative cycle can be reached
from the start, the result is the empty (failure) result.  Otherwise the result has one entry per vertex
and `distance[v]` is the minimum weight of a walk to `v`, infinite exactly when there is no walk. -/
theorem bellmanFord_correct {g : Graph V K} (hg : g.WF) {start : Nat} (hstart : start < g.numVertices) :
    (NegCycle g start → bellmanFord g start = {}) ∧
    (¬ NegCycle g start →
      (bellmanFord g start).distance.length = g.numVertices ∧
      (bellmanFord g start).parent.length = g.numVertices ∧
      (∀ v (d : K), (bellmanFord g start).distance[v]? = some (d : WithTop K) ↔ IsShortest g start v d) ∧
      (∀ v, v < g.numVertices → ((bellmanFord g start).distance[v]? = some ⊤ ↔ ¬ Reach g start v))) := by
  have hs := bfSound_passes hg (g.numVertices - 1) (bfSound_init g hstart)
  unfold bellmanFord
  rw [if_neg (by omega)]
  dsimp only
  constructor
  · intro hneg
    rw [if_pos]
    by_contra hv
    exact closed_no_negCycle hg hs ((bfViolated_false hg _).1 (by simpa using hv)) hneg
  · intro hneg
    have hc := bf_final_upTo hg hstart hneg
    rw [if_neg (by rw [(bfViolated_false hg _).2 hc]; simp)]
    generalize bfPasses (bfEdges g) (g.numVertices - 1) (bfInit start) = s at hs hc
    refine ⟨by simp, by simp, ?_, ?_⟩
    · intro v d
      constructor
      · intro h
        have hv : v < g.numVertices := by
          have := (List.getElem?_eq_some_iff.1 h).1
          simpa using this
        rw [getElem?_range_map _ hv] at h
        have h : s.dist v = (d : WithTop K) := Option.some.inj h
        refine ⟨hs.1 v d h, fun k' d' hk' => ?_⟩
        have := hc.lower hs.2 hk'
        rw [h] at this
        exact WithTop.coe_le_coe.1 this
      · rintro ⟨⟨k, hk⟩, hmin⟩
        have hv : v < g.numVertices := (hg.walk_lt (hk.walk hg)).2
        rw [getElem?_range_map _ hv]
        have h2 := hc.lower hs.2 hk
        cases hd : s.dist v with
        | top => rw [hd] at h2; exact absurd (top_le_iff.1 h2) WithTop.coe_ne_top
        | coe x =>
          rw [hd] at h2
          obtain ⟨k', hk'⟩ := hs.1 v x hd
          have := le_antisymm (WithTop.coe_le_coe.1 h2) (hmin k' x hk')
          rw [this]
    · intro v hv
      rw [getElem?_range_map _ hv, Option.some.injEq]
      constructor
      · rintro h ⟨k, hk⟩
        obtain ⟨d, hd⟩ := hk.wwalk hg
        have := hc.lower hs.2 hd
        rw [h] at this
        exact WithTop.coe_ne_top (top_le_iff.1 this)
      · intro h
        cases hd : s.dist v with
        | top => rfl
        | coe x =>
          obtain ⟨k', hk'⟩ := hs.1 v x hd
          exact absurd ⟨k', hk'.walk hg⟩ h

/-- **C09.** For a valid start `HasNegativeCycle` is true exactly when a negative cycle can be reached. -/
theorem hasNegativeCycle_correct {g : Graph V K} (hg : g.WF) {start : Nat} (hstart : start < g.numVertices) :
    hasNegativeCycle g start = true ↔ NegCycle g start := by
  obtain ⟨h1, h2⟩ := bellmanFord_correct hg hstart
  unfold hasNegativeCycle
  constructor
  · intro h
    by_contra hneg
    have := (h2 hneg).2.1
    rw [List.isEmpty_iff] at h
    rw [h] at this
    simp at this; omega
  · intro hneg
    rw [h1 hneg]; rfl

/-- For a start that is no vertex `HasNegativeCycle` answers `true`, although no walk starts there. -/
theorem hasNegativeCycle_invalid_start (g : Graph V K) {start : Nat} (h : g.numVertices ≤ start) :
    hasNegativeCycle g start = true := by
  simp [hasNegativeCycle, bellmanFord, h]

/-! ### Concrete instances -/

/-- A graph with a negative edge and no negative cycle. -/
def sampleNegEdge : Graph Nat Int :=
  reached id .directed false 4 [.addEdge 0 1 4, .addEdge 0 2 3, .addEdge 1 2 (-2), .addEdge 2 3 2]

/-- A graph with a negative cycle 1 → 2 → 1 reachable from 0, but not from 3. -/
def sampleNegCycle : Graph Nat Int :=
  reached id .directed false 4 [.addEdge 0 1 4, .addEdge 1 2 (-2), .addEdge 2 1 1, .addEdge 2 3 2]

example : sampleNegEdge.WF ∧ sampleNegCycle.WF := ⟨reached_wf _ _ _ _ _, reached_wf _ _ _ _ _⟩
example : (bellmanFord sampleNegEdge 0).distance =
    [((0 : Int) : WithTop Int), (4 : Int), (2 : Int), (4 : Int)] := by decide
example : hasNegativeCycle sampleNegCycle 0 = true ∧ hasNegativeCycle sampleNegCycle 3 = false ∧
    hasNegativeCycle sampleNegEdge 0 = false := by decide

end Verif.Graph
