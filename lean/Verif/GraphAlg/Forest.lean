import Verif.GraphAlg.UnionFindProps
import Verif.GraphAlg.Components
import Mathlib.Data.Finset.Card
import Mathlib.Data.Finset.Max
import Mathlib.Algebra.Order.Group.Defs
import Mathlib.Algebra.BigOperators.Group.List.Basic
import Mathlib.Order.Defs.LinearOrder
import Mathlib.Tactic.Abel

/-!
# Specification of spanning forests, and the exchange argument

Weighted edges are triples `(u, v, w)`.
-/

set_option autoImplicit false

namespace Verif.Graph

variable {K : Type}

/-- Specification: `a` and `b` are connected by the edges in `T`, taken in either direction. -/
def Conn (T : List (Nat × Nat × K)) : Nat → Nat → Prop := Generated (fun a b => ∃ w, (a, b, w) ∈ T)

/-- Specification: `T` contains no cycle.  No edge of `T` joins two vertices that the other edges of `T`
connect already. -/
def Acyclic (T : List (Nat × Nat × K)) : Prop :=
  ∀ (i u v : Nat) (w : K), T[i]? = some (u, v, w) → ¬ Conn (T.eraseIdx i) u v

/-- Specification: total weight of a list of edges. -/
def weightOf [AddMonoid K] (T : List (Nat × Nat × K)) : K := (T.map (fun e => e.2.2)).sum

/-- Specification: `T` is a spanning forest of the graph.  Its elements are edges of the graph with the
weight the graph reports, it has no cycle, and it connects any two vertices that are connected in the
graph. -/
structure SpanningForest {V : Type} (g : Graph V K) (T : List (Nat × Nat × K)) : Prop where
  edges : ∀ u v w, (u, v, w) ∈ T → g.edgeWeight u v = .ret w
  acyclic : Acyclic T
  spanning : ∀ u v, Reach g u v → Conn T u v

/-! ### Connectivity -/

theorem Conn.refl (T : List (Nat × Nat × K)) (a : Nat) : Conn T a a := Relation.EqvGen.refl a
theorem Conn.symm {T : List (Nat × Nat × K)} {a b : Nat} (h : Conn T a b) : Conn T b a := Relation.EqvGen.symm _ _ h
theorem Conn.trans {T : List (Nat × Nat × K)} {a b c : Nat} (h : Conn T a b) (h' : Conn T b c) : Conn T a c :=
  Relation.EqvGen.trans _ _ _ h h'
theorem Conn.edge {T : List (Nat × Nat × K)} {a b : Nat} {w : K} (h : (a, b, w) ∈ T) : Conn T a b :=
  Relation.EqvGen.rel _ _ ⟨w, h⟩

theorem Conn.of_edges {S T : List (Nat × Nat × K)} (h : ∀ u v w, (u, v, w) ∈ S → Conn T u v) {a b : Nat}
    (hab : Conn S a b) : Conn T a b := by
  induction hab with
  | rel a b h' => obtain ⟨w, hw⟩ := h'; exact h a b w hw
  | refl a => exact .refl T a
  | symm _ _ _ ih => exact ih.symm
  | trans _ _ _ _ _ ih1 ih2 => exact ih1.trans ih2

theorem Conn.mono {S T : List (Nat × Nat × K)} (h : ∀ e ∈ S, e ∈ T) {a b : Nat} (hab : Conn S a b) : Conn T a b :=
  hab.of_edges (fun _ _ _ hw => .edge (h _ hw))

theorem conn_nil {a b : Nat} (h : Conn ([] : List (Nat × Nat × K)) a b) : a = b := by
  induction h with
  | rel a b h => obtain ⟨w, hw⟩ := h; simp at hw
  | refl a => rfl
  | symm _ _ _ ih => exact ih.symm
  | trans _ _ _ _ _ ih1 ih2 => exact ih1.trans ih2

/-- Connectivity after adding an edge. -/
theorem conn_append {T : List (Nat × Nat × K)} {x y : Nat} {w : K} {a b : Nat} :
    Conn (T ++ [(x, y, w)]) a b ↔ Conn T a b ∨ (Conn T a x ∧ Conn T b y) ∨ (Conn T a y ∧ Conn T b x) := by
  have hold : ∀ {c d : Nat}, Conn T c d → Conn (T ++ [(x, y, w)]) c d :=
    fun h => h.mono (fun e he => List.mem_append_left _ he)
  have hnew : Conn (T ++ [(x, y, w)]) x y := .edge (w := w) (by simp)
  constructor
  · intro h
    induction h with
    | rel a b h =>
      obtain ⟨w', hw⟩ := h
      rcases List.mem_append.1 hw with hw | hw
      · exact Or.inl (.edge hw)
      · simp at hw
        obtain ⟨rfl, rfl, rfl⟩ := hw
        exact Or.inr (Or.inl ⟨.refl _ _, .refl _ _⟩)
    | refl a => exact Or.inl (.refl _ _)
    | symm a b _ ih =>
      rcases ih with h | ⟨h, h'⟩ | ⟨h, h'⟩
      · exact Or.inl h.symm
      · exact Or.inr (Or.inr ⟨h', h⟩)
      · exact Or.inr (Or.inl ⟨h', h⟩)
    | trans a b c _ _ ih1 ih2 =>
      rcases ih1 with h | ⟨h, h'⟩ | ⟨h, h'⟩ <;> rcases ih2 with k | ⟨k, k'⟩ | ⟨k, k'⟩
      · exact Or.inl (h.trans k)
      · exact Or.inr (Or.inl ⟨h.trans k, k'⟩)
      · exact Or.inr (Or.inr ⟨h.trans k, k'⟩)
      · exact Or.inr (Or.inl ⟨h, k.symm.trans h'⟩)
      · exact Or.inr (Or.inl ⟨h, k'⟩)
      · exact Or.inl (h.trans k'.symm)
      · exact Or.inr (Or.inr ⟨h, k.symm.trans h'⟩)
      · exact Or.inl (h.trans k'.symm)
      · exact Or.inr (Or.inr ⟨h, k'⟩)
  · rintro (h | ⟨h, h'⟩ | ⟨h, h'⟩)
    · exact hold h
    · exact ((hold h).trans hnew).trans (hold h').symm
    · exact ((hold h).trans hnew.symm).trans (hold h').symm

/-! ### Number of components -/

open Classical in
/-- The vertices that are least in their component. -/
noncomputable def leaders (n : Nat) (T : List (Nat × Nat × K)) : Finset Nat :=
  (Finset.range n).filter (fun x => ∀ y < n, Conn T x y → x ≤ y)

theorem mem_leaders {n : Nat} {T : List (Nat × Nat × K)} {x : Nat} :
    x ∈ leaders n T ↔ x < n ∧ ∀ y < n, Conn T x y → x ≤ y := by
  simp [leaders]

theorem exists_leader {n : Nat} (T : List (Nat × Nat × K)) {x : Nat} (hx : x < n) :
    ∃ l ∈ leaders n T, Conn T x l := by
  classical
  have hne : ∃ l, l < n ∧ Conn T x l := ⟨x, hx, .refl _ _⟩
  refine ⟨Nat.find hne, mem_leaders.2 ⟨(Nat.find_spec hne).1, fun y hy hc => ?_⟩, (Nat.find_spec hne).2⟩
  exact Nat.find_min' hne ⟨hy, (Nat.find_spec hne).2.trans hc⟩

theorem leaders_nil (n : Nat) : (leaders n ([] : List (Nat × Nat × K))).card = n := by
  have : leaders n ([] : List (Nat × Nat × K)) = Finset.range n := by
    ext x
    rw [mem_leaders, Finset.mem_range]
    refine ⟨fun h => h.1, fun h => ⟨h, fun y _ hc => ?_⟩⟩
    rw [conn_nil hc]
  rw [this, Finset.card_range]

theorem leaders_mono {n : Nat} {S T : List (Nat × Nat × K)} (h : ∀ u v, Conn S u v → Conn T u v) :
    (leaders n T).card ≤ (leaders n S).card := by
  apply Finset.card_le_card
  intro x hx
  rw [mem_leaders] at hx ⊢
  exact ⟨hx.1, fun y hy hc => hx.2 y hy (h _ _ hc)⟩

theorem leaders_unique {n : Nat} {T : List (Nat × Nat × K)} {a b : Nat} (ha : a ∈ leaders n T)
    (hb : b ∈ leaders n T) (h : Conn T a b) : a = b := by
  rw [mem_leaders] at ha hb
  exact Nat.le_antisymm (ha.2 b hb.1 h) (hb.2 a ha.1 h.symm)

/-- Joining two components removes one leader. -/
theorem leaders_append {n : Nat} {T : List (Nat × Nat × K)} {x y : Nat} {w : K} (hx : x < n) (hy : y < n)
    (hxy : ¬ Conn T x y) : (leaders n (T ++ [(x, y, w)])).card + 1 = (leaders n T).card := by
  classical
  obtain ⟨a, ha, hxa⟩ := exists_leader T hx
  obtain ⟨b, hb, hyb⟩ := exists_leader T hy
  -- the greater leader goes away
  have main : ∀ a b, a ∈ leaders n T → b ∈ leaders n T → a < b →
      ((Conn T x a ∧ Conn T y b) ∨ (Conn T y a ∧ Conn T x b)) →
      (leaders n (T ++ [(x, y, w)])).card + 1 = (leaders n T).card := by
    intro a b ha hb hab hor
    have hset : leaders n (T ++ [(x, y, w)]) = (leaders n T).erase b := by
      ext z
      rw [Finset.mem_erase, mem_leaders]
      constructor
      · rintro ⟨hz, h⟩
        refine ⟨?_, mem_leaders.2 ⟨hz, fun y' hy' hc => h y' hy' (conn_append.2 (Or.inl hc))⟩⟩
        rintro rfl
        have := h a (mem_leaders.1 ha).1 (conn_append.2 (by
          rcases hor with ⟨h1, h2⟩ | ⟨h1, h2⟩
          · exact Or.inr (Or.inr ⟨h2.symm, h1.symm⟩)
          · exact Or.inr (Or.inl ⟨h2.symm, h1.symm⟩)))
        omega
      · rintro ⟨hzb, hz⟩
        have hz' := mem_leaders.1 hz
        refine ⟨hz'.1, fun y' hy' hc => ?_⟩
        -- the leader of y' is z, or z = a and the leader of y' is b
        rcases conn_append.1 hc with h | ⟨h, h'⟩ | ⟨h, h'⟩
        · exact hz'.2 y' hy' h
        · rcases hor with ⟨h1, h2⟩ | ⟨h1, h2⟩
          · have : z = a := leaders_unique hz ha (h.trans h1)
            subst this
            exact Nat.le_trans (Nat.le_of_lt hab) ((mem_leaders.1 hb).2 y' hy' (h2.symm.trans h'.symm))
          · exact absurd (leaders_unique hz hb (h.trans h2)) hzb
        · rcases hor with ⟨h1, h2⟩ | ⟨h1, h2⟩
          · exact absurd (leaders_unique hz hb (h.trans h2)) hzb
          · have : z = a := leaders_unique hz ha (h.trans h1)
            subst this
            exact Nat.le_trans (Nat.le_of_lt hab) ((mem_leaders.1 hb).2 y' hy' (h2.symm.trans h'.symm))
    rw [hset, Finset.card_erase_of_mem hb]
    have := Finset.card_pos.2 ⟨b, hb⟩
    omega
  have hab : a ≠ b := by
    rintro rfl
    exact hxy (hxa.trans hyb.symm)
  rcases Nat.lt_or_gt_of_ne hab with h | h
  · exact main a b ha hb h (Or.inl ⟨hxa, hyb⟩)
  · exact main b a hb ha h (Or.inr ⟨hyb, hxa⟩)

theorem leaders_append_le {n : Nat} {T : List (Nat × Nat × K)} {x y : Nat} {w : K} (hx : x < n) (hy : y < n) :
    (leaders n T).card ≤ (leaders n (T ++ [(x, y, w)])).card + 1 := by
  by_cases h : Conn T x y
  · have hset : leaders n (T ++ [(x, y, w)]) = leaders n T := by
      ext z
      have : ∀ u, Conn (T ++ [(x, y, w)]) z u ↔ Conn T z u := by
        intro u
        rw [conn_append]
        constructor
        · rintro (h1 | ⟨h1, h2⟩ | ⟨h1, h2⟩)
          · exact h1
          · exact (h1.trans h).trans h2.symm
          · exact (h1.trans h.symm).trans h2.symm
        · exact Or.inl
      simp only [mem_leaders, this]
    rw [hset]; omega
  · have := leaders_append (w := w) hx hy h; omega

/-- All endpoints are below `n`. -/
def InRange (n : Nat) (T : List (Nat × Nat × K)) : Prop := ∀ u v w, (u, v, w) ∈ T → u < n ∧ v < n

theorem leaders_le_add {n : Nat} {T : List (Nat × Nat × K)} (hr : InRange n T) :
    n ≤ (leaders n T).card + T.length := by
  induction T using List.reverseRecOn with
  | nil => rw [leaders_nil]; simp
  | append_singleton T e ih =>
    obtain ⟨x, y, w⟩ := e
    have h1 := hr x y w (by simp)
    have h2 := ih (fun u v w h => hr u v w (List.mem_append_left _ h))
    have h3 := leaders_append_le (T := T) (w := w) h1.1 h1.2
    simp only [List.length_append, List.length_singleton]
    omega

/-- Each edge joins vertices that the earlier edges do not connect. -/
def SeqAcyclic (T : List (Nat × Nat × K)) : Prop :=
  ∀ (A B : List (Nat × Nat × K)) (u v : Nat) (w : K), T = A ++ (u, v, w) :: B → ¬ Conn A u v

theorem Acyclic.seq {T : List (Nat × Nat × K)} (h : Acyclic T) : SeqAcyclic T := by
  rintro A B u v w rfl hc
  refine h A.length u v w (by simp) (hc.mono ?_)
  intro e he
  rw [List.eraseIdx_append_of_length_le (Nat.le_refl _)]
  simp [he]

theorem seqAcyclic_append {T : List (Nat × Nat × K)} {x y : Nat} {w : K} :
    SeqAcyclic (T ++ [(x, y, w)]) ↔ SeqAcyclic T ∧ ¬ Conn T x y := by
  constructor
  · intro h
    refine ⟨?_, h T [] x y w rfl⟩
    rintro A B u v w' rfl
    exact h A (B ++ [(x, y, w)]) u v w' (by simp)
  · rintro ⟨h1, h2⟩ A B u v w' hT
    rcases List.eq_nil_or_concat B with rfl | ⟨B', b, rfl⟩
    · have := List.append_inj' hT rfl
      obtain ⟨rfl, h3⟩ := this
      simp at h3
      obtain ⟨rfl, rfl, rfl⟩ := h3
      exact h2
    · have hT' : T ++ [(x, y, w)] = (A ++ (u, v, w') :: B') ++ [b] := by rw [hT]; simp
      exact h1 A B' u v w' (List.append_inj' hT' rfl).1

theorem SeqAcyclic.card {n : Nat} {T : List (Nat × Nat × K)} (h : SeqAcyclic T) (hr : InRange n T) :
    (leaders n T).card + T.length = n := by
  induction T using List.reverseRecOn with
  | nil => rw [leaders_nil]; simp
  | append_singleton T e ih =>
    obtain ⟨x, y, w⟩ := e
    rw [seqAcyclic_append] at h
    have h1 := hr x y w (by simp)
    have h2 := ih h.1 (fun u v w h => hr u v w (List.mem_append_left _ h))
    have h3 := leaders_append (w := w) h1.1 h1.2 h.2
    simp only [List.length_append, List.length_singleton]
    omega

theorem SeqAcyclic.acyclic {n : Nat} {T : List (Nat × Nat × K)} (h : SeqAcyclic T) (hr : InRange n T) :
    Acyclic T := by
  intro i u v w hi hc
  have hlt := (List.getElem?_eq_some_iff.1 hi).1
  have hsub : ∀ e ∈ T.eraseIdx i, e ∈ T := fun e he => List.mem_of_mem_eraseIdx he
  have h1 := h.card hr
  have h2 := leaders_le_add (n := n) (T := T.eraseIdx i) (fun a b c h => hr a b c (hsub _ h))
  have h3 : (leaders n (T.eraseIdx i)).card ≤ (leaders n T).card := by
    apply leaders_mono
    intro a b hab
    refine hab.of_edges (fun a b c habc => ?_)
    obtain ⟨j, hj⟩ := List.mem_iff_getElem?.1 habc
    by_cases hji : j = i
    · subst hji; rw [hi] at hj; cases hj; exact hc
    · refine .edge (w := c) (List.mem_iff_getElem?.2 ?_)
      rcases Nat.lt_or_gt_of_ne hji with h | h
      · exact ⟨j, by rw [List.getElem?_eraseIdx_of_lt h]; exact hj⟩
      · exact ⟨j - 1, by rw [List.getElem?_eraseIdx_of_ge (by omega), show j - 1 + 1 = j by omega]; exact hj⟩
  rw [List.length_eraseIdx_of_lt hlt] at h2
  omega

theorem SeqAcyclic.filter {n : Nat} {T : List (Nat × Nat × K)} (h : SeqAcyclic T) (hr : InRange n T)
    (p : Nat × Nat × K → Bool) : SeqAcyclic (T.filter p) := by
  induction T using List.reverseRecOn with
  | nil => exact h
  | append_singleton T e ih =>
    obtain ⟨x, y, w⟩ := e
    rw [seqAcyclic_append] at h
    have h2 := ih h.1 (fun u v w h => hr u v w (List.mem_append_left _ h))
    rw [List.filter_append]
    simp only [List.filter_cons, List.filter_nil]
    split
    · rw [seqAcyclic_append]
      exact ⟨h2, fun hc => h.2 (hc.mono (fun e he => (List.mem_filter.1 he).1))⟩
    · simpa using h2

/-! ### Optimality -/

/-- If for every bound at least as many elements of `A` as of `B` are below it, and the lists are equally
long, the sum of `A` is at most the sum of `B`. -/
theorem sum_le_of_counts [AddCommGroup K] [LinearOrder K] [IsOrderedAddMonoid K] :
    ∀ (m : Nat) (A B : List K), A.length = m → B.length = m →
      (∀ t, (B.filter (fun x => decide (x ≤ t))).length ≤ (A.filter (fun x => decide (x ≤ t))).length) →
      A.sum ≤ B.sum := by
  intro m
  induction m with
  | zero =>
    intro A B hA hB _
    rw [List.length_eq_zero_iff.1 hA, List.length_eq_zero_iff.1 hB]
  | succ m ih =>
    intro A B hA hB hcount
    have hmax : ∀ (L : List K), L ≠ [] → ∃ x ∈ L, ∀ y ∈ L, y ≤ x := by
      intro L hL
      induction L with
      | nil => exact absurd rfl hL
      | cons a L ihL =>
        by_cases hL' : L = []
        · subst hL'; exact ⟨a, by simp, by simp⟩
        · obtain ⟨x, hx, hxm⟩ := ihL hL'
          rcases le_total a x with h | h
          · exact ⟨x, by simp [hx], by simpa [h] using hxm⟩
          · refine ⟨a, by simp, ?_⟩
            intro y hy
            rcases List.mem_cons.1 hy with rfl | hy
            · exact le_refl _
            · exact (hxm y hy).trans h
    obtain ⟨a, ha, hamax⟩ := hmax A (by rintro rfl; simp at hA)
    obtain ⟨b, hb, hbmax⟩ := hmax B (by rintro rfl; simp at hB)
    have hall : ∀ x ∈ A, x ≤ b := by
      have h1 := hcount b
      have h2 : B.filter (fun x => decide (x ≤ b)) = B := List.filter_eq_self.2 (by simpa using hbmax)
      rw [h2, hB, ← hA] at h1
      have h3 := List.length_filter_le (fun x => decide (x ≤ b)) A
      have h4 := List.length_filter_eq_length_iff.1 (le_antisymm h3 h1)
      simpa using h4
    classical
    have hpa := List.perm_cons_erase ha
    have hpb := List.perm_cons_erase hb
    rw [hpa.sum_eq, hpb.sum_eq, List.sum_cons, List.sum_cons]
    have hlA : (A.erase a).length = m := by rw [List.length_erase_of_mem ha]; omega
    have hlB : (B.erase b).length = m := by rw [List.length_erase_of_mem hb]; omega
    refine add_le_add (hall a ha) (ih _ _ hlA hlB ?_)
    intro t
    have h1 := hcount t
    rw [(hpa.filter _).length_eq, (hpb.filter _).length_eq, List.filter_cons, List.filter_cons] at h1
    by_cases hat : a ≤ t
    · have h2 : (A.erase a).filter (fun x => decide (x ≤ t)) = A.erase a := by
        rw [List.filter_eq_self]
        intro x hx
        simpa using (hamax x (List.mem_of_mem_erase hx)).trans hat
      rw [h2, hlA, ← hlB]
      exact List.length_filter_le _ _
    · have hbt : ¬ b ≤ t := fun h => hat ((hall a ha).trans h)
      simpa [hat, hbt] using h1

/-- A forest `F` such that every edge of the forest `T` joins vertices connected by edges of `F` that are
not heavier is not heavier than `T`, provided both have the same number of edges. -/
theorem forest_optimal [AddCommGroup K] [LinearOrder K] [IsOrderedAddMonoid K] {n : Nat}
    {F T : List (Nat × Nat × K)} (hF : SeqAcyclic F) (hT : SeqAcyclic T) (hFr : InRange n F) (hTr : InRange n T)
    (hlen : F.length = T.length)
    (hopt : ∀ u v w, (u, v, w) ∈ T → Conn (F.filter (fun e => decide (e.2.2 ≤ w))) u v) :
    weightOf F ≤ weightOf T := by
  unfold weightOf
  refine sum_le_of_counts F.length _ _ (by simp) (by simp [hlen]) ?_
  intro t
  have hcount : ∀ L : List (Nat × Nat × K), ((L.map (fun e => e.2.2)).filter (fun x => decide (x ≤ t))).length =
      (L.filter (fun e => decide (e.2.2 ≤ t))).length := by
    intro L; rw [List.filter_map, List.length_map]; rfl
  rw [hcount, hcount]
  have hr : ∀ {L : List (Nat × Nat × K)}, InRange n L → InRange n (L.filter (fun e => decide (e.2.2 ≤ t))) :=
    fun h u v w hm => h u v w (List.mem_filter.1 hm).1
  have h1 := (hF.filter hFr (fun e => decide (e.2.2 ≤ t))).card (hr hFr)
  have h2 := (hT.filter hTr (fun e => decide (e.2.2 ≤ t))).card (hr hTr)
  have h3 : (leaders n (F.filter (fun e => decide (e.2.2 ≤ t)))).card ≤
      (leaders n (T.filter (fun e => decide (e.2.2 ≤ t)))).card := by
    apply leaders_mono
    intro a b hab
    refine hab.of_edges (fun u v w hm => ?_)
    obtain ⟨hm1, hm2⟩ := List.mem_filter.1 hm
    have hm2 : w ≤ t := by simpa using hm2
    refine (hopt u v w hm1).mono (fun e he => ?_)
    obtain ⟨he1, he2⟩ := List.mem_filter.1 he
    have he2 : e.2.2 ≤ w := by simpa using he2
    exact List.mem_filter.2 ⟨he1, by simpa using he2.trans hm2⟩
  omega

end Verif.Graph
