import Verif.KD.Model
import Mathlib.Algebra.BigOperators.Fin
import Mathlib.Algebra.Order.BigOperators.Group.Finset
import Mathlib.Data.List.Nodup
import Mathlib.Data.Fintype.Card
import Mathlib.Tactic.Linarith

/-! # Lemmas about the KD-tree model -/

set_option autoImplicit false

namespace Verif.KD

open Verif.Graph (popMin popMin_none popMin_perm popMin_le)

variable {n d : ℕ}

/-- All indices stored in a tree. -/
def Tree.points : Tree n d → List (Fin n)
  | .nil => []
  | .leaf l => l
  | .split _ _ l r => l.points ++ r.points

/-- Every split separates the points of its children. -/
def Tree.Ordered (pts : Fin n → Fin d → ℝ) : Tree n d → Prop
  | .nil => True
  | .leaf _ => True
  | .split axis v l r =>
    (∀ i ∈ l.points, pts i axis ≤ v) ∧ (∀ i ∈ r.points, v ≤ pts i axis) ∧ l.Ordered pts ∧ r.Ordered pts

theorem Built.spec [NeZero d] {pts : Fin n → Fin d → ℝ} {maxLeaf : ℤ} {depth : ℕ} {l : List (Fin n)} {t : Tree n d}
    (h : Built pts maxLeaf depth l t) : t.points.Perm l ∧ t.Ordered pts := by
  induction h with
  | nil depth => exact ⟨List.Perm.refl _, trivial⟩
  | leaf depth l hl h => exact ⟨List.Perm.refl _, trivial⟩
  | split depth l r m left right hl h hn h1 h2 ih1 ih2 =>
    obtain ⟨hp, hm, hlt, hgt⟩ := hn
    refine ⟨?_, ?_, ?_, ih1.2, ih2.2⟩
    · refine (ih1.1.append ih2.1).trans ?_
      rw [List.take_append_drop]; exact hp
    · intro i hi
      exact not_lt.1 (hlt i (ih1.1.mem_iff.1 hi))
    · intro i hi
      exact not_lt.1 (hgt i (ih2.1.mem_iff.1 hi))

theorem Built.nil_iff [NeZero d] {pts : Fin n → Fin d → ℝ} {maxLeaf : ℤ} {depth : ℕ} {l : List (Fin n)} {t : Tree n d}
    (h : Built pts maxLeaf depth l t) : t = .nil ↔ l = [] := by
  cases h with
  | nil depth => simp
  | leaf depth l hl h => simp [hl]
  | split depth l r m left right hl h hn h1 h2 => simp [hl]

theorem foldl_add_eq_sum {d : ℕ} (f : Fin d → ℝ) :
    (List.finRange d).foldl (fun s i => s + f i) 0 = ∑ i, f i := by
  have : ∀ (l : List (Fin d)) (a : ℝ), l.foldl (fun s i => s + f i) a = a + (l.map f).sum := by
    intro l
    induction l with
    | nil => simp
    | cons x xs ih => intro a; simp [ih, add_assoc]
  rw [this, zero_add, ← List.ofFn_eq_map, List.sum_ofFn]

theorem distanceSquared_eq (a b : Fin d → ℝ) : distanceSquared a b = ∑ i, (a i - b i) ^ 2 := by
  unfold distanceSquared
  rw [foldl_add_eq_sum (fun i => (a i - b i) * (a i - b i))]
  exact Finset.sum_congr rfl (fun i _ => (sq _).symm)

theorem distanceSquared_comm (a b : Fin d → ℝ) : distanceSquared a b = distanceSquared b a := by
  rw [distanceSquared_eq, distanceSquared_eq]
  exact Finset.sum_congr rfl (fun i _ => by ring)

theorem distanceSquared_nonneg (a b : Fin d → ℝ) : 0 ≤ distanceSquared a b := by
  rw [distanceSquared_eq]
  exact Finset.sum_nonneg (fun i _ => sq_nonneg _)

theorem axis_le (a b : Fin d → ℝ) (x : Fin d) : (a x - b x) ^ 2 ≤ distanceSquared a b := by
  rw [distanceSquared_eq]
  exact Finset.single_le_sum (f := fun i => (a i - b i) ^ 2) (fun i _ => sq_nonneg _) (Finset.mem_univ x)

/-- The splitting plane is no farther than any point beyond it. -/
theorem prune_left (q p : Fin d → ℝ) (axis : Fin d) (v : ℝ) (h : ¬ q axis - v < 0) (hp : p axis ≤ v) :
    (q axis - v) * (q axis - v) ≤ distanceSquared q p := by
  have h1 := axis_le q p axis
  nlinarith

theorem prune_right (q p : Fin d → ℝ) (axis : Fin d) (v : ℝ) (h : q axis - v < 0) (hp : v ≤ p axis) :
    (q axis - v) * (q axis - v) ≤ distanceSquared q p := by
  have h1 := axis_le q p axis
  nlinarith

/-! ## Nearest -/

/-- `best` is a nearest point among those satisfying `S`. -/
def GoodBest (D : Fin n → ℝ) (S : Fin n → Prop) : Best n → Prop
  | none => ∀ j, ¬ S j
  | some (i, x) => S i ∧ x = D i ∧ ∀ j, S j → x ≤ D j

theorem GoodBest.congr {D : Fin n → ℝ} {S T : Fin n → Prop} (h : ∀ j, S j ↔ T j) {b : Best n}
    (hb : GoodBest D S b) : GoodBest D T b := by
  have : S = T := funext fun j => propext (h j)
  exact this ▸ hb

theorem GoodBest.skip {D : Fin n → ℝ} {S T : Fin n → Prop} {b : Best n} {x : ℝ} (hb : GoodBest D S b)
    (hx : ltBest x b = false) (hT : ∀ j, T j → x ≤ D j) : GoodBest D (fun j => S j ∨ T j) b := by
  rcases b with _ | ⟨i, y⟩
  · simp [ltBest] at hx
  · simp only [ltBest, decide_eq_false_iff_not, not_lt] at hx
    refine ⟨Or.inl hb.1, hb.2.1, ?_⟩
    rintro j (hj | hj)
    · exact hb.2.2 j hj
    · exact hx.trans (hT j hj)

theorem GoodBest.step {D : Fin n → ℝ} {S : Fin n → Prop} {b : Best n} {i : Fin n} (hb : GoodBest D S b) :
    GoodBest D (fun j => S j ∨ j = i) (if ltBest (D i) b then some (i, D i) else b) := by
  split
  · next h =>
    refine ⟨Or.inr rfl, rfl, ?_⟩
    rintro j (hj | rfl)
    · rcases b with _ | ⟨i', y⟩
      · exact absurd hj (hb j)
      · simp only [ltBest, decide_eq_true_eq] at h
        exact h.le.trans (hb.2.2 j hj)
    · exact le_rfl
  · next h =>
    simp only [Bool.not_eq_true] at h
    exact hb.skip h (fun j hj => by rw [hj])

theorem GoodBest.fold {D : Fin n → ℝ} (l : List (Fin n)) {S : Fin n → Prop} {b : Best n} (hb : GoodBest D S b) :
    GoodBest D (fun j => S j ∨ j ∈ l) (l.foldl (fun b i => if ltBest (D i) b then some (i, D i) else b) b) := by
  induction l generalizing S b with
  | nil => exact hb.congr (by simp)
  | cons x xs ih =>
    exact (ih (hb.step (i := x))).congr (fun j => by simp [or_assoc])

theorem nearestRec_good (pts : Fin n → Fin d → ℝ) (q : Fin d → ℝ) (t : Tree n d) (ho : t.Ordered pts)
    {S : Fin n → Prop} {b : Best n} (hb : GoodBest (fun i => distanceSquared q (pts i)) S b) :
    GoodBest (fun i => distanceSquared q (pts i)) (fun j => S j ∨ j ∈ t.points) (nearestRec pts q t b) := by
  induction t generalizing S b with
  | nil => exact hb.congr (by simp [Tree.points])
  | leaf l => exact hb.fold l
  | split axis v l r ihl ihr =>
    obtain ⟨h1, h2, hol, hor⟩ := ho
    simp only [nearestRec]
    split
    · next hd =>
      have hl := ihl hol hb
      split
      · exact (ihr hor hl).congr (fun j => by simp [Tree.points, or_assoc])
      · next hs =>
        simp only [Bool.not_eq_true] at hs
        exact (hl.skip (T := fun j => j ∈ r.points) hs (fun j hj => prune_right q _ axis v hd (h2 j hj))).congr
          (fun j => by simp [Tree.points, or_assoc])
    · next hd =>
      have hr := ihr hor hb
      split
      · exact (ihl hol hr).congr (fun j => by simp only [Tree.points, List.mem_append]; tauto)
      · next hs =>
        simp only [Bool.not_eq_true] at hs
        exact (hr.skip (T := fun j => j ∈ l.points) hs (fun j hj => prune_left q _ axis v hd (h1 j hj))).congr
          (fun j => by simp only [Tree.points, List.mem_append]; tauto)

/-! ## k nearest -/

theorem entryGe_fst {a b : ℝ × Fin n} (h : entryGe a b = true) : b.1 ≤ a.1 := by
  simp only [entryGe, Bool.or_eq_true, Bool.and_eq_true, decide_eq_true_eq] at h
  rcases h with h | h
  · exact h.le
  · exact h.1.le

theorem entryGe_total (a b : ℝ × Fin n) : entryGe a b = true ∨ entryGe b a = true := by
  simp only [entryGe, Bool.or_eq_true, Bool.and_eq_true, decide_eq_true_eq]
  rcases lt_trichotomy a.1 b.1 with h | h | h
  · exact Or.inr (Or.inl h)
  · rcases le_total a.2 b.2 with h2 | h2
    · exact Or.inr (Or.inr ⟨h, h2⟩)
    · exact Or.inl (Or.inr ⟨h.symm, h2⟩)
  · exact Or.inl (Or.inl h)

theorem entryGe_trans (a b c : ℝ × Fin n) (h1 : entryGe a b = true) (h2 : entryGe b c = true) :
    entryGe a c = true := by
  simp only [entryGe, Bool.or_eq_true, Bool.and_eq_true, decide_eq_true_eq] at *
  rcases h1 with h1 | h1 <;> rcases h2 with h2 | h2
  · exact Or.inl (lt_trans h2 h1)
  · exact Or.inl (h2.1 ▸ h1)
  · exact Or.inl (h1.1 ▸ h2)
  · exact Or.inr ⟨h2.1.trans h1.1, le_trans h2.2 h1.2⟩

theorem pop_max {heap : List (ℝ × Fin n)} {top : ℝ × Fin n} {rest : List (ℝ × Fin n)}
    (h : popMin entryGe heap = some (top, rest)) :
    (top :: rest).Perm heap ∧ ∀ e ∈ heap, e.1 ≤ top.1 :=
  ⟨popMin_perm _ _ h, fun e he => entryGe_fst (popMin_le _ entryGe_total entryGe_trans _ h e he)⟩

/-- The heap holds `min k |S|` nearest ones of the points satisfying `S`. -/
structure GoodHeap (D : Fin n → ℝ) (k : ℕ) (S : Fin n → Prop) (heap : List (ℝ × Fin n)) : Prop where
  nodup : (heap.map Prod.snd).Nodup
  val : ∀ e ∈ heap, e.1 = D e.2
  mem : ∀ e ∈ heap, S e.2
  len : heap.length ≤ k
  all : heap.length < k → ∀ j, S j → j ∈ heap.map Prod.snd
  out : ∀ j, S j → j ∉ heap.map Prod.snd → ∀ e ∈ heap, e.1 ≤ D j

theorem GoodHeap.congr {D : Fin n → ℝ} {k : ℕ} {S T : Fin n → Prop} (h : ∀ j, S j ↔ T j)
    {b : List (ℝ × Fin n)} (hb : GoodHeap D k S b) : GoodHeap D k T b := by
  have : S = T := funext fun j => propext (h j)
  exact this ▸ hb

theorem GoodHeap.skip {D : Fin n → ℝ} {k : ℕ} {S T : Fin n → Prop} {b : List (ℝ × Fin n)}
    (hb : GoodHeap D k S b) (hk : ¬ b.length < k) (hT : ∀ j, T j → ∀ e ∈ b, e.1 ≤ D j) :
    GoodHeap D k (fun j => S j ∨ T j) b := by
  refine ⟨hb.nodup, hb.val, fun e he => Or.inl (hb.mem e he), hb.len, fun h => absurd h hk, ?_⟩
  rintro j (hj | hj) hn e he
  · exact hb.out j hj hn e he
  · exact hT j hj e he

theorem GoodHeap.step (pts : Fin n → Fin d → ℝ) (q : Fin d → ℝ) {k : ℕ} {S : Fin n → Prop}
    {b : List (ℝ × Fin n)} {i : Fin n} (hk : 0 < k) (hi : ¬ S i)
    (hb : GoodHeap (fun i => distanceSquared q (pts i)) k S b) :
    GoodHeap (fun i => distanceSquared q (pts i)) k (fun j => S j ∨ j = i) (kNearestLeaf pts q k b i) := by
  have hnew : ∀ e ∈ b, e.2 ≠ i := fun e he h => hi (h ▸ hb.mem e he)
  simp only [kNearestLeaf]
  split
  · next hlt =>
    refine ⟨?_, ?_, ?_, ?_, ?_, ?_⟩
    · simp only [List.map_cons, List.nodup_cons]
      refine ⟨?_, hb.nodup⟩
      intro hm
      obtain ⟨e, he, h⟩ := List.mem_map.1 hm
      exact hnew e he h
    · intro e he
      rcases List.mem_cons.1 he with rfl | he
      · rfl
      · exact hb.val e he
    · intro e he
      rcases List.mem_cons.1 he with rfl | he
      · exact Or.inr rfl
      · exact Or.inl (hb.mem e he)
    · simpa using hlt
    · rintro _ j (hj | rfl)
      · exact List.mem_cons_of_mem _ (hb.all hlt j hj)
      · simp
    · rintro j (hj | rfl) hn
      · exact absurd (List.mem_cons_of_mem _ (hb.all hlt j hj)) hn
      · simp at hn
  · next hlt =>
    split
    · next top rest hp =>
      obtain ⟨hperm, hmax⟩ := pop_max hp
      have htop : top ∈ b := hperm.mem_iff.1 (List.mem_cons_self ..)
      have hrest : ∀ e ∈ rest, e ∈ b := fun e he => hperm.mem_iff.1 (List.mem_cons_of_mem _ he)
      have hlen : rest.length + 1 = b.length := by simpa using hperm.length_eq
      have hmperm := hperm.map Prod.snd
      split
      · next hd =>
        refine ⟨?_, ?_, ?_, ?_, ?_, ?_⟩
        · have := hmperm.nodup_iff.2 hb.nodup
          simp only [List.map_cons, List.nodup_cons] at this ⊢
          refine ⟨?_, this.2⟩
          intro hm
          obtain ⟨e, he, h⟩ := List.mem_map.1 hm
          exact hnew e (hrest e he) h
        · intro e he
          rcases List.mem_cons.1 he with rfl | he
          · rfl
          · exact hb.val e (hrest e he)
        · intro e he
          rcases List.mem_cons.1 he with rfl | he
          · exact Or.inr rfl
          · exact Or.inl (hb.mem e (hrest e he))
        · have := hb.len; simp; omega
        · intro h; simp at h; omega
        · rintro j (hj | rfl) hn e he
          · have hjr : top.1 ≤ distanceSquared q (pts j) := by
              by_cases hjb : j ∈ b.map Prod.snd
              · have : j ∈ (top :: rest).map Prod.snd := hmperm.mem_iff.2 hjb
                simp only [List.map_cons, List.mem_cons] at this hn
                rcases this with h | h
                · rw [h]; exact (hb.val top htop).le
                · exact absurd (Or.inr h) hn
              · exact hb.out j hj hjb top htop
            rcases List.mem_cons.1 he with rfl | he
            · exact hd.le.trans hjr
            · exact (hmax e (hrest e he)).trans hjr
          · simp at hn
      · next hd =>
        refine hb.skip hlt ?_
        rintro j rfl e he
        exact (hmax e he).trans (not_lt.1 hd)
    · next hp =>
      rw [popMin_none] at hp
      subst hp
      simp at hlt; omega

theorem GoodHeap.fold (pts : Fin n → Fin d → ℝ) (q : Fin d → ℝ) {k : ℕ} (hk : 0 < k) (l : List (Fin n))
    (hl : l.Nodup) {S : Fin n → Prop} {b : List (ℝ × Fin n)} (hS : ∀ i ∈ l, ¬ S i)
    (hb : GoodHeap (fun i => distanceSquared q (pts i)) k S b) :
    GoodHeap (fun i => distanceSquared q (pts i)) k (fun j => S j ∨ j ∈ l) (l.foldl (kNearestLeaf pts q k) b) := by
  induction l generalizing S b with
  | nil => exact hb.congr (by simp)
  | cons x xs ih =>
    have hx := List.nodup_cons.1 hl
    refine (ih hx.2 ?_ (hb.step pts q hk (hS x (by simp)))).congr (fun j => by simp [or_assoc])
    rintro i hi (h | rfl)
    · exact hS i (List.mem_cons_of_mem _ hi) h
    · exact hx.1 hi

theorem kNearestGo_false {k : ℕ} {heap : List (ℝ × Fin n)} {x : ℝ} (h : kNearestGo k heap x = false) :
    ¬ heap.length < k ∧ ∀ e ∈ heap, e.1 ≤ x := by
  simp only [kNearestGo, Bool.or_eq_false_iff, decide_eq_false_iff_not] at h
  refine ⟨h.1, ?_⟩
  have h2 := h.2
  split at h2
  · next top rest hp =>
    simp only [decide_eq_false_iff_not, not_lt] at h2
    intro e he
    exact ((pop_max hp).2 e he).trans h2
  · cases h2

theorem kNearestRec_good (pts : Fin n → Fin d → ℝ) (q : Fin d → ℝ) {k : ℕ} (hk : 0 < k) (t : Tree n d)
    (ho : t.Ordered pts) (hnd : t.points.Nodup) {S : Fin n → Prop} {b : List (ℝ × Fin n)}
    (hS : ∀ i ∈ t.points, ¬ S i) (hb : GoodHeap (fun i => distanceSquared q (pts i)) k S b) :
    GoodHeap (fun i => distanceSquared q (pts i)) k (fun j => S j ∨ j ∈ t.points) (kNearestRec pts q k t b) := by
  induction t generalizing S b with
  | nil => exact hb.congr (by simp [Tree.points])
  | leaf l => exact hb.fold pts q hk l hnd hS
  | split axis v l r ihl ihr =>
    obtain ⟨h1, h2, hol, hor⟩ := ho
    simp only [Tree.points, List.nodup_append, List.mem_append] at hnd hS
    obtain ⟨hndl, hndr, hdis⟩ := hnd
    simp only [kNearestRec]
    split
    · next hd =>
      have hl := ihl hol hndl (fun i hi => hS i (Or.inl hi)) hb
      split
      · refine (ihr hor hndr ?_ hl).congr (fun j => by simp [Tree.points, or_assoc])
        rintro i hi (h | h)
        · exact hS i (Or.inr hi) h
        · exact hdis i h i hi rfl
      · next hs =>
        simp only [Bool.not_eq_true] at hs
        obtain ⟨hf, hx⟩ := kNearestGo_false hs
        exact (hl.skip (T := fun j => j ∈ r.points) hf
          (fun j hj e he => (hx e he).trans (prune_right q _ axis v hd (h2 j hj)))).congr
          (fun j => by simp [Tree.points, or_assoc])
    · next hd =>
      have hr := ihr hor hndr (fun i hi => hS i (Or.inr hi)) hb
      split
      · refine (ihl hol hndl ?_ hr).congr (fun j => by simp only [Tree.points, List.mem_append]; tauto)
        rintro i hi (h | h)
        · exact hS i (Or.inl hi) h
        · exact hdis i hi i h rfl
      · next hs =>
        simp only [Bool.not_eq_true] at hs
        obtain ⟨hf, hx⟩ := kNearestGo_false hs
        exact (hr.skip (T := fun j => j ∈ l.points) hf
          (fun j hj e he => (hx e he).trans (prune_left q _ axis v hd (h1 j hj)))).congr
          (fun j => by simp only [Tree.points, List.mem_append]; tauto)

theorem extract_spec (m : ℕ) (heap acc : List (ℝ × Fin n)) (hm : heap.length = m)
    (hs : acc.Pairwise (fun a b => a.1 ≤ b.1)) (hle : ∀ e ∈ heap, ∀ a ∈ acc, e.1 ≤ a.1) :
    (extract m heap acc).Perm (heap ++ acc) ∧ (extract m heap acc).Pairwise (fun a b => a.1 ≤ b.1) := by
  induction m generalizing heap acc with
  | zero =>
    rw [List.length_eq_zero_iff] at hm
    subst hm
    exact ⟨List.Perm.refl _, hs⟩
  | succ m ih =>
    simp only [extract]
    split
    · next top rest hp =>
      obtain ⟨hperm, hmax⟩ := pop_max hp
      have hlen : rest.length = m := by have := hperm.length_eq; simp at this; omega
      have hmem : ∀ e ∈ rest, e ∈ heap := fun e he => hperm.mem_iff.1 (List.mem_cons_of_mem _ he)
      have htop : top ∈ heap := hperm.mem_iff.1 (List.mem_cons_self ..)
      obtain ⟨h1, h2⟩ := ih rest (top :: acc) hlen (List.pairwise_cons.2 ⟨fun a ha => hle top htop a ha, hs⟩) (by
        intro e he a ha
        rcases List.mem_cons.1 ha with rfl | ha
        · exact hmax e (hmem e he)
        · exact hle e (hmem e he) a ha)
      refine ⟨h1.trans ?_, h2⟩
      exact List.perm_middle.trans (hperm.append_right acc)
    · next hp =>
      rw [popMin_none] at hp
      subst hp; simp at hm

/-! ## Range queries -/

theorem radius_fold (pts : Fin n → Fin d → ℝ) (q : Fin d → ℝ) (rsq : ℝ) (l : List (Fin n)) (out : List (Fin n × ℝ)) :
    l.foldl (radiusLeaf pts q rsq) out =
      out ++ (l.filter (fun i => decide (distanceSquared q (pts i) ≤ rsq))).map
        (fun i => (i, distanceSquared q (pts i))) := by
  induction l generalizing out with
  | nil => simp
  | cons x xs ih =>
    rw [List.foldl_cons, ih]
    by_cases h : distanceSquared q (pts x) ≤ rsq
    · simp [radiusLeaf, h]
    · simp [radiusLeaf, h]

theorem filter_nil_of {α : Type} (p : α → Bool) (l : List α) (h : ∀ a ∈ l, p a = false) : l.filter p = [] := by
  rw [List.filter_eq_nil_iff]
  intro a ha; simp [h a ha]

theorem radiusRec_spec (pts : Fin n → Fin d → ℝ) (q : Fin d → ℝ) (rsq : ℝ) (t : Tree n d) (ho : t.Ordered pts)
    (out : List (Fin n × ℝ)) : (radiusRec pts q rsq t out).Perm
      (out ++ (t.points.filter (fun i => decide (distanceSquared q (pts i) ≤ rsq))).map
        (fun i => (i, distanceSquared q (pts i)))) := by
  induction t generalizing out with
  | nil => simp [radiusRec, Tree.points]
  | leaf l => rw [radiusRec, radius_fold]; exact List.Perm.refl _
  | split axis v l r ihl ihr =>
    obtain ⟨h1, h2, hol, hor⟩ := ho
    simp only [radiusRec, Tree.points, List.filter_append, List.map_append]
    split
    · next hd =>
      split
      · refine (ihr hor _).trans ?_
        rw [← List.append_assoc]
        exact (ihl hol _).append_right _
      · next hs =>
        have : r.points.filter (fun i => decide (distanceSquared q (pts i) ≤ rsq)) = [] :=
          filter_nil_of _ _ (fun i hi => by
            have := prune_right q _ axis v hd (h2 i hi)
            simp; linarith)
        rw [this]; simpa using ihl hol out
    · next hd =>
      split
      · refine (ihl hol _).trans ?_
        refine ((ihr hor _).append_right _).trans ?_
        rw [List.append_assoc]
        exact List.perm_append_comm.append_left _
      · next hs =>
        have : l.points.filter (fun i => decide (distanceSquared q (pts i) ≤ rsq)) = [] :=
          filter_nil_of _ _ (fun i hi => by
            have := prune_left q _ axis v hd (h1 i hi)
            simp; linarith)
        rw [this]; simpa using ihr hor out

theorem boxTest_iff (p lo hi : Fin d → ℝ) :
    (List.finRange d).all (fun i => !(decide (p i < lo i) || decide (p i > hi i))) = true ↔
      ∀ i, lo i ≤ p i ∧ p i ≤ hi i := by
  simp [List.all_eq_true]

theorem box_fold (pts : Fin n → Fin d → ℝ) (lo hi : Fin d → ℝ) (l out : List (Fin n)) :
    l.foldl (boxLeaf pts lo hi) out = out ++ l.filter (fun i =>
      (List.finRange d).all (fun x => !(decide (pts i x < lo x) || decide (pts i x > hi x)))) := by
  induction l generalizing out with
  | nil => simp
  | cons x xs ih =>
    rw [List.foldl_cons, ih, List.filter_cons]
    unfold boxLeaf
    split <;> simp

theorem boxRec_spec (pts : Fin n → Fin d → ℝ) (lo hi : Fin d → ℝ) (t : Tree n d) (ho : t.Ordered pts)
    (out : List (Fin n)) : boxRec pts lo hi t out = out ++ t.points.filter (fun i =>
      (List.finRange d).all (fun x => !(decide (pts i x < lo x) || decide (pts i x > hi x)))) := by
  induction t generalizing out with
  | nil => simp [boxRec, Tree.points]
  | leaf l => rw [boxRec, box_fold]; rfl
  | split axis v l r ihl ihr =>
    obtain ⟨h1, h2, hol, hor⟩ := ho
    have hL : ¬ lo axis ≤ v → l.points.filter (fun i =>
      (List.finRange d).all (fun x => !(decide (pts i x < lo x) || decide (pts i x > hi x)))) = [] := by
      intro h
      refine filter_nil_of _ _ (fun i hi' => Bool.eq_false_iff.2 (fun hb => h ?_))
      exact ((boxTest_iff _ _ _).1 hb axis).1.trans (h1 i hi')
    have hR : ¬ hi axis ≥ v → r.points.filter (fun i =>
      (List.finRange d).all (fun x => !(decide (pts i x < lo x) || decide (pts i x > hi x)))) = [] := by
      intro h
      refine filter_nil_of _ _ (fun i hi' => Bool.eq_false_iff.2 (fun hb => h ?_))
      exact (h2 i hi').trans ((boxTest_iff _ _ _).1 hb axis).2
    simp only [boxRec, Tree.points, List.filter_append]
    by_cases ha : lo axis ≤ v <;> by_cases hb : hi axis ≥ v
    · rw [if_pos ha, if_pos hb, ihr hor, ihl hol, List.append_assoc]
    · rw [if_pos ha, if_neg hb, ihl hol, hR hb, List.append_nil]
    · rw [if_neg ha, if_pos hb, ihr hor, hL ha, List.nil_append]
    · rw [if_neg ha, if_neg hb, hL ha, hR hb]; simp

/-! ## Construction -/

/-- Some rearrangement meets the postcondition of `nth_element`. -/
theorem nthElement_exists (pts : Fin n → Fin d → ℝ) (axis : Fin d) (l : List (Fin n)) (mid : ℕ) (h : mid < l.length) :
    ∃ r m, NthElement pts axis mid l r m := by
  let s := l.insertionSort (fun a b => pts a axis ≤ pts b axis)
  have hp : s.Perm l := List.perm_insertionSort _ _
  have hlen : mid < s.length := by rw [hp.length_eq]; exact h
  have hsort : s.Pairwise (fun a b => pts a axis ≤ pts b axis) := by
    haveI : Std.Total (fun a b : Fin n => pts a axis ≤ pts b axis) := ⟨fun a b => le_total _ _⟩
    haveI : IsTrans (Fin n) (fun a b => pts a axis ≤ pts b axis) := ⟨fun a b c h1 h2 => le_trans h1 h2⟩
    exact List.pairwise_insertionSort _ l
  have hsplit : s.take mid ++ s[mid] :: s.drop (mid + 1) = s := by
    rw [← List.drop_eq_getElem_cons hlen, List.take_append_drop]
  refine ⟨s, s[mid], hp, List.getElem?_eq_getElem hlen, ?_, ?_⟩
  · intro a ha
    have := List.pairwise_append.1 (hsplit ▸ hsort)
    exact not_lt.2 (this.2.2 a ha _ (List.mem_cons_self ..))
  · intro b hb
    have := (List.pairwise_append.1 (hsplit ▸ hsort)).2.1
    rw [List.drop_eq_getElem_cons hlen] at hb
    rcases List.mem_cons.1 hb with rfl | hb
    · exact lt_irrefl _
    · exact not_lt.2 ((List.pairwise_cons.1 this).1 b hb)

theorem built_exists [NeZero d] (pts : Fin n → Fin d → ℝ) (maxLeaf : ℤ) (hm : 1 ≤ maxLeaf) (len : ℕ) :
    ∀ (l : List (Fin n)) (depth : ℕ), l.length = len → ∃ t, Built pts maxLeaf depth l t := by
  induction len using Nat.strongRecOn with
  | ind len ih =>
    intro l depth hlen
    by_cases hl : l = []
    · subst hl; exact ⟨_, .nil depth⟩
    by_cases hle : (l.length : ℤ) ≤ maxLeaf
    · exact ⟨_, .leaf depth l hl hle⟩
    have h2 : 2 ≤ l.length := by omega
    obtain ⟨r, m, hn⟩ := nthElement_exists pts (axisAt depth) l (l.length / 2) (by omega)
    have hr := hn.1.length_eq
    obtain ⟨t1, ht1⟩ := ih (r.take (l.length / 2)).length (by rw [List.length_take]; omega) _ (depth + 1) rfl
    obtain ⟨t2, ht2⟩ := ih (r.drop (l.length / 2)).length (by rw [List.length_drop]; omega) _ (depth + 1) rfl
    exact ⟨_, .split depth l r m t1 t2 hl hle hn ht1 ht2⟩

theorem not_built [NeZero d] (pts : Fin n → Fin d → ℝ) (maxLeaf : ℤ) (hm : maxLeaf ≤ 0) {l : List (Fin n)} {depth : ℕ}
    {t : Tree n d} (h : Built pts maxLeaf depth l t) : l = [] := by
  induction h with
  | nil depth => rfl
  | leaf depth l hl h => exact List.length_eq_zero_iff.1 (by omega)
  | split depth l r m left right hl h hn h1 h2 ih1 ih2 =>
    have := congrArg List.length ih2
    rw [List.length_drop, hn.1.length_eq] at this
    have hpos := List.length_pos_iff.2 hl
    simp at this; omega

end Verif.KD
