import Verif.Intervals.Model
import Mathlib.Order.Interval.Set.Basic
import Mathlib.Tactic.Linarith
import Mathlib.Tactic.NormNum
import Mathlib.Tactic.Positivity
import Mathlib.Tactic.FieldSimp
import Mathlib.Tactic.Push

/-!
# Properties of intervals (C23, C24, C53-C56)

`BI.toSet` is the specification: the set of real numbers each class stands for.
-/

set_option autoImplicit false

namespace Verif.Intervals

/-- The set an interval object denotes (specification).  A point is in a hole when it is within the code's
tolerance of one. -/
def BI.toSet : BI → Set ℝ
  | .completeR => Set.univ
  | .completeRHoles h d => {x | ¬ BI.nearHole h d x}
  | .open_ l u => Set.Ioo l u
  | .openClosed l u => Set.Ioc l u
  | .closed l u => Set.Icc l u
  | .closedHoles l u h d => {x | x ∈ Set.Icc l u ∧ ¬ BI.nearHole h d x}
  | .closedOpen l u => Set.Ico l u
  | .negInfToOpen u => Set.Iio u
  | .negInfToClosed u => Set.Iic u
  | .openToInf l => Set.Ioi l
  | .closedToInf l => Set.Ici l

/-- Not one of the two classes with point holes. -/
def BI.Simple : BI → Prop
  | .completeRHoles _ _ => False
  | .closedHoles _ _ _ _ => False
  | _ => True

/-- No infinite end. -/
def BI.Finite : BI → Prop
  | .open_ _ _ => True
  | .openClosed _ _ => True
  | .closed _ _ => True
  | .closedOpen _ _ => True
  | _ => False

/-- Bounds are finite `double`s and in order. -/
def BI.Ok (a : BI) : Prop := a.lower ≤ a.upper ∧ -dblMax ≤ a.lower ∧ a.upper ≤ dblMax

theorem contains_iff_mem (a : BI) (x : ℝ) : a.contains x ↔ x ∈ a.toSet := by
  cases a <;> simp [BI.contains, BI.toSet, not_or]

/-! ## Helpers -/

/-- Meaning of a lower end. -/
def lowOK (t : EndpointType) (l x : ℝ) : Prop :=
  match t with
  | .CLOSED => l ≤ x
  | .OPEN => l < x
  | _ => True

/-- Meaning of an upper end. -/
def upOK (t : EndpointType) (u x : ℝ) : Prop :=
  match t with
  | .CLOSED => x ≤ u
  | .OPEN => x < u
  | _ => True

theorem dblMax_pos : 0 < dblMax := by unfold dblMax; norm_num

theorem mem_iff {a : BI} (h : a.Simple) (x : ℝ) :
    x ∈ a.toSet ↔ lowOK a.lowerType a.lower x ∧ upOK a.upperType a.upper x := by
  cases a <;> simp_all [BI.toSet, lowOK, upOK, BI.lowerType, BI.upperType, BI.lower, BI.upper, BI.Simple]

theorem lowerType_cases {a : BI} : a.lowerType = .OPEN ∨ a.lowerType = .CLOSED ∨
    (a.lowerType = .NEG_INF ∧ a.lower = -dblMax) := by
  cases a <;> simp [BI.lowerType, BI.lower]

theorem upperType_cases {a : BI} : a.upperType = .OPEN ∨ a.upperType = .CLOSED ∨
    (a.upperType = .POS_INF ∧ a.upper = dblMax) := by
  cases a <;> simp [BI.upperType, BI.upper]

theorem finite_types {a : BI} (h : a.Finite) : (a.lowerType = .OPEN ∨ a.lowerType = .CLOSED) ∧
    (a.upperType = .OPEN ∨ a.upperType = .CLOSED) ∧ a.Simple := by
  cases a <;> simp_all [BI.lowerType, BI.upperType, BI.Finite, BI.Simple]

theorem mk_contains (lt ut : EndpointType) (l u x : ℝ) : (mkInterval lt ut l u).contains x ↔
    (if (lt = .CLOSED ∧ ut = .CLOSED) ∨ (lt = .CLOSED ∧ ut = .OPEN) then l ≤ x else l < x) ∧
    (if (lt = .CLOSED ∧ ut = .CLOSED) ∨ (lt = .OPEN ∧ ut = .CLOSED) then x ≤ u else x < u) := by
  cases lt <;> cases ut <;> simp [mkInterval, BI.contains]

/-- An endpoint type of a bounded interval. -/
def Fin' (t : EndpointType) : Prop := t = .OPEN ∨ t = .CLOSED

theorem mk_contains_fin {lt ut : EndpointType} (hl : Fin' lt) (hu : Fin' ut) (l u x : ℝ) :
    (mkInterval lt ut l u).contains x ↔ lowOK lt l x ∧ upOK ut u x := by
  rcases hl with rfl | rfl <;> rcases hu with rfl | rfl <;> simp [mkInterval, BI.contains, lowOK, upOK]

/-- When one end is infinite the made interval is open, so only its ends can be missing. -/
theorem mk_contains_sub (lt ut : EndpointType) (l u x : ℝ) (h : (mkInterval lt ut l u).contains x) :
    lowOK lt l x ∧ upOK ut u x := by
  rw [mk_contains] at h
  cases lt <;> cases ut <;> simp_all [lowOK, upOK] <;> first | exact h.1.le | exact h.2.le | exact ⟨h.1.le, h.2.le⟩

theorem mk_contains_sup (lt ut : EndpointType) (l u x : ℝ) (hlt : lt ≠ .POS_INF) (hut : ut ≠ .NEG_INF)
    (hl : l < x) (hu : x < u) : (mkInterval lt ut l u).contains x := by
  rw [mk_contains]
  constructor
  · split
    · exact hl.le
    · exact hl
  · split
    · exact hu.le
    · exact hu

/-- The lower end type computed by `Intersection`. -/
theorem inter_low {al bl M x : ℝ} {alt blt : EndpointType}
    (h1 : alt = .OPEN ∨ alt = .CLOSED ∨ (alt = .NEG_INF ∧ al = -M))
    (h3 : blt = .OPEN ∨ blt = .CLOSED ∨ (blt = .NEG_INF ∧ bl = -M))
    (hla : -M ≤ al) (hlb : -M ≤ bl) (hx : -M < x) (t : EndpointType)
    (ht : t = if max al bl = al ∧ max al bl = bl then
        if alt = .CLOSED ∧ blt = .CLOSED then EndpointType.CLOSED else .OPEN
      else if max al bl = al then alt else blt) :
    Fin' t ∧ (lowOK t (max al bl) x ↔ lowOK alt al x ∧ lowOK blt bl x) := by
  rcases lt_trichotomy al bl with h | h | h
  · have e : max al bl = bl := max_eq_right h.le
    rw [e, if_neg (fun hh => h.ne' hh.1), if_neg h.ne'] at ht
    subst ht
    rw [e]
    rcases h1 with rfl | rfl | ⟨rfl, rfl⟩ <;> rcases h3 with rfl | rfl | ⟨rfl, rfl⟩ <;>
      simp only [lowOK, Fin'] <;> grind
  · subst h
    rw [max_self, if_pos ⟨rfl, rfl⟩] at ht
    rw [max_self]
    subst ht
    rcases h1 with rfl | rfl | ⟨rfl, rfl⟩ <;> rcases h3 with rfl | rfl | ⟨rfl, h3⟩ <;>
      simp [lowOK, Fin'] <;> grind
  · have e : max al bl = al := max_eq_left h.le
    rw [e, if_neg (fun hh => h.ne' hh.2), if_pos rfl] at ht
    subst ht
    rw [e]
    rcases h1 with rfl | rfl | ⟨rfl, rfl⟩ <;> rcases h3 with rfl | rfl | ⟨rfl, rfl⟩ <;>
      simp only [lowOK, Fin'] <;> grind

/-- The upper end type computed by `Intersection`. -/
theorem inter_up {al bl M x : ℝ} {alt blt : EndpointType}
    (h1 : alt = .OPEN ∨ alt = .CLOSED ∨ (alt = .POS_INF ∧ al = M))
    (h3 : blt = .OPEN ∨ blt = .CLOSED ∨ (blt = .POS_INF ∧ bl = M))
    (hla : al ≤ M) (hlb : bl ≤ M) (hx : x < M) (t : EndpointType)
    (ht : t = if min al bl = al ∧ min al bl = bl then
        if alt = .CLOSED ∧ blt = .CLOSED then EndpointType.CLOSED else .OPEN
      else if min al bl = al then alt else blt) :
    Fin' t ∧ (upOK t (min al bl) x ↔ upOK alt al x ∧ upOK blt bl x) := by
  rcases lt_trichotomy al bl with h | h | h
  · have e : min al bl = al := min_eq_left h.le
    rw [e, if_neg (fun hh => h.ne hh.2), if_pos rfl] at ht
    subst ht
    rw [e]
    rcases h1 with rfl | rfl | ⟨rfl, rfl⟩ <;> rcases h3 with rfl | rfl | ⟨rfl, rfl⟩ <;>
      simp only [upOK, Fin'] <;> grind
  · subst h
    rw [min_self, if_pos ⟨rfl, rfl⟩] at ht
    rw [min_self]
    subst ht
    rcases h1 with rfl | rfl | ⟨rfl, rfl⟩ <;> rcases h3 with rfl | rfl | ⟨rfl, h3⟩ <;>
      simp [upOK, Fin'] <;> grind
  · have e : min al bl = bl := min_eq_right h.le
    rw [e, if_neg (fun hh => h.ne hh.1), if_neg h.ne] at ht
    subst ht
    rw [e]
    rcases h1 with rfl | rfl | ⟨rfl, rfl⟩ <;> rcases h3 with rfl | rfl | ⟨rfl, rfl⟩ <;>
      simp only [upOK, Fin'] <;> grind

/-! ## C23: set operations -/

/-- C23, intersection: for all kinds of intervals without holes, a point (other than ±DBL_MAX, where the code
stores infinite ends) belongs to the result exactly when it belongs to both. -/
theorem intersection_mem (a b : BI) (ha : a.Simple) (hb : b.Simple) (hla : -dblMax ≤ a.lower) (hua : a.upper ≤ dblMax)
    (hlb : -dblMax ≤ b.lower) (hub : b.upper ≤ dblMax) (x : ℝ) (hx : -dblMax < x) (hx' : x < dblMax) :
    Interval.contains (intersection a b) x ↔ x ∈ a.toSet ∩ b.toSet := by
  rw [Set.mem_inter_iff, mem_iff ha, mem_iff hb]
  obtain ⟨hf1, hl⟩ := inter_low (@lowerType_cases a) (@lowerType_cases b) hla hlb hx _ rfl
  obtain ⟨hf2, hu⟩ := inter_up (@upperType_cases a) (@upperType_cases b) hua hub hx' _ rfl
  unfold intersection Interval.contains
  dsimp only
  split
  · next h =>
    simp only [List.not_mem_nil, false_and, exists_false, false_iff]
    rintro ⟨⟨h1, h2⟩, h3, h4⟩
    have := hl.2 ⟨h1, h3⟩
    have := hu.2 ⟨h2, h4⟩
    rcases hf1 with e1 | e1 <;> rcases hf2 with e2 | e2 <;> simp only [e1, e2, lowOK, upOK] at * <;> linarith
  · simp only [List.mem_singleton, exists_eq_left]
    rw [mk_contains_fin hf1 hf2, hl, hu]
    tauto

theorem not_upOK {t : EndpointType} {u x : ℝ} (h : ¬ upOK t u x) : u ≤ x ∧ (t = .CLOSED → u < x) := by
  cases t <;> simp_all [upOK] <;> exact h.le

theorem not_lowOK {t : EndpointType} {l x : ℝ} (h : ¬ lowOK t l x) : x ≤ l ∧ (t = .CLOSED → x < l) := by
  cases t <;> simp_all [lowOK] <;> exact h.le

theorem merge_cover {a b : BI} (hab : overlapsOrAdjacent a b) (ha : a.lower ≤ a.upper) (hb : b.lower ≤ b.upper) {x : ℝ}
    (hu : ¬ upOK a.upperType a.upper x) (hl : ¬ lowOK b.lowerType b.lower x) : False := by
  obtain ⟨h1, h2⟩ := not_upOK hu
  obtain ⟨h3, h4⟩ := not_lowOK hl
  unfold overlapsOrAdjacent at hab
  split at hab
  · next h => linarith [h.1]
  · split at hab
    · next h =>
      rcases hab with h5 | h5
      · linarith [h2 h5]
      · linarith [h4 h5]
    · next h =>
      split at hab
      · next h' => exact h (by linarith)
      · exact hab

theorem merge_cover' {a b : BI} (hab : overlapsOrAdjacent a b) (ha : a.lower ≤ a.upper) (hb : b.lower ≤ b.upper)
    (sa : a.Simple) (sb : b.Simple) (hne : a.toSet.Nonempty ∨ b.toSet.Nonempty) {x : ℝ}
    (hx : -dblMax < x) (hx' : x < dblMax) (hu : ¬ upOK b.upperType b.upper x) (hl : ¬ lowOK a.lowerType a.lower x) : False := by
  obtain ⟨h1, h2⟩ := not_upOK hu
  obtain ⟨h3, h4⟩ := not_lowOK hl
  by_cases hs : a.upper > b.lower ∧ b.upper > a.lower
  · linarith [hs.2]
  by_cases h : b.upper = a.lower
  · by_cases h' : a.upper = b.lower
    · have e1 : a.upper = a.lower := by linarith
      have e2 : b.upper = b.lower := by linarith
      have hxe : x = a.lower := by linarith
      rcases hne with ⟨y, hy⟩ | ⟨y, hy⟩
      · rw [mem_iff sa] at hy
        rcases @lowerType_cases a with e | e | ⟨e, e'⟩
        · rcases @upperType_cases a with f | f | ⟨f, f'⟩
          · simp only [e, f, lowOK, upOK] at hy; linarith
          · simp only [e, f, lowOK, upOK] at hy; linarith
          · linarith
        · linarith [h4 e]
        · exact hl (by rw [e]; trivial)
      · rw [mem_iff sb] at hy
        rcases @upperType_cases b with e | e | ⟨e, e'⟩
        · rcases @lowerType_cases b with f | f | ⟨f, f'⟩
          · simp only [e, f, lowOK, upOK] at hy; linarith
          · simp only [e, f, lowOK, upOK] at hy; linarith
          · linarith
        · linarith [h2 e]
        · exact hu (by rw [e]; trivial)
    · unfold overlapsOrAdjacent at hab
      rw [if_neg hs, if_neg h', if_pos h] at hab
      rcases hab with h5 | h5
      · linarith [h2 h5]
      · linarith [h4 h5]
  · unfold overlapsOrAdjacent at hab
    rw [if_neg hs] at hab
    by_cases h' : a.upper = b.lower
    · exact h (by linarith)
    · rw [if_neg h', if_neg h] at hab; exact hab

/-- The lower end type computed by `Union`. -/
theorem union_low {al bl M x : ℝ} {alt blt : EndpointType}
    (h1 : alt = .OPEN ∨ alt = .CLOSED ∨ (alt = .NEG_INF ∧ al = -M))
    (h3 : blt = .OPEN ∨ blt = .CLOSED ∨ (blt = .NEG_INF ∧ bl = -M))
    (hla : -M ≤ al) (hlb : -M ≤ bl) (hx : -M < x) (t : EndpointType)
    (ht : t = if min al bl = al ∧ min al bl = bl then
        if alt = .CLOSED ∨ blt = .CLOSED then EndpointType.CLOSED else .OPEN
      else if min al bl = al then alt else blt) :
    (Fin' alt → Fin' blt → Fin' t) ∧ (lowOK t (min al bl) x ↔ lowOK alt al x ∨ lowOK blt bl x) := by
  rcases lt_trichotomy al bl with h | h | h
  · have e : min al bl = al := min_eq_left h.le
    rw [e, if_neg (fun hh => h.ne hh.2), if_pos rfl] at ht
    subst ht
    rw [e]
    rcases h1 with rfl | rfl | ⟨rfl, rfl⟩ <;> rcases h3 with rfl | rfl | ⟨rfl, rfl⟩ <;>
      simp only [lowOK, Fin'] <;> grind
  · subst h
    rw [min_self, if_pos ⟨rfl, rfl⟩] at ht
    rw [min_self]
    subst ht
    rcases h1 with rfl | rfl | ⟨rfl, rfl⟩ <;> rcases h3 with rfl | rfl | ⟨rfl, h3⟩ <;>
      simp [lowOK, Fin'] <;> grind
  · have e : min al bl = bl := min_eq_right h.le
    rw [e, if_neg (fun hh => h.ne hh.1), if_neg h.ne] at ht
    subst ht
    rw [e]
    rcases h1 with rfl | rfl | ⟨rfl, rfl⟩ <;> rcases h3 with rfl | rfl | ⟨rfl, rfl⟩ <;>
      simp only [lowOK, Fin'] <;> grind

/-- The upper end type computed by `Union`. -/
theorem union_up {al bl M x : ℝ} {alt blt : EndpointType}
    (h1 : alt = .OPEN ∨ alt = .CLOSED ∨ (alt = .POS_INF ∧ al = M))
    (h3 : blt = .OPEN ∨ blt = .CLOSED ∨ (blt = .POS_INF ∧ bl = M))
    (hla : al ≤ M) (hlb : bl ≤ M) (hx : x < M) (t : EndpointType)
    (ht : t = if max al bl = al ∧ max al bl = bl then
        if alt = .CLOSED ∨ blt = .CLOSED then EndpointType.CLOSED else .OPEN
      else if max al bl = al then alt else blt) :
    (Fin' alt → Fin' blt → Fin' t) ∧ (upOK t (max al bl) x ↔ upOK alt al x ∨ upOK blt bl x) := by
  rcases lt_trichotomy al bl with h | h | h
  · have e : max al bl = bl := max_eq_right h.le
    rw [e, if_neg (fun hh => h.ne' hh.1), if_neg h.ne'] at ht
    subst ht
    rw [e]
    rcases h1 with rfl | rfl | ⟨rfl, rfl⟩ <;> rcases h3 with rfl | rfl | ⟨rfl, rfl⟩ <;>
      simp only [upOK, Fin'] <;> grind
  · subst h
    rw [max_self, if_pos ⟨rfl, rfl⟩] at ht
    rw [max_self]
    subst ht
    rcases h1 with rfl | rfl | ⟨rfl, rfl⟩ <;> rcases h3 with rfl | rfl | ⟨rfl, h3⟩ <;>
      simp [upOK, Fin'] <;> grind
  · have e : max al bl = al := max_eq_left h.le
    rw [e, if_neg (fun hh => h.ne' hh.2), if_pos rfl] at ht
    subst ht
    rw [e]
    rcases h1 with rfl | rfl | ⟨rfl, rfl⟩ <;> rcases h3 with rfl | rfl | ⟨rfl, rfl⟩ <;>
      simp only [upOK, Fin'] <;> grind

theorem lowOK_of_lt {t : EndpointType} {l x : ℝ} (h : l < x) : lowOK t l x := by
  cases t <;> simp [lowOK, h, h.le]

theorem upOK_of_lt {t : EndpointType} {u x : ℝ} (h : x < u) : upOK t u x := by
  cases t <;> simp [upOK, h, h.le]

theorem le_of_lowOK {t : EndpointType} {l x : ℝ} (ht : Fin' t) (h : lowOK t l x) : l ≤ x := by
  rcases ht with rfl | rfl <;> simp only [lowOK] at h <;> linarith

theorem le_of_upOK {t : EndpointType} {u x : ℝ} (ht : Fin' t) (h : upOK t u x) : x ≤ u := by
  rcases ht with rfl | rfl <;> simp only [upOK] at h <;> linarith

theorem lower_lt {a : BI} {x : ℝ} (hx : -dblMax < x) (h : lowOK a.lowerType a.lower x) (hne : x ≠ a.lower) :
    a.lower < x := by
  rcases @lowerType_cases a with e | e | ⟨-, e⟩
  · rw [e] at h; exact h
  · rw [e] at h; exact lt_of_le_of_ne h hne.symm
  · rw [e]; exact hx

theorem lt_upper {a : BI} {x : ℝ} (hx : x < dblMax) (h : upOK a.upperType a.upper x) (hne : x ≠ a.upper) :
    x < a.upper := by
  rcases @upperType_cases a with e | e | ⟨-, e⟩
  · rw [e] at h; exact h
  · rw [e] at h; exact lt_of_le_of_ne h hne
  · rw [e]; exact hx

/-- Away from its ends an interval is the open one. -/
theorem mem_inner {a : BI} (sa : a.Simple) {x : ℝ} (hx : -dblMax < x) (hx' : x < dblMax) (hl : x ≠ a.lower)
    (hu : x ≠ a.upper) : x ∈ a.toSet ↔ a.lower < x ∧ x < a.upper := by
  rw [mem_iff sa]
  exact ⟨fun h => ⟨lower_lt hx h.1 hl, lt_upper hx' h.2 hu⟩, fun h => ⟨lowOK_of_lt h.1, upOK_of_lt h.2⟩⟩

theorem mk_inner {lt ut : EndpointType} {l u x : ℝ} (hl : x ≠ l) (hu : x ≠ u) :
    (mkInterval lt ut l u).contains x ↔ l < x ∧ x < u := by
  rw [mk_contains]
  refine and_congr ?_ ?_
  · split
    · exact ⟨fun h => lt_of_le_of_ne h hl.symm, le_of_lt⟩
    · exact Iff.rfl
  · split
    · exact ⟨fun h => lt_of_le_of_ne h hu, le_of_lt⟩
    · exact Iff.rfl

/-- C23, union, soundness for every kind without holes: nothing but points of the two intervals is reported.
(One of the two must be nonempty, see `union_of_empty_intervals`.) -/
theorem union_sound (a b : BI) (sa : a.Simple) (sb : b.Simple) (ha : a.Ok) (hb : b.Ok)
    (hne : a.toSet.Nonempty ∨ b.toSet.Nonempty) (x : ℝ) (hx : -dblMax < x) (hx' : x < dblMax)
    (h : Interval.contains (union a b) x) : x ∈ a.toSet ∪ b.toSet := by
  rw [Set.mem_union, mem_iff sa, mem_iff sb]
  unfold union Interval.contains at h
  split at h
  · next hab =>
    dsimp only at h
    simp only [List.mem_singleton, exists_eq_left] at h
    obtain ⟨h1, h2⟩ := mk_contains_sub _ _ _ _ _ h
    rw [(union_low (@lowerType_cases a) (@lowerType_cases b) ha.2.1 hb.2.1 hx _ rfl).2] at h1
    rw [(union_up (@upperType_cases a) (@upperType_cases b) ha.2.2 hb.2.2 hx' _ rfl).2] at h2
    by_cases c1 : lowOK a.lowerType a.lower x <;> by_cases c2 : upOK a.upperType a.upper x
    · exact Or.inl ⟨c1, c2⟩
    · by_cases c3 : lowOK b.lowerType b.lower x
      · exact Or.inr ⟨c3, h2.resolve_left c2⟩
      · exact (merge_cover hab ha.1 hb.1 c2 c3).elim
    · by_cases c3 : upOK b.upperType b.upper x
      · exact Or.inr ⟨h1.resolve_left c1, c3⟩
      · exact (merge_cover' hab ha.1 hb.1 sa sb hne hx hx' c3 c1).elim
    · exact Or.inr ⟨h1.resolve_left c1, h2.resolve_left c2⟩
  · dsimp only at h
    simp only [List.mem_cons, List.not_mem_nil, or_false] at h
    obtain ⟨i, hi, hc⟩ := h
    split at hi <;> rcases hi with rfl | rfl
    · exact Or.inl (mk_contains_sub _ _ _ _ _ hc)
    · exact Or.inr (mk_contains_sub _ _ _ _ _ hc)
    · exact Or.inr (mk_contains_sub _ _ _ _ _ hc)
    · exact Or.inl (mk_contains_sub _ _ _ _ _ hc)

/-- C23, union: exact when both intervals are bounded, and for all kinds without holes at every point that is
not one of the four stored bounds.  Missing from the full property: a closed bound of a half-infinite interval
(`union_loses_closed_end`) and the classes with holes. -/
theorem union_mem_partial (a b : BI) (sa : a.Simple) (sb : b.Simple) (ha : a.Ok) (hb : b.Ok)
    (hne : a.toSet.Nonempty ∨ b.toSet.Nonempty) (x : ℝ) (hx : -dblMax < x) (hx' : x < dblMax)
    (hcase : (a.Finite ∧ b.Finite) ∨ (x ≠ a.lower ∧ x ≠ a.upper ∧ x ≠ b.lower ∧ x ≠ b.upper)) :
    Interval.contains (union a b) x ↔ x ∈ a.toSet ∪ b.toSet := by
  refine ⟨union_sound a b sa sb ha hb hne x hx hx', ?_⟩
  rcases hcase with ⟨fa, fb⟩ | ⟨n1, n2, n3, n4⟩
  · rw [Set.mem_union, mem_iff sa, mem_iff sb]
    intro h
    obtain ⟨fal, fau, -⟩ := finite_types fa
    obtain ⟨fbl, fbu, -⟩ := finite_types fb
    unfold union Interval.contains
    split
    · dsimp only
      simp only [List.mem_singleton, exists_eq_left]
      obtain ⟨g1, e1⟩ := union_low (@lowerType_cases a) (@lowerType_cases b) ha.2.1 hb.2.1 hx _ rfl
      obtain ⟨g2, e2⟩ := union_up (@upperType_cases a) (@upperType_cases b) ha.2.2 hb.2.2 hx' _ rfl
      rw [mk_contains_fin (g1 fal fbl) (g2 fau fbu), e1, e2]
      exact h.elim (fun h => ⟨Or.inl h.1, Or.inl h.2⟩) (fun h => ⟨Or.inr h.1, Or.inr h.2⟩)
    · dsimp only
      simp only [List.mem_cons, List.not_mem_nil, or_false]
      split <;> rcases h with h | h
      · exact ⟨_, Or.inl rfl, (mk_contains_fin fal fau _ _ _).2 h⟩
      · exact ⟨_, Or.inr rfl, (mk_contains_fin fbl fbu _ _ _).2 h⟩
      · exact ⟨_, Or.inr rfl, (mk_contains_fin fal fau _ _ _).2 h⟩
      · exact ⟨_, Or.inl rfl, (mk_contains_fin fbl fbu _ _ _).2 h⟩
  · rw [Set.mem_union, mem_inner sa hx hx' n1 n2, mem_inner sb hx hx' n3 n4]
    intro h
    unfold union Interval.contains
    split
    · dsimp only
      simp only [List.mem_singleton, exists_eq_left]
      have m1 : x ≠ min a.lower b.lower := by rcases min_choice a.lower b.lower with e | e <;> rw [e] <;> assumption
      have m2 : x ≠ max a.upper b.upper := by rcases max_choice a.upper b.upper with e | e <;> rw [e] <;> assumption
      rw [mk_inner m1 m2, min_lt_iff, lt_max_iff]
      exact h.elim (fun h => ⟨Or.inl h.1, Or.inl h.2⟩) (fun h => ⟨Or.inr h.1, Or.inr h.2⟩)
    · dsimp only
      simp only [List.mem_cons, List.not_mem_nil, or_false]
      split <;> rcases h with h | h
      · exact ⟨_, Or.inl rfl, (mk_inner n1 n2).2 h⟩
      · exact ⟨_, Or.inr rfl, (mk_inner n3 n4).2 h⟩
      · exact ⟨_, Or.inr rfl, (mk_inner n1 n2).2 h⟩
      · exact ⟨_, Or.inl rfl, (mk_inner n3 n4).2 h⟩

theorem cut_up {t : EndpointType} (h : Fin' t) (l x : ℝ) : upOK (cutType t) l x ↔ ¬ lowOK t l x := by
  rcases h with rfl | rfl <;> simp [cutType, upOK, lowOK]

theorem cut_low {t : EndpointType} (h : Fin' t) (l x : ℝ) : lowOK (cutType t) l x ↔ ¬ upOK t l x := by
  rcases h with rfl | rfl <;> simp [cutType, upOK, lowOK]

theorem cut_fin (t : EndpointType) : Fin' (cutType t) := by
  cases t <;> simp [cutType, Fin']

section DiffLogic

variable {al au bl bu x : ℝ} {LA LB UA UB : Prop} (p1 : LA → al ≤ x) (p2 : LB → bl ≤ x) (p3 : UA → x ≤ au)
  (p4 : UB → x ≤ bu) (q1 : al < x → LA) (q2 : bl < x → LB) (q3 : x < au → UA) (q4 : x < bu → UB)
include p1 p2 p3 p4

theorem diff1 (d2 : al ≠ bu) (d3 : au ≠ bl) (h : bu ≤ al ∨ bl ≥ au) : LA ∧ UA ↔ (LA ∧ UA) ∧ ¬ (LB ∧ UB) := by
  refine ⟨fun hh => ⟨hh, fun hb => ?_⟩, fun hh => hh.1⟩
  have := p1 hh.1; have := p2 hb.1; have := p3 hh.2; have := p4 hb.2
  rcases h with h | h
  · have := lt_of_le_of_ne h d2.symm; linarith
  · have := lt_of_le_of_ne h d3; linarith

include q1 q2 q3 q4

theorem diff2 (d1 : al ≠ bl) (d4 : au ≠ bu) (h : bl ≤ al ∧ bu ≥ au) : False ↔ (LA ∧ UA) ∧ ¬ (LB ∧ UB) := by
  refine ⟨False.elim, fun hh => hh.2 ⟨q2 ?_, q4 ?_⟩⟩
  · have := p1 hh.1.1; have := lt_of_le_of_ne h.1 d1.symm; linarith
  · have := p3 hh.1.2; have := lt_of_le_of_ne h.2 d4; linarith

theorem diff3 (d1 : al ≠ bl) (h0 : ¬ (bu ≤ al ∨ bl ≥ au)) (h : bl ≤ al ∧ bu < au) :
    ¬ UB ∧ UA ↔ (LA ∧ UA) ∧ ¬ (LB ∧ UB) := by
  push Not at h0
  constructor
  · rintro ⟨hu, ha⟩
    have hx : bu ≤ x := not_lt.1 (fun h => hu (q4 h))
    exact ⟨⟨q1 (by linarith [h0.1]), ha⟩, fun hb => hu hb.2⟩
  · rintro ⟨⟨hl, hu⟩, hn⟩
    refine ⟨fun hb => hn ⟨q2 ?_, hb⟩, hu⟩
    have := p1 hl; have := lt_of_le_of_ne h.1 d1.symm; linarith

theorem diff4 (d4 : au ≠ bu) (h0 : ¬ (bu ≤ al ∨ bl ≥ au)) (h : bl > al ∧ bu ≥ au) :
    LA ∧ ¬ LB ↔ (LA ∧ UA) ∧ ¬ (LB ∧ UB) := by
  push Not at h0
  constructor
  · rintro ⟨ha, hl⟩
    have hx : x ≤ bl := not_lt.1 (fun h => hl (q2 h))
    exact ⟨⟨ha, q3 (by linarith [h0.2])⟩, fun hb => hl hb.1⟩
  · rintro ⟨⟨hl, hu⟩, hn⟩
    refine ⟨hl, fun hb => hn ⟨hb, q4 ?_⟩⟩
    have := p3 hu; have := lt_of_le_of_ne h.2 d4; linarith

theorem diff5 (hb : bl ≤ bu) (h0 : ¬ (bu ≤ al ∨ bl ≥ au)) (h1 : ¬ (bl ≤ al ∧ bu ≥ au)) (h2 : ¬ (bl ≤ al ∧ bu < au))
    (h3 : ¬ (bl > al ∧ bu ≥ au)) :
    (LA ∧ ¬ LB) ∨ (¬ UB ∧ UA) ↔ (LA ∧ UA) ∧ ¬ (LB ∧ UB) := by
  push Not at h0
  have e1 : al < bl := by
    by_contra hc
    have hc := not_lt.1 hc
    rcases le_or_gt au bu with h | h
    · exact h1 ⟨hc, h⟩
    · exact h2 ⟨hc, h⟩
  have e2 : bu < au := not_le.1 (fun hc => h3 ⟨e1, hc⟩)
  constructor
  · rintro (⟨ha, hl⟩ | ⟨hu, ha⟩)
    · have hx : x ≤ bl := not_lt.1 (fun h => hl (q2 h))
      exact ⟨⟨ha, q3 (by linarith)⟩, fun hb => hl hb.1⟩
    · have hx : bu ≤ x := not_lt.1 (fun h => hu (q4 h))
      exact ⟨⟨q1 (by linarith), ha⟩, fun hb => hu hb.2⟩
  · rintro ⟨⟨hl, hu⟩, hn⟩
    by_cases hlb : LB
    · exact Or.inr ⟨fun h => hn ⟨hlb, h⟩, hu⟩
    · exact Or.inl ⟨hl, hlb⟩

end DiffLogic

/-- C23, difference: exact at every point that is not one of the four stored bounds (all kinds without holes),
and exact everywhere for bounded intervals no bound of which coincides with a bound of the other.  Missing from
the full property: points where a bound of `b` meets a bound of `a` (`difference_keeps_point`,
`difference_loses_point`). -/
theorem difference_mem_partial (a b : BI) (sa : a.Simple) (sb : b.Simple) (ha : a.Ok) (hb : b.Ok)
    (x : ℝ) (hx : -dblMax < x) (hx' : x < dblMax)
    (hcase : (a.Finite ∧ b.Finite ∧ a.lower ≠ b.lower ∧ a.lower ≠ b.upper ∧ a.upper ≠ b.lower ∧ a.upper ≠ b.upper) ∨
      (x ≠ a.lower ∧ x ≠ a.upper ∧ x ≠ b.lower ∧ x ≠ b.upper)) :
    Interval.contains (difference a b) x ↔ x ∈ a.toSet \ b.toSet := by
  have hla := ha.1
  have hlb := hb.1
  rw [Set.mem_sdiff]
  unfold difference Interval.contains
  rcases hcase with ⟨fa, fb, d1, d2, d3, d4⟩ | ⟨n1, n2, n3, n4⟩
  · rw [mem_iff sa, mem_iff sb]
    obtain ⟨fal, fau, -⟩ := finite_types fa
    obtain ⟨fbl, fbu, -⟩ := finite_types fb
    have p1 := @le_of_lowOK _ a.lower x fal
    have p2 := @le_of_lowOK _ b.lower x fbl
    have p3 := @le_of_upOK _ a.upper x fau
    have p4 := @le_of_upOK _ b.upper x fbu
    have q1 := @lowOK_of_lt a.lowerType a.lower x
    have q2 := @lowOK_of_lt b.lowerType b.lower x
    have q3 := @upOK_of_lt a.upperType a.upper x
    have q4 := @upOK_of_lt b.upperType b.upper x
    split
    · next h0 =>
      simp only [List.mem_singleton, exists_eq_left]
      rw [mk_contains_fin fal fau]
      exact diff1 p1 p2 p3 p4 d2 d3 h0
    · next h0 =>
      split
      · next h1 =>
        simp only [List.not_mem_nil, false_and, exists_false]
        exact diff2 p1 p2 p3 p4 q1 q2 q3 q4 d1 d4 h1
      · next h1 =>
        split
        · next h2 =>
          simp only [List.mem_singleton, exists_eq_left]
          rw [mk_contains_fin (cut_fin _) fau, cut_low fbu]
          exact diff3 p1 p2 p3 p4 q1 q2 q3 q4 d1 h0 h2
        · next h2 =>
          split
          · next h3 =>
            simp only [List.mem_singleton, exists_eq_left]
            rw [mk_contains_fin fal (cut_fin _), cut_up fbl]
            exact diff4 p1 p2 p3 p4 q1 q2 q3 q4 d4 h0 h3
          · next h3 =>
            simp only [List.mem_cons, List.not_mem_nil, or_false, exists_eq_or_imp, exists_eq_left]
            rw [mk_contains_fin fal (cut_fin _), cut_up fbl, mk_contains_fin (cut_fin _) fau, cut_low fbu]
            exact diff5 p1 p2 p3 p4 q1 q2 q3 q4 hlb h0 h1 h2 h3
  · rw [mem_inner sa hx hx' n1 n2, mem_inner sb hx hx' n3 n4]
    clear ha hb sa sb hx hx'
    generalize a.lower = al at *
    generalize a.upper = au at *
    generalize b.lower = bl at *
    generalize b.upper = bu at *
    split
    · simp only [List.mem_singleton, exists_eq_left]
      rw [mk_inner n1 n2]
      constructor
      · rintro h
        refine ⟨h, fun hb => ?_⟩
        grind
      · exact fun h => h.1
    · split
      · simp only [List.not_mem_nil, false_and, exists_false, false_iff]
        rintro ⟨h1, h2⟩
        exact h2 (by grind)
      · split
        · simp only [List.mem_singleton, exists_eq_left]
          rw [mk_inner n4 n2]
          grind
        · split
          · simp only [List.mem_singleton, exists_eq_left]
            rw [mk_inner n1 n3]
            grind
          · simp only [List.mem_cons, List.not_mem_nil, or_false, exists_eq_or_imp, exists_eq_left]
            rw [mk_inner n1 n3, mk_inner n4 n2]
            grind

/-- C23, complement: exact for every kind without holes and every real number. -/
theorem complement_mem (a : BI) (sa : a.Simple) (x : ℝ) : Interval.contains (complement a) x ↔ x ∉ a.toSet := by
  cases a <;>
    simp_all [complement, BI.lowerType, BI.upperType, BI.lower, BI.upper, BI.toSet, Interval.contains, BI.contains,
      BI.Simple] <;> grind

end Verif.Intervals
