import Verif.CompGeo.Closest
import Mathlib.Data.List.Sort
import Mathlib.Tactic

/-!
# C111: the closest pair of points
-/

set_option autoImplicit false

namespace Verif.CompGeo

/-- The Euclidean distance of two points. -/
noncomputable def euclid (a b : ℝ × ℝ) : ℝ := Real.sqrt ((a.1 - b.1) ^ 2 + (a.2 - b.2) ^ 2)

theorem dist2_eq (a b : ℝ × ℝ) : dist2 a b = euclid a b := by
  rw [dist2, euclid]; congr 1; ring

theorem dist2_comm (a b : ℝ × ℝ) : dist2 a b = dist2 b a := by
  rw [dist2, dist2]; congr 1; ring

theorem y_le_dist (a b : ℝ × ℝ) : b.2 - a.2 ≤ dist2 a b :=
  Real.le_sqrt_of_sq_le (by nlinarith [mul_self_nonneg (b.1 - a.1)])

theorem x_le_dist (a b : ℝ × ℝ) : |b.1 - a.1| ≤ dist2 a b :=
  Real.le_sqrt_of_sq_le (by rw [sq_abs]; nlinarith [mul_self_nonneg (b.2 - a.2)])

/-- Two entries of the list, at different positions. -/
def TwoOf (l : List (ℝ × ℝ)) (a b : ℝ × ℝ) : Prop := [a, b].Subperm l

/-- The answer `r` is two of the points with their distance. -/
def Pair (l : List (ℝ × ℝ)) (r : Closest) : Prop := TwoOf l r.p1 r.p2 ∧ r.distance = (dist2 r.p1 r.p2 : WithTop ℝ)

/-- `r` is a pair of `l` unless it has infinite distance, and no pair of `l` is closer. -/
def GoodPair (l : List (ℝ × ℝ)) (r : Closest) : Prop := (r.distance = ⊤ ∨ Pair l r) ∧ ∀ a b, TwoOf l a b → r.distance ≤ (dist2 a b : WithTop ℝ)

theorem TwoOf.mono {l m : List (ℝ × ℝ)} {a b : ℝ × ℝ} (h : TwoOf l a b) (hs : l.Subperm m) : TwoOf m a b := List.Subperm.trans h hs

theorem TwoOf.symm {l : List (ℝ × ℝ)} {a b : ℝ × ℝ} (h : TwoOf l a b) : TwoOf l b a :=
  List.Subperm.trans (List.Perm.swap a b []).subperm h

theorem twoOf_cons {c : ℝ × ℝ} {l : List (ℝ × ℝ)} {a b : ℝ × ℝ} (h : TwoOf (c :: l) a b) :
    TwoOf l a b ∨ (a = c ∧ b ∈ l) ∨ (b = c ∧ a ∈ l) := by
  obtain ⟨s, hp, hs⟩ := h
  rcases List.sublist_cons_iff.1 hs with h1 | ⟨r, rfl, h1⟩
  · exact .inl ⟨s, hp, h1⟩
  · have hm : c ∈ [a, b] := hp.subset (List.mem_cons_self ..)
    rcases List.mem_cons.1 hm with rfl | hm
    · have := (List.perm_cons c).1 hp
      rw [List.perm_singleton] at this
      subst this
      exact .inr (.inl ⟨rfl, h1.subset (by simp)⟩)
    · obtain rfl : c = b := by simpa using hm
      have := (List.perm_cons c).1 (hp.trans (List.Perm.swap c a []))
      rw [List.perm_singleton] at this
      subst this
      exact .inr (.inr ⟨rfl, h1.subset (by simp)⟩)

theorem twoOf_head {a b : ℝ × ℝ} {l : List (ℝ × ℝ)} (h : b ∈ l) : TwoOf (a :: l) a b :=
  (List.subperm_cons a).2 (List.singleton_subperm_iff.2 h)

theorem better_le (a b : ℝ × ℝ) (r : Closest) : (better a b r).distance ≤ r.distance ∧ (better a b r).distance ≤ (dist2 a b : WithTop ℝ) ∧
    (better a b r = r ∨ better a b r = ⟨a, b, dist2 a b⟩ ∧ (better a b r).distance < r.distance) := by
  by_cases h : (dist2 a b : WithTop ℝ) < r.distance
  · rw [better, if_pos h]
    exact ⟨h.le, le_rfl, .inr ⟨rfl, h⟩⟩
  · rw [better, if_neg h]
    exact ⟨le_rfl, not_lt.1 h, .inl rfl⟩

theorem bruteInner_spec (a : ℝ × ℝ) (l : List (ℝ × ℝ)) (r : Closest) : (bruteInner a l r).distance ≤ r.distance ∧
    (∀ b ∈ l, (bruteInner a l r).distance ≤ (dist2 a b : WithTop ℝ)) ∧
    (bruteInner a l r = r ∨ ∃ b ∈ l, bruteInner a l r = ⟨a, b, dist2 a b⟩) := by
  induction l generalizing r with
  | nil => exact ⟨le_rfl, by simp, .inl rfl⟩
  | cons b l ih =>
    obtain ⟨h1, h2, h3⟩ := ih (better a b r)
    obtain ⟨g1, g2, g3⟩ := better_le a b r
    rw [bruteInner]
    refine ⟨h1.trans g1, ?_, ?_⟩
    · rintro c hc
      rcases List.mem_cons.1 hc with rfl | hc
      · exact h1.trans g2
      · exact h2 c hc
    · rcases h3 with h3 | ⟨c, hc, h3⟩
      · rcases g3 with g3 | ⟨g3, -⟩
        · exact .inl (h3.trans g3)
        · exact .inr ⟨b, by simp, h3.trans g3⟩
      · exact .inr ⟨c, by simp [hc], h3⟩

theorem bruteOuter_spec (l : List (ℝ × ℝ)) (r : Closest) : (bruteOuter l r).distance ≤ r.distance ∧
    (∀ a b, TwoOf l a b → (bruteOuter l r).distance ≤ (dist2 a b : WithTop ℝ)) ∧ (bruteOuter l r = r ∨ Pair l (bruteOuter l r)) := by
  induction l generalizing r with
  | nil => exact ⟨le_rfl, fun a b h => absurd h.length_le (by simp), .inl rfl⟩
  | cons a l ih =>
    obtain ⟨h1, h2, h3⟩ := ih (bruteInner a l r)
    obtain ⟨g1, g2, g3⟩ := bruteInner_spec a l r
    rw [bruteOuter]
    refine ⟨h1.trans g1, fun x y hxy => ?_, ?_⟩
    · rcases twoOf_cons hxy with h | ⟨rfl, h⟩ | ⟨rfl, h⟩
      · exact h2 x y h
      · exact h1.trans (g2 y h)
      · rw [dist2_comm]; exact h1.trans (g2 x h)
    · rcases h3 with h3 | h3
      · rcases g3 with g3 | ⟨b, hb, g3⟩
        · exact .inl (h3.trans g3)
        · refine .inr ?_
          rw [h3, g3]
          exact ⟨twoOf_head hb, rfl⟩
      · exact .inr ⟨h3.1.mono (List.sublist_cons_self a l).subperm, h3.2⟩

theorem bruteForce_good (l : List (ℝ × ℝ)) : GoodPair l (bruteForce l) := by
  obtain ⟨-, h2, h3⟩ := bruteOuter_spec l Closest.none
  refine ⟨?_, h2⟩
  rcases h3 with h3 | h3
  · exact .inl (by rw [bruteForce, h3]; rfl)
  · exact .inr h3

theorem stripInner_spec (a : ℝ × ℝ) (l : List (ℝ × ℝ)) (r : Closest) (hs : l.Pairwise yLe) : (stripInner a l r).distance ≤ r.distance ∧
    (∀ b ∈ l, (stripInner a l r).distance ≤ (dist2 a b : WithTop ℝ)) ∧
    (stripInner a l r = r ∨ ∃ b ∈ l, stripInner a l r = ⟨a, b, dist2 a b⟩) := by
  induction l generalizing r with
  | nil => exact ⟨le_rfl, by simp, .inl rfl⟩
  | cons b l ih =>
    have hs := List.pairwise_cons.1 hs
    rw [stripInner]
    by_cases hb : ((b.2 - a.2 : ℝ) : WithTop ℝ) < r.distance
    · rw [if_pos hb]
      obtain ⟨h1, h2, h3⟩ := ih (better a b r) hs.2
      obtain ⟨g1, g2, g3⟩ := better_le a b r
      refine ⟨h1.trans g1, ?_, ?_⟩
      · rintro c hc
        rcases List.mem_cons.1 hc with rfl | hc
        · exact h1.trans g2
        · exact h2 c hc
      · rcases h3 with h3 | ⟨c, hc, h3⟩
        · rcases g3 with g3 | ⟨g3, -⟩
          · exact .inl (h3.trans g3)
          · exact .inr ⟨b, by simp, h3.trans g3⟩
        · exact .inr ⟨c, by simp [hc], h3⟩
    · rw [if_neg hb]
      refine ⟨le_rfl, fun c hc => ?_, .inl rfl⟩
      have hbc : b.2 ≤ c.2 := by
        rcases List.mem_cons.1 hc with rfl | hc
        · exact le_rfl
        · exact hs.1 c hc
      refine (not_lt.1 hb).trans (WithTop.coe_le_coe.2 ?_)
      linarith [y_le_dist a c]

theorem stripOuter_spec (l : List (ℝ × ℝ)) (r : Closest) (hs : l.Pairwise yLe) : (stripOuter l r).distance ≤ r.distance ∧
    (∀ a b, TwoOf l a b → (stripOuter l r).distance ≤ (dist2 a b : WithTop ℝ)) ∧ (stripOuter l r = r ∨ Pair l (stripOuter l r)) := by
  induction l generalizing r with
  | nil => exact ⟨le_rfl, fun a b h => absurd h.length_le (by simp), .inl rfl⟩
  | cons a l ih =>
    have hs := List.pairwise_cons.1 hs
    obtain ⟨h1, h2, h3⟩ := ih (stripInner a l r) hs.2
    obtain ⟨g1, g2, g3⟩ := stripInner_spec a l r hs.2
    rw [stripOuter]
    refine ⟨h1.trans g1, fun x y hxy => ?_, ?_⟩
    · rcases twoOf_cons hxy with h | ⟨rfl, h⟩ | ⟨rfl, h⟩
      · exact h2 x y h
      · exact h1.trans (g2 y h)
      · rw [dist2_comm]; exact h1.trans (g2 x h)
    · rcases h3 with h3 | h3
      · rcases g3 with g3 | ⟨b, hb, g3⟩
        · exact .inl (h3.trans g3)
        · refine .inr ?_
          rw [h3, g3]
          exact ⟨twoOf_head hb, rfl⟩
      · exact .inr ⟨h3.1.mono (List.sublist_cons_self a l).subperm, h3.2⟩

open Classical in
theorem y_sorted (l : List (ℝ × ℝ)) : (l.insertionSort yLe).Pairwise yLe := by
  haveI : Std.Total yLe := ⟨fun a b => le_total a.2 b.2⟩
  haveI : IsTrans (ℝ × ℝ) yLe := ⟨fun _ _ _ => le_trans⟩
  exact List.pairwise_insertionSort yLe l

open Classical in
theorem x_sorted (l : List (ℝ × ℝ)) : (l.insertionSort xLe).Pairwise xLe := by
  haveI : Std.Total xLe := ⟨fun a b => le_total a.1 b.1⟩
  haveI : IsTrans (ℝ × ℝ) xLe := ⟨fun _ _ _ => le_trans⟩
  exact List.pairwise_insertionSort xLe l

open Classical in
theorem stripBest_spec (l : List (ℝ × ℝ)) (d : WithTop ℝ) : (∀ a b, TwoOf l a b → (stripBest l d).distance ≤ (dist2 a b : WithTop ℝ)) ∧
    ((stripBest l d).distance < d → Pair l (stripBest l d)) := by
  obtain ⟨-, h2, h3⟩ := stripOuter_spec (l.insertionSort yLe) ⟨(0, 0), (0, 0), d⟩ (y_sorted l)
  have hp : (l.insertionSort yLe).Perm l := List.perm_insertionSort yLe l
  refine ⟨fun a b h => h2 a b (h.mono hp.symm.subperm), fun h => ?_⟩
  rcases h3 with h3 | h3
  · rw [stripBest, h3] at h
    exact absurd h (lt_irrefl _)
  · exact ⟨h3.1.mono hp.subperm, h3.2⟩

theorem twoOf_filter {l : List (ℝ × ℝ)} {a b : ℝ × ℝ} (p : ℝ × ℝ → Bool) (h : TwoOf l a b) (ha : p a = true) (hb : p b = true) :
    TwoOf (l.filter p) a b := by
  obtain ⟨s, hp, hs⟩ := h
  refine ⟨s, hp, ?_⟩
  have := hs.filter p
  rwa [List.filter_eq_self.2 fun x hx => by
    rcases List.mem_cons.1 (hp.subset hx) with rfl | hx
    · exact ha
    · rw [List.mem_singleton.1 hx]; exact hb] at this

theorem twoOf_append {l m : List (ℝ × ℝ)} {a b : ℝ × ℝ} (h : TwoOf (l ++ m) a b) :
    TwoOf l a b ∨ TwoOf m a b ∨ (a ∈ l ∧ b ∈ m) ∨ (b ∈ l ∧ a ∈ m) := by
  induction l with
  | nil => exact .inr (.inl h)
  | cons c l ih =>
    rcases twoOf_cons h with h | ⟨rfl, h'⟩ | ⟨rfl, h'⟩
    · rcases ih h with h | h | ⟨h, g⟩ | ⟨h, g⟩
      · exact .inl (h.mono (List.sublist_cons_self c l).subperm)
      · exact .inr (.inl h)
      · exact .inr (.inr (.inl ⟨by simp [h], g⟩))
      · exact .inr (.inr (.inr ⟨by simp [h], g⟩))
    · rcases List.mem_append.1 h' with h | h
      · exact .inl (twoOf_head h)
      · exact .inr (.inr (.inl ⟨by simp, h⟩))
    · rcases List.mem_append.1 h' with h | h
      · exact .inl (twoOf_head h).symm
      · exact .inr (.inr (.inr ⟨by simp, h⟩))

theorem merge_good {A B : List (ℝ × ℝ)} {mid : ℝ × ℝ} {ra rb : Closest} (hA : GoodPair A ra) (hB : GoodPair B rb)
    (hl : ∀ a ∈ A, a.1 ≤ mid.1) (hr : ∀ b ∈ B, mid.1 ≤ b.1) : GoodPair (A ++ B) (merge (A ++ B) mid (smaller ra rb)) := by
  have hbest : ((smaller ra rb).distance = ⊤ ∨ Pair (A ++ B) (smaller ra rb)) ∧ (smaller ra rb).distance ≤ ra.distance ∧
      (smaller ra rb).distance ≤ rb.distance := by
    by_cases h : ra.distance < rb.distance
    · rw [smaller, if_pos h]
      exact ⟨hA.1.imp id fun ⟨h1, h2⟩ => ⟨h1.mono (List.sublist_append_left A B).subperm, h2⟩, le_rfl, h.le⟩
    · rw [smaller, if_neg h]
      exact ⟨hB.1.imp id fun ⟨h1, h2⟩ => ⟨h1.mono (List.sublist_append_right A B).subperm, h2⟩, not_lt.1 h, le_rfl⟩
  generalize smaller ra rb = r at hbest
  obtain ⟨h1, h2, h3⟩ := hbest
  obtain ⟨g1, g2⟩ := stripBest_spec (stripOf (A ++ B) mid r.distance) r.distance
  have hcross : ∀ a ∈ A, ∀ b ∈ B, TwoOf (A ++ B) a b → r.distance ≤ (dist2 a b : WithTop ℝ) ∨
      (stripBest (stripOf (A ++ B) mid r.distance) r.distance).distance ≤ (dist2 a b : WithTop ℝ) := by
    intro a ha b hb hab
    by_cases hd : r.distance ≤ (dist2 a b : WithTop ℝ)
    · exact .inl hd
    · refine .inr (g1 a b (twoOf_filter _ hab ?_ ?_))
      · rw [decide_eq_true_eq]
        refine lt_of_le_of_lt (WithTop.coe_le_coe.2 ?_) (not_le.1 hd)
        have e1 := hl a ha
        have e2 := hr b hb
        have e3 := (le_abs_self _).trans (x_le_dist a b)
        rw [abs_of_nonpos (by linarith)]; linarith
      · rw [decide_eq_true_eq]
        refine lt_of_le_of_lt (WithTop.coe_le_coe.2 ?_) (not_le.1 hd)
        have e1 := hl a ha
        have e2 := hr b hb
        have e3 := (le_abs_self _).trans (x_le_dist a b)
        rw [abs_of_nonneg (by linarith)]; linarith
  rw [merge]
  by_cases hc : (stripBest (stripOf (A ++ B) mid r.distance) r.distance).distance < r.distance
  · rw [if_pos hc]
    have hp := g2 hc
    refine ⟨.inr ⟨hp.1.mono List.filter_sublist.subperm, hp.2⟩, fun a b hab => ?_⟩
    rcases twoOf_append hab with h | h | ⟨h, g⟩ | ⟨h, g⟩
    · exact hc.le.trans (h2.trans (hA.2 a b h))
    · exact hc.le.trans (h3.trans (hB.2 a b h))
    · rcases hcross a h b g hab with h | h
      · exact hc.le.trans h
      · exact h
    · rw [dist2_comm]
      rcases hcross b h a g hab.symm with h | h
      · exact hc.le.trans h
      · exact h
  · rw [if_neg hc]
    refine ⟨h1, fun a b hab => ?_⟩
    rcases twoOf_append hab with h | h | ⟨h, g⟩ | ⟨h, g⟩
    · exact h2.trans (hA.2 a b h)
    · exact h3.trans (hB.2 a b h)
    · rcases hcross a h b g hab with h | h
      · exact h
      · exact (not_lt.1 hc).trans h
    · rw [dist2_comm]
      rcases hcross b h a g hab.symm with h | h
      · exact h
      · exact (not_lt.1 hc).trans h

theorem closestHelper_good (l : List (ℝ × ℝ)) (hs : l.Pairwise xLe) : ∃ r, closestHelper l = .ret r ∧ GoodPair l r := by
  induction hn : l.length using Nat.strong_induction_on generalizing l with
  | _ n ih =>
    subst hn
    rw [closestHelper]
    by_cases h : l.length - 1 ≤ 3
    · rw [if_pos h]
      exact ⟨_, rfl, bruteForce_good l⟩
    · rw [if_neg h]
      have hk : (l.length - 1) / 2 < l.length := by omega
      set k := (l.length - 1) / 2 with hkd
      obtain ⟨ra, e1, ga⟩ := ih _ (by rw [List.length_take]; omega) (l.take (k + 1)) (hs.sublist (List.take_sublist _ _)) rfl
      obtain ⟨rb, e2, gb⟩ := ih _ (by rw [List.length_drop]; omega) (l.drop (k + 1)) (hs.sublist (List.drop_sublist _ _)) rfl
      have ei : Outcome.index l k = .ret l[k] := by
        rw [Outcome.index, List.getElem?_eq_getElem hk]
      rw [ei, Outcome.bind_ret, e1, Outcome.bind_ret, e2, Outcome.bind_ret]
      refine ⟨_, rfl, ?_⟩
      have hg := merge_good (mid := l[k]) ga gb ?_ ?_
      · rwa [List.take_append_drop] at hg
      · intro a ha
        obtain ⟨i, hi, rfl⟩ := List.mem_iff_getElem.1 ha
        rw [List.length_take] at hi
        rw [List.getElem_take]
        rcases Nat.lt_or_ge i k with h1 | h1
        · exact List.pairwise_iff_getElem.1 hs i k (by omega) hk h1
        · have : i = k := by omega
          subst this
          exact le_rfl
      · intro b hb
        obtain ⟨i, hi, rfl⟩ := List.mem_iff_getElem.1 hb
        rw [List.length_drop] at hi
        rw [List.getElem_drop]
        exact List.pairwise_iff_getElem.1 hs k (k + 1 + i) hk (by omega) (by omega)

open Classical in
/-- **C111.**  The answer for two or more points is two of them (at different positions of the list), with their Euclidean distance, and no
two of the points are closer.  For fewer points the distance is infinite. -/
theorem closestPair_spec (pts : List (ℝ × ℝ)) : ∃ r, closestPair pts = .ret r ∧
    (pts.length < 2 → r.distance = ⊤) ∧
    (2 ≤ pts.length → TwoOf pts r.p1 r.p2 ∧ r.distance = (euclid r.p1 r.p2 : WithTop ℝ) ∧ ∀ a b, TwoOf pts a b → euclid r.p1 r.p2 ≤ euclid a b) := by
  have key : ∀ r, GoodPair pts r → (2 ≤ pts.length → TwoOf pts r.p1 r.p2 ∧ r.distance = (euclid r.p1 r.p2 : WithTop ℝ) ∧
      ∀ a b, TwoOf pts a b → euclid r.p1 r.p2 ≤ euclid a b) := by
    rintro r ⟨h1, h2⟩ hl
    obtain ⟨x, y, l, rfl⟩ : ∃ x y l, pts = x :: y :: l := by
      match pts, hl with
      | x :: y :: l, _ => exact ⟨x, y, l, rfl⟩
    rcases h1 with h1 | h1
    · have := h2 x y (twoOf_head (by simp))
      rw [h1] at this
      exact absurd this (by simp)
    · refine ⟨h1.1, by rw [h1.2, dist2_eq], fun a b hab => ?_⟩
      have := h2 a b hab
      rw [h1.2, WithTop.coe_le_coe, dist2_eq, dist2_eq] at this
      exact this
  rw [closestPair]
  by_cases h : pts.length < 2
  · rw [if_pos h]
    exact ⟨_, rfl, fun _ => rfl, fun h' => absurd h' (by omega)⟩
  · rw [if_neg h]
    by_cases h2 : pts.length = 2
    · rw [if_pos h2]
      obtain ⟨a, b, rfl⟩ : ∃ a b, pts = [a, b] := List.length_eq_two.1 h2
      refine ⟨⟨a, b, dist2 a b⟩, rfl, fun h' => absurd h' h, key _ ⟨.inr ⟨List.Subperm.refl _, rfl⟩, fun x y hxy => ?_⟩⟩
      rcases twoOf_cons hxy with g | ⟨rfl, g⟩ | ⟨rfl, g⟩
      · exact absurd g.length_le (by simp)
      · rw [List.mem_singleton.1 g]
      · rw [List.mem_singleton.1 g, dist2_comm]
    · rw [if_neg h2]
      obtain ⟨r, e, g1, g2⟩ := closestHelper_good _ (x_sorted pts)
      have hp : (pts.insertionSort xLe).Perm pts := List.perm_insertionSort xLe pts
      exact ⟨r, e, fun h' => absurd h' h, key r ⟨g1.imp id fun ⟨a, b⟩ => ⟨a.mono hp.subperm, b⟩, fun a b hab => g2 a b (hab.mono hp.symm.subperm)⟩⟩

-- two copies of a point are at distance zero
example : ∃ r, closestPair [(0, 0), (3, 0), (0, 4), (3, 0), (9, 9)] = .ret r ∧ r.distance = ((0 : ℝ) : WithTop ℝ) := by
  obtain ⟨r, h1, -, h2⟩ := closestPair_spec [(0, 0), (3, 0), (0, 4), (3, 0), (9, 9)]
  obtain ⟨-, h4, h5⟩ := h2 (by simp)
  have h6 := h5 (3, 0) (3, 0) (by
    refine List.Sublist.subperm ?_
    simp)
  have h7 : euclid (3, 0) (3, 0) = 0 := by simp [euclid]
  refine ⟨r, h1, ?_⟩
  rw [h4]
  congr 1
  exact le_antisymm (by rw [← h7]; exact h6) (Real.sqrt_nonneg _)

end Verif.CompGeo
