import Mathlib.Data.List.GetD
import Verif.CompGeo.DelaunayInv

/-!
# The run of the incremental Delaunay triangulation
-/

set_option autoImplicit false

namespace Verif.CompGeo.Del
open Wind (up cr tri Inside InsideEq area2_swap area2_rot area2_split)

/-- The valid triangles. -/
def valid (ts : List (Tri × Bool)) : List Tri := (ts.filter (fun t => t.2)).map Prod.fst

/-- The point with a given index. -/
def at' (wp : List Pt) (i : ℕ) : Pt := wp.getD i (0, 0)

theorem index_at {wp : List Pt} {i : ℕ} (h : i < wp.length) : Outcome.index wp i = .ret (at' wp i) := by
  rw [Outcome.index, at', List.getElem?_eq_getElem h, List.getD_eq_getElem _ _ h]

/-- The test for one triangle. -/
noncomputable def test (wp : List Pt) (p : Pt) (t : Tri) : Bool := inCircle p (at' wp t.1) (at' wp t.2.1) (at' wp t.2.2)

theorem marks_eq {wp : List Pt} {p : Pt} : ∀ {ts : List (Tri × Bool)},
    (∀ t ∈ valid ts, t.1 < wp.length ∧ t.2.1 < wp.length ∧ t.2.2 < wp.length) → marks wp p ts = .ret (ts.map (fun t => t.2 && test wp p t.1))
  | [], _ => rfl
  | (t, b) :: ts, h => by
    have hb : isBad wp p (t, b) = .ret (b && test wp p t) := by
      rw [isBad]
      cases b with
      | false => rfl
      | true =>
        obtain ⟨h1, h2, h3⟩ := h t (by simp [valid])
        rw [if_neg (by simp), index_at h1, Outcome.bind_ret, index_at h2, Outcome.bind_ret, index_at h3, Outcome.bind_ret]; rfl
    rw [marks, hb, Outcome.bind_ret, marks_eq (fun u hu => h u ?_), Outcome.bind_ret]
    · rfl
    · cases b <;> simp only [valid, List.filter_cons, Bool.false_eq_true, if_false, if_true, List.map_cons, List.mem_cons] at hu ⊢
      · exact hu
      · exact Or.inr hu

theorem bad_eq (ts : List (Tri × Bool)) (g : Tri → Bool) : badTris ts (ts.map (fun t => t.2 && g t.1)) = (valid ts).filter g := by
  induction ts with
  | nil => rfl
  | cons t ts ih =>
    rcases t with ⟨t, b⟩
    simp only [badTris, valid, List.map_cons, List.zip_cons_cons, List.filter_cons] at ih ⊢
    cases b <;> cases hg : g t <;> simp [hg, ih]

theorem invalidate_eq (ts : List (Tri × Bool)) (g : Tri → Bool) : valid (invalidate ts (ts.map (fun t => t.2 && g t.1))) = (valid ts).filter (fun t => !g t) := by
  induction ts with
  | nil => rfl
  | cons t ts ih =>
    rcases t with ⟨t, b⟩
    simp only [invalidate, valid, List.map_cons, List.zipWith_cons_cons, List.filter_cons] at ih ⊢
    cases b <;> cases hg : g t <;> simp [hg, ih]

theorem valid_append (a b : List (Tri × Bool)) : valid (a ++ b) = valid a ++ valid b := by simp [valid]

theorem valid_new (l : List Tri) : valid (l.map (fun t => (t, true))) = l := by
  induction l with
  | nil => rfl
  | cons t l ih => simp only [valid, List.map_cons, List.filter_cons, if_true] at ih ⊢; rw [ih]

theorem extract_eq (n : ℕ) (ts : List (Tri × Bool)) : extract n ts = (valid ts).filter (fun t => decide (t.1 < n) && decide (t.2.1 < n) && decide (t.2.2 < n)) := by
  induction ts with
  | nil => rfl
  | cons t ts ih =>
    rcases t with ⟨t, b⟩
    simp only [extract, valid, List.filter_cons] at ih ⊢
    cases b
    · simp [ih]
    · simp only [Bool.true_and, if_true, List.map_cons, List.filter_cons]
      split_ifs <;> simp [ih]

/-! ## The super-triangle -/

theorem foldl_min_le (x : ℝ) (l : List ℝ) : minOf x l ≤ x ∧ ∀ y ∈ l, minOf x l ≤ y := by
  induction l generalizing x with
  | nil => exact ⟨le_rfl, by simp⟩
  | cons a l ih =>
    obtain ⟨h1, h2⟩ := ih (min x a)
    refine ⟨h1.trans (min_le_left _ _), fun y hy => ?_⟩
    rcases List.mem_cons.1 hy with rfl | hy
    · exact h1.trans (min_le_right _ _)
    · exact h2 y hy

theorem le_foldl_max (x : ℝ) (l : List ℝ) : x ≤ maxOf x l ∧ ∀ y ∈ l, y ≤ maxOf x l := by
  induction l generalizing x with
  | nil => exact ⟨le_rfl, by simp⟩
  | cons a l ih =>
    obtain ⟨h1, h2⟩ := ih (max x a)
    refine ⟨(le_max_left _ _).trans h1, fun y hy => ?_⟩
    rcases List.mem_cons.1 hy with rfl | hy
    · exact (le_max_right _ _).trans h1
    · exact h2 y hy

theorem deltaMax_spec (a b c d : ℝ) : b - a ≤ deltaMax a b c d ∧ d - c ≤ deltaMax a b c d ∧ 0 < deltaMax a b c d := by
  rw [deltaMax]
  refine ⟨?_, ?_, lt_of_lt_of_le (by norm_num) (le_max_right _ _)⟩
  · exact (le_max_left _ _).trans ((le_max_left _ _).trans ((le_max_left _ _).trans (le_max_left _ _)))
  · exact (le_max_right _ _).trans ((le_max_left _ _).trans ((le_max_left _ _).trans (le_max_left _ _)))

/-- The super-triangle is counter-clockwise and has every point of the box strictly inside. -/
theorem superOf_spec {a b c d : ℝ} : ∃ s1 s2 s3, superOf a b c d = [s1, s2, s3] ∧ 0 < area2 s1 s2 s3 ∧
    ∀ q : Pt, a ≤ q.1 → q.1 ≤ b → c ≤ q.2 → q.2 ≤ d → Inside q s1 s2 s3 := by
  obtain ⟨h1, h2, h3⟩ := deltaMax_spec a b c d
  refine ⟨_, _, _, rfl, ?_, fun q k1 k2 k3 k4 => ⟨?_, ?_, ?_⟩⟩ <;> simp only [area2] <;> generalize deltaMax a b c d = e at *
  · nlinarith
  · have : 0 < e * (q.2 - (c + d) / 2 + e) := mul_pos h3 (by linarith)
    nlinarith
  · have : 0 < e * (400 * e - 20 * (q.2 - (c + d) / 2) - 21 * (q.1 - (a + b) / 2)) := mul_pos h3 (by linarith)
    nlinarith
  · have : 0 < e * (400 * e - 20 * (q.2 - (c + d) / 2) + 21 * (q.1 - (a + b) / 2)) := mul_pos h3 (by linarith)
    nlinarith

theorem superTri_spec (p : Pt) (ps : List Pt) : ∃ s1 s2 s3, superTri p ps = [s1, s2, s3] ∧ 0 < area2 s1 s2 s3 ∧ ∀ q ∈ ps, Inside q s1 s2 s3 := by
  obtain ⟨s1, s2, s3, e, h, hq⟩ := superOf_spec (a := minOf p.1 (ps.map Prod.fst)) (b := maxOf p.1 (ps.map Prod.fst)) (c := minOf p.2 (ps.map Prod.snd)) (d := maxOf p.2 (ps.map Prod.snd))
  refine ⟨s1, s2, s3, e, h, fun q hm => hq q ?_ ?_ ?_ ?_⟩
  · exact (foldl_min_le _ _).2 _ (List.mem_map_of_mem hm)
  · exact (le_foldl_max _ _).2 _ (List.mem_map_of_mem hm)
  · exact (foldl_min_le _ _).2 _ (List.mem_map_of_mem hm)
  · exact (le_foldl_max _ _).2 _ (List.mem_map_of_mem hm)

/-! ## The loop -/

/-- The points with which the algorithm works: the input and the corners of the super-triangle. -/
noncomputable def work : List Pt → List Pt
  | [] => []
  | p :: ps => (p :: ps) ++ superTri p (p :: ps)

/-- No determinant is positive and within the tolerance. -/
def Clear (ps : List Pt) : Prop := ∀ p ∈ work ps, ∀ a ∈ work ps, ∀ b ∈ work ps, ∀ c ∈ work ps, 0 < det p a b c → geomEps < det p a b c

theorem at_mem {wp : List Pt} {i : ℕ} (h : i < wp.length) : at' wp i ∈ wp := by
  rw [at', List.getD_eq_getElem _ _ h]; exact List.getElem_mem h

theorem at_append_left {a b : List Pt} {i : ℕ} (h : i < a.length) : at' (a ++ b) i = at' a i := by
  rw [at', at', List.getD_append _ _ _ _ h]

/-- The triangles after the loop. -/
theorem run {ps : List Pt} {p : Pt} {rest : List Pt} (hps : ps = p :: rest) (hc : Clear ps) :
    ∃ ts, forRange ps.length [((ps.length, ps.length + 1, ps.length + 2), true)] (insertPoint (work ps)) = .ret ts ∧
      Inv (at' (work ps)) (ps.length, ps.length + 1, ps.length + 2) ps.length (valid ts) ∧ 0 < A (at' (work ps)) (ps.length, ps.length + 1, ps.length + 2) := by
  obtain ⟨s1, s2, s3, es, hs, hin⟩ := superTri_spec p ps
  have hw : work ps = ps ++ [s1, s2, s3] := by rw [← es, hps]; rfl
  have hlen : (work ps).length = ps.length + 3 := by rw [hw]; simp
  have c1 : at' (work ps) ps.length = s1 := by rw [hw, at', List.getD_append_right _ _ _ _ le_rfl]; simp
  have c2 : at' (work ps) (ps.length + 1) = s2 := by rw [hw, at', List.getD_append_right _ _ _ _ (by omega)]; simp
  have c3 : at' (work ps) (ps.length + 2) = s3 := by rw [hw, at', List.getD_append_right _ _ _ _ (by omega)]; simp
  have hpt : ∀ i < ps.length, Inside (at' (work ps) i) s1 s2 s3 := fun i hi => hin _ (by rw [hw, at_append_left hi]; exact at_mem hi)
  set P := at' (work ps) with hP
  set s : Tri := (ps.length, ps.length + 1, ps.length + 2) with hsd
  have hA : 0 < A P s := by rw [A, hsd]; simp only [c1, c2, c3]; exact hs
  have hQ : ∀ k ≤ ps.length, ∀ q, Q s k q → q < (work ps).length ∧ InsideEq (P q) (P s.1) (P s.2.1) (P s.2.2) := by
    intro k hk q hq
    have e1 : P s.1 = s1 := c1
    have e2 : P s.2.1 = s2 := c2
    have e3 : P s.2.2 = s3 := c3
    have z : ∀ x y : Pt, area2 x y x = 0 := fun x y => by simp only [area2]; ring
    have z' : ∀ x y : Pt, area2 x y y = 0 := fun x y => by simp only [area2]; ring
    have r1 := area2_rot s1 s2 s3
    have r2 := area2_rot s2 s3 s1
    rcases hq with h | h | h | h
    · obtain ⟨i1, i2, i3⟩ := hpt q (by omega)
      exact ⟨by omega, by rw [e1, e2, e3]; exact ⟨i1.le, i2.le, i3.le⟩⟩
    · refine ⟨by rw [h, hlen]; simp only [hsd]; omega, ?_⟩
      rw [e1, e2, e3, h, e1]; exact ⟨(z _ _).ge, by rw [r1]; exact hs.le, (z' _ _).ge⟩
    · refine ⟨by rw [h, hlen]; simp only [hsd]; omega, ?_⟩
      rw [e1, e2, e3, h, e2]; exact ⟨(z' _ _).ge, (z _ _).ge, by rw [r2, r1]; exact hs.le⟩
    · refine ⟨by rw [h, hlen]; simp only [hsd]; omega, ?_⟩
      rw [e1, e2, e3, h, e3]; exact ⟨hs.le, (z' _ _).ge, (z _ _).ge⟩
  obtain ⟨ts, h1, h2⟩ := forRange_rule (fun k ts => Inv P s k (valid ts)) ps.length [(s, true)] (insertPoint (work ps))
    (by
      refine ⟨fun f _ => rfl, fun t ht => ?_, fun t ht q hq => ?_, fun t ht => ?_⟩ <;>
        rw [show valid [(s, true)] = [s] from rfl, List.mem_singleton] at ht <;> subst ht
      · exact hA
      · rcases hq with h | h | h | h
        · omega
        · rw [h, D, det]; exact le_of_eq (by ring)
        · rw [h, D, det]; exact le_of_eq (by ring)
        · rw [h, D, det]; exact le_of_eq (by ring)
      · exact ⟨Or.inr (Or.inl rfl), Or.inr (Or.inr (Or.inl rfl)), Or.inr (Or.inr (Or.inr rfl))⟩)
    (by
      intro i ts hi hinv
      have hidx : ∀ t ∈ valid ts, t.1 < (work ps).length ∧ t.2.1 < (work ps).length ∧ t.2.2 < (work ps).length := fun t ht =>
        ⟨(hQ i hi.le _ (hinv.idx t ht).1).1, (hQ i hi.le _ (hinv.idx t ht).2.1).1, (hQ i hi.le _ (hinv.idx t ht).2.2).1⟩
      refine ⟨_, by rw [insertPoint, index_at (by omega), Outcome.bind_ret, marks_eq hidx, Outcome.bind_ret], ?_⟩
      have := hinv.step hA (by rw [In]; exact (by rw [show P s.1 = s1 from c1, show P s.2.1 = s2 from c2, show P s.2.2 = s3 from c3]; exact hpt i hi))
        (fun q hq => (hQ i hi.le q hq).2) (test (work ps) (P i)) (by
          intro t ht
          obtain ⟨g1, g2, g3⟩ := hidx t ht
          rw [test, inCircle]
          refine ⟨fun h => lt_trans (by norm_num [geomEps]) (of_decide_eq_true h), fun h => ?_⟩
          by_contra hd
          exact (of_decide_eq_false h) (hc _ (at_mem (by omega)) _ (at_mem g1) _ (at_mem g2) _ (at_mem g3) (not_le.1 hd)))
      rw [valid_append, invalidate_eq, bad_eq, show ((boundary ((valid ts).filter (test (work ps) (at' (work ps) i)))).map (fun e => ((i, e.1, e.2), true))) =
        ((boundary ((valid ts).filter (test (work ps) (at' (work ps) i)))).map (fun e => (i, e.1, e.2))).map (fun t => (t, true)) by rw [List.map_map]; rfl, valid_new]
      exact this)
  exact ⟨ts, h1, h2, hA⟩

end Verif.CompGeo.Del
