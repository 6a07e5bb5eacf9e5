import Verif.Interp.PolyProps
import Verif.Hoare

/-!
# The rational interpolation (C85)
-/

set_option autoImplicit false

namespace Verif.Interp

open Verif

/-- C85: a point of an ordered table is returned with the value given and an estimate of zero. -/
theorem rat_node (n : ℕ) (x y : ℕ → ℝ) (hx : Increasing n x ∨ Decreasing n x) (used : ℤ) (t : Table)
    (h : Table.new (tab n x) (tab n y) used = .ret t) (k : ℕ) (hk : k < n) : ratEval t (x k) = .ret (y k, 0) := by
  obtain ⟨h1, h2⟩ := locate_node n x _ hx used t h k hk
  have hwin := locate_window _ _ _ _ h (x k)
  rw [length_tab] at hwin
  have hd : Distinct n x := hx.elim (fun h => h.ordered.distinct) fun h => h.ordered.distinct
  have ht : t.x = tab n x ∧ t.y = tab n y := by
    rw [table_new_spec] at h
    split at h
    · cases h
      exact ⟨rfl, rfl⟩
    · cases h
  rw [ratEval, ratCalc, Table.X, ht.1, index_tab x (by omega), Outcome.bind_ret]
  obtain ⟨r, hr, hP⟩ := forRange_rule
    (fun m (r : Integ.Start ⊕ ℝ) => (m ≤ k - t.locate (x k) → ∃ s, r = .inl s ∧ s.c.length = t.used ∧ s.d.length = t.used) ∧
      (k - t.locate (x k) < m → r = .inr (y k))) t.used
    (.inl ⟨0, |x k - x (t.locate (x k))|, List.replicate t.used 0, List.replicate t.used 0⟩) (ratStart t (t.locate (x k)) (x k))
    ⟨fun _ => ⟨_, rfl, List.length_replicate, List.length_replicate⟩, fun h => by omega⟩ (fun i r hi hP => by
      rcases Nat.lt_trichotomy (t.locate (x k) + i) k with hl | hl | hl
      · obtain ⟨s, rfl, hc, hdl⟩ := hP.1 (by omega)
        have hne : |x k - x (t.locate (x k) + i)| ≠ 0 := by
          rw [abs_ne_zero, sub_ne_zero]
          exact (hd _ _ hl hk).symm
        have e1 : (Integ.nearest s i |x k - x (t.locate (x k) + i)|).c = s.c := by rw [Integ.nearest]; split_ifs <;> rfl
        have e2 : (Integ.nearest s i |x k - x (t.locate (x k) + i)|).d = s.d := by rw [Integ.nearest]; split_ifs <;> rfl
        refine ⟨.inl ⟨(Integ.nearest s i |x k - x (t.locate (x k) + i)|).ns, (Integ.nearest s i |x k - x (t.locate (x k) + i)|).dif,
          s.c.set i (y (t.locate (x k) + i)), s.d.set i (y (t.locate (x k) + i) + tiny)⟩, ?_, fun _ => ⟨_, rfl, ?_, ?_⟩, fun h => by omega⟩
        · rw [ratStart]
          rw [Table.X, Table.Y, ht.1, ht.2, index_tab x (by omega), Outcome.bind_ret, index_tab y (by omega), Outcome.bind_ret, if_neg hne,
            e1, e2, Outcome.store, if_pos (by omega), Outcome.bind_ret, Outcome.store, if_pos (by omega), Outcome.bind_ret]
        · rw [List.length_set, hc]
        · rw [List.length_set, hdl]
      · obtain ⟨s, rfl, hc, hdl⟩ := hP.1 (by omega)
        refine ⟨.inr (y k), ?_, fun h => by omega, fun _ => rfl⟩
        rw [ratStart]
        rw [Table.X, Table.Y, ht.1, ht.2, index_tab x (by omega), Outcome.bind_ret, index_tab y (by omega), Outcome.bind_ret, hl,
          sub_self, abs_zero, if_pos rfl]
      · rw [hP.2 (by omega)]
        exact ⟨.inr (y k), rfl, fun h => by omega, fun _ => rfl⟩)
  rw [hr, Outcome.bind_ret, hP.2 (by omega)]

/-- C85: an evaluation either returns a value or reports a pole; it never divides by zero and never reads outside the table. -/
theorem rat_total (n : ℕ) (x y : ℕ → ℝ) (used : ℤ) (t : Table) (h : Table.new (tab n x) (tab n y) used = .ret t) (z : ℝ) :
    (∃ v e, ratEval t z = .ret (v, e)) ∨ ratEval t z = .exn (.mml "RealFuncInterpRuntimeError") := by
  suffices hs : (ratEval t z).Sat (fun _ => True) fun e => e = .mml "RealFuncInterpRuntimeError" by
    cases hv : ratEval t z with
    | ret a => exact Or.inl ⟨a.1, a.2, rfl⟩
    | exn e =>
      rw [hv] at hs
      exact Or.inr (congrArg _ hs)
    | ub =>
      rw [hv] at hs
      exact hs.elim
  have hwin := locate_window _ _ _ _ h z
  rw [length_tab] at hwin
  have ht : t.x = tab n x ∧ t.y = tab n y ∧ 2 ≤ t.used := by
    rw [table_new_spec] at h
    split at h
    · rename_i hc
      cases h
      exact ⟨rfl, rfl, by dsimp only; omega⟩
    · cases h
  obtain ⟨hx, hy, hu⟩ := ht
  rw [ratEval, ratCalc, Table.X, hx, index_tab x (by omega), Outcome.bind_ret]
  generalize hs0 : t.locate z = s0 at hwin ⊢
  refine (forRange_sat (fun m (r : Integ.Start ⊕ ℝ) => ∀ s, r = .inl s → s.c.length = t.used ∧ s.d.length = t.used ∧ s.ns < t.used ∧
    ∀ i < m, x (s0 + i) ≠ z) _ t.used _ _ ?_ ?_).bind fun r hr => ?_
  · rintro s ⟨⟩
    exact ⟨List.length_replicate, List.length_replicate, by dsimp only; omega, fun i hi => by omega⟩
  · intro i r hi hP
    rcases r with s | v
    · obtain ⟨hc, hd, hns, hne⟩ := hP s rfl
      have e1 : (Integ.nearest s i |z - x (s0 + i)|).c = s.c := by rw [Integ.nearest]; split_ifs <;> rfl
      have e2 : (Integ.nearest s i |z - x (s0 + i)|).d = s.d := by rw [Integ.nearest]; split_ifs <;> rfl
      have e3 : (Integ.nearest s i |z - x (s0 + i)|).ns < t.used := by rw [Integ.nearest]; split_ifs <;> assumption
      rw [ratStart]
      rw [Table.X, Table.Y, hx, hy, index_tab x (by omega), Outcome.bind_ret, index_tab y (by omega), Outcome.bind_ret]
      split_ifs with h0
      · exact Outcome.sat_ret fun s hs => by cases hs
      · rw [e1, e2, Outcome.store, if_pos (by omega), Outcome.bind_ret, Outcome.store, if_pos (by omega), Outcome.bind_ret]
        refine Outcome.sat_ret fun s' hs' => ?_
        cases hs'
        refine ⟨?_, ?_, e3, fun j hj => ?_⟩
        · rw [List.length_set, hc]
        · rw [List.length_set, hd]
        · rcases Nat.lt_succ_iff_lt_or_eq.1 hj with hj | rfl
          · exact hne j hj
          · intro h1
            apply h0
            rw [h1, sub_self, abs_zero]
    · exact Outcome.sat_ret fun s hs => by cases hs
  · rcases r with s | v
    · obtain ⟨hc, hd, hns, hne⟩ := hr s rfl
      dsimp only
      rw [Table.Y, hy, index_tab y (by omega), Outcome.bind_ret]
      refine (forFromTo_sat (fun m (tb : Integ.Tableau) => tb.c.length = t.used ∧ tb.d.length = t.used ∧ -1 ≤ tb.ns ∧ tb.ns ≤ (t.used : ℤ) - m - 1) _
        1 t.used (by omega) _ _ ?_ ?_).bind fun r hr => Outcome.sat_ret trivial
      · dsimp only
        exact ⟨hc, hd, by omega, by push_cast; omega⟩
      · intro m tb hm1 hm2 ⟨hc', hd', hn1, hn2⟩
        rw [ratColumn]
        refine (forRange_sat (fun _ (cd : List ℝ × List ℝ) => cd.1.length = t.used ∧ cd.2.length = t.used) _ (t.used - m) _ _ ⟨hc', hd'⟩ ?_).bind
          fun cd hcd => ?_
        · intro i cd hi ⟨h1, h2⟩
          obtain ⟨c1, hc1⟩ : ∃ v, Outcome.index cd.1 (i + 1) = .ret v :=
            ⟨cd.1[i + 1], by rw [Outcome.index, List.getElem?_eq_getElem (by omega)]⟩
          obtain ⟨d0, hd0⟩ : ∃ v, Outcome.index cd.2 i = .ret v := ⟨cd.2[i], by rw [Outcome.index, List.getElem?_eq_getElem (by omega)]⟩
          have hxm : x (s0 + i + m) - z ≠ 0 := by
            rw [Nat.add_assoc]
            exact sub_ne_zero.mpr (hne (i + m) (by omega))
          rw [ratEntry, hc1, Outcome.bind_ret, hd0, Outcome.bind_ret, Table.X, hx, index_tab x (by omega), Outcome.bind_ret, Table.X, hx,
            index_tab x (by omega), Outcome.bind_ret, fdiv, if_neg hxm, Outcome.bind_ret]
          split_ifs
          · exact Outcome.sat_exn rfl
          · rw [Outcome.store, if_pos (by omega), Outcome.bind_ret, Outcome.store, if_pos (by omega), Outcome.bind_ret]
            refine Outcome.sat_ret ⟨?_, ?_⟩
            · rw [List.length_set, h1]
            · rw [List.length_set, h2]
        · obtain ⟨h1, h2⟩ := hcd
          rw [Integ.correct]
          split_ifs with hlt
          · rw [Integ.indexInt, if_neg (by omega), Outcome.index, List.getElem?_eq_getElem (by omega)]
            dsimp only
            rw [Outcome.bind_ret]
            exact Outcome.sat_ret ⟨h1, h2, hn1, by push_cast; omega⟩
          · rw [Integ.indexInt, if_neg (by omega), Outcome.index, List.getElem?_eq_getElem (by omega)]
            dsimp only
            rw [Outcome.bind_ret]
            exact Outcome.sat_ret ⟨h1, h2, by dsimp only; omega, by dsimp only; push_cast; omega⟩
    · exact Outcome.sat_ret trivial

/-- The value at `z` of the reciprocal of a straight line which is `y0` at `x0` and `y1` at `x1`. -/
noncomputable def reciprocalLine (x0 y0 x1 y1 z : ℝ) : ℝ := y0 * y1 * (x1 - x0) / (y1 * (x1 - z) + y0 * (z - x0))

/-- Its reciprocal is a straight line. -/
theorem reciprocalLine_line (x0 y0 x1 y1 z : ℝ) (hx : x0 ≠ x1) (h0 : y0 ≠ 0) (h1 : y1 ≠ 0) :
    (reciprocalLine x0 y0 x1 y1 z)⁻¹ = lineThrough x0 y0⁻¹ x1 y1⁻¹ z := by
  have : x1 - x0 ≠ 0 := sub_ne_zero.mpr hx.symm
  rw [reciprocalLine, lineThrough, inv_div]
  field_simp

theorem recip_aux₁ (x0 x1 y0 y1 τ z : ℝ) (h1 : x1 - z ≠ 0) (hz : y1 * (x1 - z) + (y0 + τ) * (z - x0) ≠ 0) :
    y1 + y1 * ((y1 - (y0 + τ)) / ((x0 - z) * (y0 + τ) / (x1 - z) - y1)) = reciprocalLine x0 (y0 + τ) x1 y1 z := by
  have e : (x0 - z) * (y0 + τ) / (x1 - z) - y1 = -(y1 * (x1 - z) + (y0 + τ) * (z - x0)) / (x1 - z) := by
    field_simp
    ring
  rw [e, reciprocalLine, eq_div_iff hz, div_div_eq_mul_div, add_mul, mul_assoc, div_neg, neg_mul, div_mul_cancel₀ _ hz]
  ring

theorem recip_aux₂ (x0 x1 y0 y1 τ z : ℝ) (h1 : x1 - z ≠ 0) (hz : y1 * (x1 - z) + (y0 + τ) * (z - x0) ≠ 0) :
    y0 + (x0 - z) * (y0 + τ) / (x1 - z) * ((y1 - (y0 + τ)) / ((x0 - z) * (y0 + τ) / (x1 - z) - y1)) =
      reciprocalLine x0 (y0 + τ) x1 y1 z - τ := by
  rw [← recip_aux₁ x0 x1 y0 y1 τ z h1 hz]
  have e : (x0 - z) * (y0 + τ) / (x1 - z) - y1 ≠ 0 := by
    have : (x0 - z) * (y0 + τ) / (x1 - z) - y1 = -(y1 * (x1 - z) + (y0 + τ) * (z - x0)) / (x1 - z) := by
      field_simp
      ring
    rw [this]
    exact div_ne_zero (neg_ne_zero.mpr hz) h1
  generalize (x0 - z) * (y0 + τ) / (x1 - z) = t at e ⊢
  field_simp
  ring

/-- C85: with two points the value is, up to the constant `1e-99` which the code adds against a division of zero by zero, the reciprocal
of a straight line through the two points; the error is reported where that has its pole. -/
theorem rat_two (n : ℕ) (x y : ℕ → ℝ) (t : Table) (h : Table.new (tab n x) (tab n y) 2 = .ret t) (z : ℝ) (i : ℕ) (hi : t.locate z = i)
    (h0 : z ≠ x i) (h1 : z ≠ x (i + 1)) :
    if y (i + 1) * (x (i + 1) - z) + (y i + 1 / 10 ^ 99) * (z - x i) = 0 then
      ratEval t z = .exn (.mml "RealFuncInterpRuntimeError")
    else ∃ v e, ratEval t z = .ret (v, e) ∧
      (v = reciprocalLine (x i) (y i + 1 / 10 ^ 99) (x (i + 1)) (y (i + 1)) z ∨
       v = reciprocalLine (x i) (y i + 1 / 10 ^ 99) (x (i + 1)) (y (i + 1)) z - 1 / 10 ^ 99) := by
  have hwin := locate_window _ _ _ _ h z
  rw [length_tab, hi] at hwin
  have ht : t = ⟨tab n x, tab n y, 2⟩ := by
    rw [table_new_spec] at h
    split at h
    · cases h
      rfl
    · cases h
  have hn : i + 1 < n := by
    rw [ht] at hwin
    dsimp only at hwin
    omega
  have a0 : z - x i ≠ 0 := sub_ne_zero.mpr h0
  have a1 : x (i + 1) - z ≠ 0 := sub_ne_zero.mpr h1.symm
  have a2 : |z - x i| ≠ 0 := abs_ne_zero.mpr a0
  have a3 : |z - x (i + 1)| ≠ 0 := abs_ne_zero.mpr (sub_ne_zero.mpr h1)
  have i0 : (tab n x)[i]? = some (x i) := by rw [getElem?_tab, if_pos (by omega)]
  have i1 : (tab n x)[i + 1]? = some (x (i + 1)) := by rw [getElem?_tab, if_pos hn]
  have j0 : (tab n y)[i]? = some (y i) := by rw [getElem?_tab, if_pos (by omega)]
  have j1 : (tab n y)[i + 1]? = some (y (i + 1)) := by rw [getElem?_tab, if_pos hn]
  have key : (x i - z) * (y i + tiny) / (x (i + 1) - z) - y (i + 1) = 0 ↔
      y (i + 1) * (x (i + 1) - z) + (y i + 1 / 10 ^ 99) * (z - x i) = 0 := by
    rw [div_sub' a1, div_eq_zero_iff, or_iff_left a1, tiny]
    constructor <;> intro h <;> linarith
  have hev : ratEval t z = if y (i + 1) * (x (i + 1) - z) + (y i + 1 / 10 ^ 99) * (z - x i) = 0 then .exn (.mml "RealFuncInterpRuntimeError")
      else if |z - x (i + 1)| < |z - x i| then
        .ret (y (i + 1) + y (i + 1) * ((y (i + 1) - (y i + tiny)) / ((x i - z) * (y i + tiny) / (x (i + 1) - z) - y (i + 1))),
          y (i + 1) * ((y (i + 1) - (y i + tiny)) / ((x i - z) * (y i + tiny) / (x (i + 1) - z) - y (i + 1))))
      else
        .ret (y i + (x i - z) * (y i + tiny) / (x (i + 1) - z) * ((y (i + 1) - (y i + tiny)) / ((x i - z) * (y i + tiny) / (x (i + 1) - z) - y (i + 1))),
          (x i - z) * (y i + tiny) / (x (i + 1) - z) * ((y (i + 1) - (y i + tiny)) / ((x i - z) * (y i + tiny) / (x (i + 1) - z) - y (i + 1)))) := by
    rw [ratEval, hi, ht]
    simp only [← key]
    by_cases hlt : |z - x (i + 1)| < |z - x i| <;> by_cases hz : (x i - z) * (y i + tiny) / (x (i + 1) - z) - y (i + 1) = 0 <;>
    simp [ratCalc, Table.X, Table.Y, i0, i1, j0, j1, forRange, forFromTo, ratStart, Integ.nearest, a0, sub_ne_zero.mpr h1, hlt, hz, Outcome.store, Outcome.index,
      ratColumn, ratEntry, fdiv, a1, Integ.correct, Integ.indexInt]
  rw [hev]
  split_ifs with hz hlt
  · trivial
  · exact ⟨_, _, rfl, Or.inl (recip_aux₁ _ _ _ _ _ _ a1 fun h => hz h)⟩
  · exact ⟨_, _, rfl, Or.inr (recip_aux₂ _ _ _ _ _ _ a1 fun h => hz h)⟩

/-- The hypotheses of `rat_node`, `rat_total` and `rat_two` are met. -/
example : ∃ t, Table.new (tab 3 fun i => (i : ℝ)) (tab 3 fun i => 1 / ((i : ℝ) + 1)) 2 = .ret t ∧ ratEval t 1 = .ret (1 / 2, 0) := by
  have hinc : Increasing 3 fun i => (i : ℝ) := fun i j hij _ => Nat.cast_lt.mpr hij
  have ht : Table.new (tab 3 fun i => (i : ℝ)) (tab 3 fun i => 1 / ((i : ℝ) + 1)) 2 =
      .ret ⟨tab 3 fun i => (i : ℝ), tab 3 fun i => 1 / ((i : ℝ) + 1), 2⟩ := by
    rw [table_new_spec, if_pos]
    · rfl
    simp only [length_tab]
    exact ⟨by norm_num, by norm_num, by norm_num, nodup_tab.mpr hinc.ordered.distinct⟩
  have := rat_node 3 _ _ (Or.inl hinc) 2 _ ht 1 (by norm_num)
  norm_num at this
  exact ⟨_, ht, by norm_num; exact this⟩

end Verif.Interp
