import Verif.CompGeo.VoronoiClip
import Verif.CompGeo.DelaunayQuery
import Mathlib.Tactic

/-!
# Voronoi diagrams: construction
-/

set_option autoImplicit false

namespace Verif.CompGeo.Vor
open Del (Tri Corners EmptyCircle sqd euclid_sqd sqd_nonneg edgesOf key Clear work)

/-! ## Circumcentres -/

theorem ccDenom_area2 (a b c : Pt) : ccDenom a b c = 2 * area2 a b c := by
  simp only [ccDenom, area2]
  first | done | ring

/-- The circumcentre of a triangle that is not flat is as far from all three corners. -/
theorem circumcenter_spec {a b c : Pt} (h : 1 / 10 ^ 14 ≤ |2 * area2 a b c|) :
    euclid (circumcenter a b c) b = euclid (circumcenter a b c) a ∧ euclid (circumcenter a b c) c = euclid (circumcenter a b c) a := by
  have hne : ccDenom a b c ≠ 0 := by
    rw [ccDenom_area2]
    intro h0
    rw [h0, abs_zero] at h
    norm_num at h
  rw [circumcenter, if_neg (by rw [ccDenom_area2, not_lt]; exact h)]
  rw [euclid_sqd, euclid_sqd, euclid_sqd]
  constructor <;> congr 1 <;> simp only [sqd] <;> field_simp <;> simp only [ccDenom] <;> ring

theorem circum_unique {a b c o o' : Pt} (h : area2 a b c ≠ 0) (h1 : sqd o b = sqd o a) (h2 : sqd o c = sqd o a) (h1' : sqd o' b = sqd o' a) (h2' : sqd o' c = sqd o' a) : o = o' := by
  simp only [sqd] at h1 h2 h1' h2'
  simp only [area2] at h
  have e1 : (o.1 - o'.1) * (b.1 - a.1) + (o.2 - o'.2) * (b.2 - a.2) = 0 := by nlinarith
  have e2 : (o.1 - o'.1) * (c.1 - a.1) + (o.2 - o'.2) * (c.2 - a.2) = 0 := by nlinarith
  have e3 : (o.1 - o'.1) = 0 := by
    apply (mul_eq_zero.1 _).resolve_right h
    linear_combination (c.2 - a.2) * e1 - (b.2 - a.2) * e2
  have e4 : (o.2 - o'.2) = 0 := by
    apply (mul_eq_zero.1 _).resolve_right h
    linear_combination (b.1 - a.1) * e2 - (c.1 - a.1) * e1
  exact Prod.ext (by linarith) (by linarith)

theorem sqd_of_euclid {x p y q : Pt} (h : euclid x p = euclid y q) : sqd x p = sqd y q := by rw [← euclid_sq, ← euclid_sq, h]

/-! ## The loops -/

theorem centersOf_spec {ps : List Pt} : ∀ {T : List Tri}, (∀ t ∈ T, t.1 < ps.length ∧ t.2.1 < ps.length ∧ t.2.2 < ps.length) →
    ∃ vs, centersOf ps T = .ret vs ∧ vs.length = T.length ∧ ∀ (i : ℕ) (t : Tri) (a b c : Pt), T[i]? = some t → Corners ps t a b c → vs[i]? = some (circumcenter a b c) := by
  intro T
  induction T with
  | nil => exact fun _ => ⟨[], rfl, rfl, by simp⟩
  | cons t T ih =>
    intro h
    obtain ⟨vs, h1, h2, h3⟩ := ih fun t' ht' => h t' (List.mem_cons_of_mem _ ht')
    obtain ⟨g1, g2, g3⟩ := h t (by simp)
    have hc : Corners ps t ps[t.1] ps[t.2.1] ps[t.2.2] := ⟨List.getElem?_eq_getElem g1, List.getElem?_eq_getElem g2, List.getElem?_eq_getElem g3⟩
    refine ⟨circumcenter ps[t.1] ps[t.2.1] ps[t.2.2] :: vs, ?_, by simp [h2], ?_⟩
    · rw [centersOf, Del.corners_ret hc, Outcome.bind_ret, h1, Outcome.bind_ret]
    · intro i t' a b c hi hab
      cases i with
      | zero =>
        simp only [List.getElem?_cons_zero, Option.some.injEq] at hi
        subst hi
        obtain ⟨a1, a2, a3⟩ := hab
        rw [hc.1, Option.some.injEq] at a1
        rw [hc.2.1, Option.some.injEq] at a2
        rw [hc.2.2, Option.some.injEq] at a3
        rw [← a1, ← a2, ← a3]
        rfl
      | succ i => exact h3 i t' a b c (by simpa using hi) hab

theorem mem_jobs {T : List Tri} {j : Job} (h : j ∈ jobs T) : ∃ t, T[j.t]? = some t ∧ Del.side t j.e = (j.v1, j.v2) ∧ Del.IsRot t j.v1 j.v2 j.v3 := by
  rw [jobs, List.mem_flatMap] at h
  obtain ⟨⟨t, i⟩, hx, hj⟩ := h
  rw [List.mem_zipIdx_iff_getElem?] at hx
  simp only [jobsOf, List.mem_cons, List.not_mem_nil, or_false] at hj
  rcases hj with rfl | rfl | rfl
  · exact ⟨t, hx, rfl, .inl rfl⟩
  · exact ⟨t, hx, rfl, .inr (.inl rfl)⟩
  · exact ⟨t, hx, rfl, .inr (.inr rfl)⟩

theorem job_of {T : List Tri} {e : ℕ × ℕ} (h : e ∈ edgesOf T) : ∃ j ∈ jobs T, (j.v1, j.v2) = e := by
  rw [edgesOf, List.mem_flatMap] at h
  obtain ⟨t, ht, he⟩ := h
  obtain ⟨i, hi⟩ := List.getElem?_of_mem ht
  have hx : (t, i) ∈ T.zipIdx := List.mem_zipIdx_iff_getElem?.2 hi
  simp only [Del.sides, List.mem_cons, List.not_mem_nil, or_false] at he
  rcases he with rfl | rfl | rfl
  · exact ⟨⟨i, 0, t.1, t.2.1, t.2.2⟩, List.mem_flatMap.2 ⟨_, hx, by simp [jobsOf]⟩, rfl⟩
  · exact ⟨⟨i, 1, t.2.1, t.2.2, t.1⟩, List.mem_flatMap.2 ⟨_, hx, by simp [jobsOf]⟩, rfl⟩
  · exact ⟨⟨i, 2, t.2.2, t.1, t.2.1⟩, List.mem_flatMap.2 ⟨_, hx, by simp [jobsOf]⟩, rfl⟩

/-- The edge of a pass. -/
noncomputable def edgeFor (ps : List Pt) (nb : List (Fin 3 → ℤ)) (j : Job) (e : Edge) : Prop :=
  e.v1 = j.t ∧ e.site1 = j.v1 ∧ e.site2 = j.v2 ∧ ∃ f, nb[j.t]? = some f ∧
    ((0 ≤ f j.e ∧ e.v2 = f j.e) ∨ (f j.e < 0 ∧ e.v2 = -1 ∧ ∃ p1 p2 p3, ps[j.v1]? = some p1 ∧ ps[j.v2]? = some p2 ∧ ps[j.v3]? = some p3 ∧ e.dir = outward p1 p2 p3))

/-- The state of the loop: the edges belong to passes, their keys are those handled, without repetition; infinite cells are flagged. -/
structure EInv (ps : List Pt) (nb : List (Fin 3 → ℤ)) (all : List Job) (st : EState) : Prop where
  len : st.inf.length = ps.length
  from' : ∀ e ∈ st.edges, ∃ j ∈ all, edgeFor ps nb j e
  keys : ∀ k, k ∈ st.done ↔ ∃ e ∈ st.edges, key (e.site1, e.site2) = k
  once : (st.edges.map (fun e => key (e.site1, e.site2))).Nodup
  flag : ∀ e ∈ st.edges, e.v2 < 0 → st.inf[e.site1]? = some true ∧ st.inf[e.site2]? = some true

theorem store_true {l : List Bool} {i : ℕ} (h : i < l.length) : ∃ l', Outcome.store l i true = .ret l' ∧ l'.length = l.length ∧ l'[i]? = some true ∧
    ∀ k : ℕ, l[k]? = some true → l'[k]? = some true := by
  refine ⟨l.set i true, by rw [Outcome.store, if_pos h], by simp, by rw [List.getElem?_set_self h], ?_⟩
  intro k hk
  by_cases e : i = k
  · subst e; rw [List.getElem?_set_self h]
  · rw [List.getElem?_set_ne e]; exact hk

theorem index_ret {α : Type} {l : List α} {i : ℕ} {x : α} (h : l[i]? = some x) : Outcome.index l i = .ret x := by rw [Outcome.index, h]

theorem edgeStep_spec {ps : List Pt} {nb : List (Fin 3 → ℤ)} {all : List Job} {j : Job} (hj : j ∈ all) {st : EState} (h : EInv ps nb all st)
    (hv : j.v1 < ps.length ∧ j.v2 < ps.length ∧ j.v3 < ps.length) (ht : j.t < nb.length) :
    ∃ st', edgeStep ps.length ps nb j st = .ret st' ∧ EInv ps nb all st' ∧ key (j.v1, j.v2) ∈ st'.done ∧ (∀ k ∈ st.done, k ∈ st'.done) := by
  rw [edgeStep, if_neg (by omega)]
  by_cases hk : key (j.v1, j.v2) ∈ st.done
  · rw [if_pos hk]
    exact ⟨st, rfl, h, hk, fun k hk => hk⟩
  rw [if_neg hk, newEdge]
  obtain ⟨f, hf⟩ : ∃ f, nb[j.t]? = some f := ⟨_, List.getElem?_eq_getElem ht⟩
  rw [index_ret hf, Outcome.bind_ret]
  have hnew : ∀ e : Edge, e.site1 = j.v1 → e.site2 = j.v2 → ((st.edges ++ [e]).map (fun e => key (e.site1, e.site2))).Nodup := by
    intro e e1 e2
    rw [List.map_append, List.map_singleton, List.nodup_append]
    refine ⟨h.once, by simp, ?_⟩
    intro x hx y hy
    rw [List.mem_singleton] at hy
    rw [hy, e1, e2]
    rintro rfl
    apply hk
    rw [h.keys]
    rw [List.mem_map] at hx
    exact hx
  have hkeys : ∀ e : Edge, e.site1 = j.v1 → e.site2 = j.v2 → ∀ k, k ∈ key (j.v1, j.v2) :: st.done ↔ ∃ x ∈ st.edges ++ [e], key (x.site1, x.site2) = k := by
    intro e e1 e2 k
    rw [List.mem_cons, h.keys]
    constructor
    · rintro (rfl | ⟨x, hx, rfl⟩)
      · exact ⟨e, by simp, by rw [e1, e2]⟩
      · exact ⟨x, List.mem_append_left _ hx, rfl⟩
    · rintro ⟨x, hx, rfl⟩
      rcases List.mem_append.1 hx with hx | hx
      · exact .inr ⟨x, hx, rfl⟩
      · rw [List.mem_singleton] at hx
        subst hx
        exact .inl (by rw [e1, e2])
  by_cases h0 : 0 ≤ f j.e
  · rw [if_pos h0]
    refine ⟨_, rfl, ⟨h.len, ?_, hkeys _ rfl rfl, hnew _ rfl rfl, ?_⟩, List.mem_cons_self, fun k hk => List.mem_cons_of_mem _ hk⟩
    · intro e he
      rcases List.mem_append.1 he with he | he
      · exact h.from' e he
      · rw [List.mem_singleton] at he
        subst he
        exact ⟨j, hj, rfl, rfl, rfl, f, hf, .inl ⟨h0, rfl⟩⟩
    · intro e he hneg
      rcases List.mem_append.1 he with he | he
      · exact h.flag e he hneg
      · rw [List.mem_singleton] at he
        subst he
        exact absurd h0 (not_le.2 hneg)
  · rw [if_neg h0, openEdge]
    obtain ⟨i1, g1, g2, g3, g4⟩ := store_true (l := st.inf) (i := j.v1) (by rw [h.len]; exact hv.1)
    obtain ⟨i2, g5, g6, g7, g8⟩ := store_true (l := i1) (i := j.v2) (by rw [g2, h.len]; exact hv.2.1)
    obtain ⟨p1, hp1⟩ : ∃ f, ps[j.v1]? = some f := ⟨_, List.getElem?_eq_getElem hv.1⟩
    obtain ⟨p2, hp2⟩ : ∃ f, ps[j.v2]? = some f := ⟨_, List.getElem?_eq_getElem hv.2.1⟩
    obtain ⟨p3, hp3⟩ : ∃ f, ps[j.v3]? = some f := ⟨_, List.getElem?_eq_getElem hv.2.2⟩
    rw [g1, Outcome.bind_ret, g5, Outcome.bind_ret, index_ret hp1, Outcome.bind_ret, index_ret hp2, Outcome.bind_ret, index_ret hp3, Outcome.bind_ret]
    refine ⟨_, rfl, ⟨by rw [g6, g2, h.len], ?_, hkeys _ rfl rfl, hnew _ rfl rfl, ?_⟩, List.mem_cons_self, fun k hk => List.mem_cons_of_mem _ hk⟩
    · intro e he
      rcases List.mem_append.1 he with he | he
      · exact h.from' e he
      · rw [List.mem_singleton] at he
        subst he
        exact ⟨j, hj, rfl, rfl, rfl, f, hf, .inr ⟨not_le.1 h0, rfl, p1, p2, p3, hp1, hp2, hp3, rfl⟩⟩
    · intro e he hneg
      rcases List.mem_append.1 he with he | he
      · exact ⟨g8 _ (g4 _ (h.flag e he hneg).1), g8 _ (g4 _ (h.flag e he hneg).2)⟩
      · rw [List.mem_singleton] at he
        subst he
        exact ⟨g8 _ g3, g7⟩

theorem edgeLoop_spec {ps : List Pt} {nb : List (Fin 3 → ℤ)} {all : List Job} : ∀ {js : List Job}, (∀ j ∈ js, j ∈ all ∧ (j.v1 < ps.length ∧ j.v2 < ps.length ∧ j.v3 < ps.length) ∧ j.t < nb.length) →
    ∀ {st : EState}, EInv ps nb all st → ∃ st', edgeLoop ps.length ps nb js st = .ret st' ∧ EInv ps nb all st' ∧ (∀ j ∈ js, key (j.v1, j.v2) ∈ st'.done) ∧ ∀ k ∈ st.done, k ∈ st'.done := by
  intro js
  induction js with
  | nil => exact fun _ st h => ⟨st, rfl, h, by simp, fun _ h => h⟩
  | cons j js ih =>
    intro hjs st h
    obtain ⟨g1, g2, g3⟩ := hjs j (by simp)
    obtain ⟨s1, e1, h1, k1, k2⟩ := edgeStep_spec g1 h g2 g3
    obtain ⟨s2, e2, h2, k3, k4⟩ := ih (fun j hj => hjs j (List.mem_cons_of_mem _ hj)) h1
    refine ⟨s2, by rw [edgeLoop, e1, Outcome.bind_ret, e2], h2, ?_, fun k hk => k4 k (k2 k hk)⟩
    intro x hx
    rcases List.mem_cons.1 hx with rfl | hx
    · exact k4 _ k1
    · exact k3 x hx

/-! ## Cells -/

theorem mem_siteTris {T : List Tri} {s i : ℕ} (h : i ∈ siteTris T s) : ∃ t, T[i]? = some t ∧ (t.1 = s ∨ t.2.1 = s ∨ t.2.2 = s) := by
  rw [siteTris, List.mem_flatMap] at h
  obtain ⟨⟨t, k⟩, hx, hm⟩ := h
  rw [List.mem_zipIdx_iff_getElem?] at hx
  rw [List.mem_map] at hm
  obtain ⟨v, hv, rfl⟩ := hm
  rw [List.mem_filter] at hv
  refine ⟨t, hx, ?_⟩
  simp only [List.mem_cons, List.not_mem_nil, or_false, decide_eq_true_eq] at hv
  rcases hv with ⟨rfl | rfl | rfl, h⟩
  · exact .inl h
  · exact .inr (.inl h)
  · exact .inr (.inr h)

theorem findNext_spec {f : Fin 3 → ℤ} : ∀ {l : List ℕ} {us : List Bool} {i k : ℕ}, findNext f l us i = some k → i ≤ k ∧ k < i + l.length := by
  intro l
  induction l with
  | nil => intro us i k h; cases us <;> simp [findNext] at h
  | cons c l ih =>
    intro us i k h
    cases us with
    | nil => simp [findNext] at h
    | cons u us =>
      rw [findNext] at h
      by_cases hu : u = true
      · rw [if_pos hu] at h
        have := ih h
        simp only [List.length_cons]
        omega
      · rw [if_neg hu] at h
        by_cases ht : touches f c = true
        · rw [if_pos ht, Option.some.injEq] at h
          simp only [List.length_cons]
          omega
        · rw [if_neg ht] at h
          have := ih h
          simp only [List.length_cons]
          omega

theorem chain_spec {nb : List (Fin 3 → ℤ)} {tris : List ℕ} (hb : ∀ t ∈ tris, t < nb.length) : ∀ (k : ℕ) (ordered : List ℕ) (last : ℕ) (used : List Bool),
    (∀ t ∈ ordered, t ∈ tris) → last ∈ tris → ∃ o g, chain nb tris k ordered last used = .ret (o, g) ∧ ∀ t ∈ o, t ∈ tris := by
  intro k
  induction k with
  | zero => exact fun o _ _ h _ => ⟨o, false, rfl, h⟩
  | succ k ih =>
    intro o last used h hl
    obtain ⟨f, hf⟩ : ∃ f, nb[last]? = some f := ⟨_, List.getElem?_eq_getElem (hb last hl)⟩
    rw [chain, index_ret hf, Outcome.bind_ret]
    cases hm : findNext f tris used 0 with
    | none => exact ⟨o, true, rfl, h⟩
    | some i =>
      have hi := (findNext_spec hm).2
      obtain ⟨c, hc⟩ : ∃ c, tris[i]? = some c := ⟨_, List.getElem?_eq_getElem (by omega)⟩
      have hct := List.mem_of_getElem? hc
      obtain ⟨o', g, e1, e2⟩ := ih (o ++ [c]) c (used.set i true) (by
        intro t ht
        rcases List.mem_append.1 ht with ht | ht
        · exact h t ht
        · rw [List.mem_singleton.1 ht]; exact hct) hct
      refine ⟨o', g, ?_, e2⟩
      dsimp only
      rw [index_ret hc, Outcome.bind_ret, e1]

theorem getLastD_mem {l : List ℕ} {d : ℕ} {P : ℕ → Prop} (hd : P d) (h : ∀ x ∈ l, P x) : P (l.getLastD d) := by
  cases l with
  | nil => exact hd
  | cons a l =>
    have e : (a :: l).getLastD d = (a :: l).getLast (by simp) := by simp [List.getLastD_eq_getLast?, List.getLast?_eq_getLast_of_ne_nil]
    rw [e]
    exact h _ (List.getLast_mem _)

theorem cellOf_spec {nb : List (Fin 3 → ℤ)} {tris : List ℕ} (hb : ∀ t ∈ tris, t < nb.length) :
    ∃ o g, cellOf nb tris = .ret (o, g) ∧ (∀ t ∈ o, t ∈ tris) ∧ (tris = [] → g = true) := by
  match tris, hb with
  | [], _ => exact ⟨[], true, rfl, by simp, fun _ => rfl⟩
  | t :: r, hb =>
    obtain ⟨o, g, e1, e2⟩ := chain_spec hb r.length [t] t (true :: r.map (fun _ => false)) (by simp) (by simp)
    rw [cellOf, e1, Outcome.bind_ret, notClosed]
    dsimp only
    by_cases hc : o.length = (t :: r).length ∧ 2 ≤ o.length
    · have hl : o.getLastD t < nb.length := getLastD_mem (P := fun x => x < nb.length) (hb t (by simp)) fun x hx => hb x (e2 x hx)
      obtain ⟨f, hf⟩ : ∃ f, nb[o.getLastD t]? = some f := ⟨_, List.getElem?_eq_getElem hl⟩
      rw [if_pos hc, index_ret hf, Outcome.bind_ret, Outcome.bind_ret]
      exact ⟨o, _, rfl, e2, by simp⟩
    · rw [if_neg hc, Outcome.bind_ret]
      exact ⟨o, _, rfl, e2, by simp⟩

theorem cellLoop_spec {nb : List (Fin 3 → ℤ)} {T : List Tri} {n : ℕ} {inf : List Bool} (hT : T.length = nb.length) (hi : inf.length = n) :
    ∃ cells inf', cellLoop nb T n inf = .ret (cells, inf') ∧ cells.length = n ∧ inf'.length = n ∧ (∀ s : ℕ, inf[s]? = some true → inf'[s]? = some true) ∧
      ∀ s c, cells[s]? = some c → (∀ t ∈ c, t ∈ siteTris T s) ∧ (siteTris T s = [] → inf'[s]? = some true) := by
  obtain ⟨⟨cells, inf'⟩, e, h1, h2, h3, h4⟩ := forRange_rule (fun k (x : List (List ℕ) × List Bool) => x.1.length = k ∧ x.2.length = n ∧
      (∀ s : ℕ, inf[s]? = some true → x.2[s]? = some true) ∧ ∀ s c, x.1[s]? = some c → (∀ t ∈ c, t ∈ siteTris T s) ∧ (siteTris T s = [] → x.2[s]? = some true)) n
      (([], inf) : List (List ℕ) × List Bool) (fun s i => do
        let c ← cellOf nb (siteTris T i)
        let inf ← if c.2 then Outcome.store s.2 i true else .ret s.2
        .ret (s.1 ++ [c.1], inf))
      ⟨rfl, hi, fun _ h => h, by simp⟩ (by
    rintro i ⟨cs, f⟩ hin ⟨h1, h2, h3, h4⟩
    dsimp only at h1 h2 h3 h4 ⊢
    obtain ⟨o, g, e1, e2, e3⟩ := cellOf_spec (nb := nb) (tris := siteTris T i) (fun t ht => by
      obtain ⟨x, hx, -⟩ := mem_siteTris ht
      rw [← hT]
      exact (List.getElem?_eq_some_iff.1 hx).1)
    have hcs : ∀ s c, (cs ++ [o])[s]? = some c → (cs[s]? = some c) ∨ (s = i ∧ c = o) := by
      intro s c hc
      by_cases hs : s < cs.length
      · rw [List.getElem?_append_left hs] at hc
        exact .inl hc
      · rw [List.getElem?_append_right (by omega)] at hc
        have : s - cs.length < 1 := by
          have := (List.getElem?_eq_some_iff.1 hc).1
          simpa using this
        have hs' : s = i := by omega
        subst hs'
        rw [h1, Nat.sub_self, List.getElem?_cons_zero, Option.some.injEq] at hc
        exact .inr ⟨rfl, hc.symm⟩
    rw [e1, Outcome.bind_ret]
    dsimp only
    cases g with
    | true =>
      obtain ⟨f', k1, k2, k3, k4⟩ := store_true (l := f) (i := i) (by omega)
      rw [if_pos rfl, k1, Outcome.bind_ret]
      refine ⟨_, rfl, by simp [h1], by rw [k2, h2], fun s hs => k4 s (h3 s hs), ?_⟩
      intro s c hc
      rcases hcs s c hc with h | ⟨rfl, rfl⟩
      · exact ⟨(h4 s c h).1, fun hh => k4 s ((h4 s c h).2 hh)⟩
      · exact ⟨e2, fun _ => k3⟩
    | false =>
      rw [if_neg (by simp), Outcome.bind_ret]
      refine ⟨_, rfl, by simp [h1], h2, h3, ?_⟩
      intro s c hc
      rcases hcs s c hc with h | ⟨rfl, rfl⟩
      · exact h4 s c h
      · exact ⟨e2, fun hh => absurd (e3 hh) (by simp)⟩)
  exact ⟨cells, inf', e, h1, h2, h3, h4⟩

/-! ## The diagram -/

/-- What the diagram has to do with the triangulation. -/
structure Dual (ps : List Pt) (m : Del.Mesh) (d : Diagram) : Prop where
  sites : d.sites = ps
  vlen : d.vertices.length = m.triangles.length
  verts : ∀ (i : ℕ) (t : Tri) (a b c : Pt), m.triangles[i]? = some t → Corners ps t a b c → d.vertices[i]? = some (circumcenter a b c)
  edge : ∀ e ∈ d.edges, ∃ j ∈ jobs m.triangles, edgeFor ps m.neighbors j e
  once : (d.edges.map (fun e => key (e.site1, e.site2))).Nodup
  all : ∀ e ∈ edgesOf m.triangles, ∃ x ∈ d.edges, key (x.site1, x.site2) = key e
  clen : d.cells.length = ps.length
  ilen : d.infinite.length = ps.length
  flag : ∀ e ∈ d.edges, e.v2 < 0 → d.infinite[e.site1]? = some true ∧ d.infinite[e.site2]? = some true
  cell : ∀ s c, d.cells[s]? = some c → (∀ t ∈ c, t ∈ siteTris m.triangles s) ∧ (siteTris m.triangles s = [] → d.infinite[s]? = some true)

theorem dual_spec {ps : List Pt} {m : Del.Mesh} (hp : m.points = ps) (hn : m.neighbors.length = m.triangles.length)
    (hT : ∀ t ∈ m.triangles, t.1 < ps.length ∧ t.2.1 < ps.length ∧ t.2.2 < ps.length) : ∃ d, dual ps m = .ret d ∧ Dual ps m d := by
  obtain ⟨vs, v1, v2, v3⟩ := centersOf_spec (ps := ps) hT
  obtain ⟨st, s1, s2, s3, -⟩ := edgeLoop_spec (ps := ps) (nb := m.neighbors) (all := jobs m.triangles) (js := jobs m.triangles) (fun j hj => by
    obtain ⟨t, h1, h2, h3⟩ := mem_jobs hj
    refine ⟨hj, ?_, by rw [hn]; exact (List.getElem?_eq_some_iff.1 h1).1⟩
    exact (Del.corner_rot h3 (fun v => v < ps.length)).1 (hT t (List.mem_of_getElem? h1))) (st := ⟨[], [], List.replicate ps.length false⟩)
    ⟨by simp, by simp, by simp, by simp, by simp⟩
  obtain ⟨cells, inf, c1, c2, c3, c4, c5⟩ := cellLoop_spec (nb := m.neighbors) (T := m.triangles) (n := ps.length) (inf := st.inf) hn.symm s2.len
  refine ⟨⟨ps, vs, st.edges, cells, inf⟩, ?_, rfl, v2, v3, s2.from', s2.once, ?_, c2, c3, ?_, c5⟩
  · rw [dual, hp, v1, Outcome.bind_ret, s1, Outcome.bind_ret, c1, Outcome.bind_ret]
  · intro e he
    obtain ⟨j, hj, hje⟩ := job_of he
    have := s3 j hj
    rw [s2.keys, hje] at this
    exact this
  · intro e he hneg
    exact ⟨c4 _ (s2.flag e he hneg).1, c4 _ (s2.flag e he hneg).2⟩

theorem compute_many {ps : List Pt} (h : 3 ≤ ps.length) : compute ps = (do
    let m ← Del.compute ps
    if m.triangles.length = 0 then .ret (noCells ps) else dual ps m) := by
  match ps, h with
  | _ :: _ :: _ :: _, _ => rfl

/-- **C133.**  `ComputeVoronoi` returns for every list of points.  The sites are the points; there is a cell and a flag for every site; the vertices of a cell and the ends of
the edges are indexes of vertices or -1, the sites of an edge are indexes of sites. -/
theorem compute_total (ps : List Pt) : ∃ d, compute ps = .ret d ∧ d.sites = ps ∧ d.cells.length = ps.length ∧ d.infinite.length = ps.length ∧
    (∀ c ∈ d.cells, ∀ v ∈ c, v < d.vertices.length) ∧
    ∀ e ∈ d.edges, e.site1 < ps.length ∧ e.site2 < ps.length ∧ -1 ≤ e.v1 ∧ e.v1 < d.vertices.length := by
  rcases Nat.lt_or_ge ps.length 3 with h3 | h3
  · match ps, h3 with
    | [], _ => exact ⟨_, rfl, rfl, rfl, rfl, by simp [noCells], by simp [noCells]⟩
    | [_], _ => exact ⟨_, rfl, rfl, rfl, rfl, by simp [noCells], by simp [noCells]⟩
    | [_, _], _ => exact ⟨_, rfl, rfl, rfl, rfl, by simp, by simp⟩
  rw [compute_many h3]
  obtain ⟨m, hm, hp, hn, hT, -⟩ := Del.compute_total ps
  rw [hm, Outcome.bind_ret]
  by_cases h0 : m.triangles.length = 0
  · rw [if_pos h0]
    exact ⟨_, rfl, rfl, by simp [noCells], by simp [noCells], by simp [noCells], by simp [noCells]⟩
  · rw [if_neg h0]
    obtain ⟨d, e, hd⟩ := dual_spec hp hn hT
    refine ⟨d, e, hd.sites, hd.clen, hd.ilen, ?_, ?_⟩
    · intro c hc v hv
      obtain ⟨s, hs⟩ := List.getElem?_of_mem hc
      obtain ⟨t, ht, -⟩ := mem_siteTris ((hd.cell s c hs).1 v hv)
      rw [hd.vlen]
      exact (List.getElem?_eq_some_iff.1 ht).1
    · intro x hx
      obtain ⟨j, hj, h1, h2, h3, -⟩ := hd.edge x hx
      obtain ⟨t, ht, -, hr⟩ := mem_jobs hj
      obtain ⟨b1, b2, -⟩ := (Del.corner_rot hr (fun v => v < ps.length)).1 (hT t (List.mem_of_getElem? ht))
      have := (List.getElem?_eq_some_iff.1 ht).1
      rw [hd.vlen, h1, h2, h3]
      exact ⟨b1, b2, by omega, by omega⟩

end Verif.CompGeo.Vor
