import Verif.CompGeo.DelaunayProps

/-!
# Neighbours, border, point location and interpolation on a triangulation
-/

set_option autoImplicit false

namespace Verif.CompGeo.Del
open Wind (up cr tri Inside InsideEq area2_swap area2_rot area2_split)

/-! ## Specification -/

/-- The side with number `j` of a triangle. -/
def side (t : Tri) : Fin 3 → ℕ × ℕ
  | 0 => (t.1, t.2.1)
  | 1 => (t.2.1, t.2.2)
  | 2 => (t.2.2, t.1)

/-- No directed edge belongs to two triangles of the list or joins a corner with itself. -/
def Proper (T : List Tri) : Prop := (edgesOf T).Nodup ∧ ∀ e ∈ edgesOf T, e.1 ≠ e.2

/-- All triangles of the mesh have their corners in the list of points and are counter-clockwise. -/
def Good (ps : List Pt) (T : List Tri) : Prop := ∀ t ∈ T, ∃ a b c, Corners ps t a b c ∧ 0 < area2 a b c

/-! ## Neighbours -/

theorem side_mem (t : Tri) (j : Fin 3) : side t j ∈ sides t := by
  fin_cases j <;> simp [side, sides]

theorem mem_side {t : Tri} {e : ℕ × ℕ} (h : e ∈ sides t) : ∃ j, e = side t j := by
  simp only [sides, List.mem_cons, List.not_mem_nil, or_false] at h
  rcases h with h | h | h
  · exact ⟨0, h⟩
  · exact ⟨1, h⟩
  · exact ⟨2, h⟩

theorem mem_slots {t : Tri} {i : ℕ} {x : (ℕ × ℕ) × Slot} : x ∈ slots t i ↔ ∃ j, x = (key (side t j), (i, j)) := by
  simp only [slots, List.mem_cons, List.not_mem_nil, or_false]
  constructor
  · rintro (h | h | h)
    · exact ⟨0, h⟩
    · exact ⟨1, h⟩
    · exact ⟨2, h⟩
  · rintro ⟨j, h⟩
    fin_cases j
    · exact Or.inl h
    · exact Or.inr (Or.inl h)
    · exact Or.inr (Or.inr h)

/-- All the sides with their keys. -/
def allSlots (T : List Tri) : List ((ℕ × ℕ) × Slot) := T.zipIdx.flatMap (fun x => slots x.1 x.2)

theorem mem_allSlots {T : List Tri} {k : ℕ × ℕ} {i : ℕ} {j : Fin 3} : (k, (i, j)) ∈ allSlots T ↔ ∃ t, T[i]? = some t ∧ k = key (side t j) := by
  rw [allSlots, List.mem_flatMap]
  constructor
  · rintro ⟨⟨t, i'⟩, h1, h2⟩
    obtain ⟨j', h2⟩ := mem_slots.1 h2
    rw [List.mem_zipIdx_iff_getElem?] at h1
    simp only [Prod.mk.injEq] at h2
    obtain ⟨e1, e2, e3⟩ := h2
    subst e2 e3
    exact ⟨t, h1, e1⟩
  · rintro ⟨t, h1, h2⟩
    exact ⟨(t, i), by rw [List.mem_zipIdx_iff_getElem?]; exact h1, mem_slots.2 ⟨j, by rw [h2]⟩⟩

theorem slots_nodup (T : List Tri) : ((allSlots T).map Prod.snd).Nodup := by
  have h : ∀ (T : List Tri) (n : ℕ), (((T.zipIdx n).flatMap (fun x => slots x.1 x.2)).map Prod.snd).Nodup ∧
      ∀ x ∈ ((T.zipIdx n).flatMap (fun x => slots x.1 x.2)).map Prod.snd, n ≤ x.1 := by
    intro T
    induction T with
    | nil => intro n; simp
    | cons t T ih =>
      intro n
      obtain ⟨h1, h2⟩ := ih (n + 1)
      rw [List.zipIdx_cons, List.flatMap_cons, List.map_append]
      have hs : (slots t n).map Prod.snd = [(n, 0), (n, 1), (n, 2)] := rfl
      simp only [hs]
      refine ⟨List.nodup_append.2 ⟨by simp, h1, ?_⟩, fun x hx => ?_⟩
      · intro a ha b hb hab
        have := h2 b hb
        simp only [List.mem_cons, List.not_mem_nil, or_false] at ha
        rcases ha with rfl | rfl | rfl <;> rw [← hab] at this <;> simp at this
      · rcases List.mem_append.1 hx with hx | hx
        · simp only [List.mem_cons, List.not_mem_nil, or_false] at hx
          rcases hx with rfl | rfl | rfl <;> exact le_rfl
        · exact (Nat.le_succ n).trans (h2 x hx)
  exact (h T 0).1

/-- The value in a slot. -/
def nbAt (nb : List (Fin 3 → ℤ)) (s : Slot) : Option ℤ := (nb[s.1]?).map (fun f => f s.2)

theorem link_length (nb : List (Fin 3 → ℤ)) (s : Slot) (t : ℕ) : (link nb s t).length = nb.length := by rw [link, List.length_modify]

theorem link_at {nb : List (Fin 3 → ℤ)} {s : Slot} (hs : s.1 < nb.length) (t : ℕ) (x : Slot) :
    nbAt (link nb s t) x = if x = s then some (t : ℤ) else nbAt nb x := by
  rw [nbAt, link, List.getElem?_modify, nbAt]
  by_cases h1 : s.1 = x.1
  · simp only [h1, if_true]
    rw [List.getElem?_eq_getElem (by rw [← h1]; exact hs)]
    by_cases h2 : x = s
    · simp [h2]
    · have : x.2 ≠ s.2 := fun e => h2 (Prod.ext h1.symm e)
      simp [h2, Function.update_of_ne this]
  · have : x ≠ s := fun e => h1 (by rw [e])
    simp [h1, this]

/-- The triangle that a group of sides puts into a slot. -/
def pairVal (g : List Slot) (x : Slot) : Option ℕ :=
  match g with
  | [s, t] => if x = t then some s.1 else if x = s then some t.1 else none
  | _ => none

theorem linkPair_spec {nb : List (Fin 3 → ℤ)} {g : List Slot} (hg : ∀ s ∈ g, s.1 < nb.length) :
    (linkPair nb g).length = nb.length ∧ (∀ x, nbAt (linkPair nb g) x = (pairVal g x).elim (nbAt nb x) (fun v => some (v : ℤ))) ∧ ∀ x, x ∉ g → pairVal g x = none := by
  match g, hg with
  | [], _ => exact ⟨rfl, fun x => rfl, fun x _ => rfl⟩
  | [_], _ => exact ⟨rfl, fun x => rfl, fun x _ => rfl⟩
  | [s, t], hg =>
    refine ⟨by rw [linkPair, link_length, link_length], fun x => ?_, fun x hx => ?_⟩
    · rw [linkPair, link_at (by rw [link_length]; exact hg t (by simp)), link_at (hg s (by simp)), pairVal]
      by_cases h1 : x = t
      · simp [h1]
      · rw [if_neg h1, if_neg h1]
        by_cases h2 : x = s
        · rw [if_pos h2, if_pos h2]; rfl
        · rw [if_neg h2, if_neg h2]; rfl
    · simp only [List.mem_cons, List.not_mem_nil, or_false, not_or] at hx
      rw [pairVal, if_neg hx.2, if_neg hx.1]
  | _ :: _ :: _ :: _, _ => exact ⟨rfl, fun x => rfl, fun x _ => rfl⟩

theorem fold_at {G : List ((ℕ × ℕ) × List Slot)} : ∀ {nb : List (Fin 3 → ℤ)}, (∀ g ∈ G, ∀ s ∈ g.2, s.1 < nb.length) → G.Pairwise (fun g h => ∀ s ∈ g.2, s ∉ h.2) →
    (G.foldl (fun nb g => linkPair nb g.2) nb).length = nb.length ∧
    (∀ x, (∀ g ∈ G, x ∉ g.2) → nbAt (G.foldl (fun nb g => linkPair nb g.2) nb) x = nbAt nb x) ∧
    (∀ g ∈ G, ∀ x ∈ g.2, nbAt (G.foldl (fun nb g => linkPair nb g.2) nb) x = (pairVal g.2 x).elim (nbAt nb x) (fun v => some (v : ℤ))) := by
  induction G with
  | nil => intro nb _ _; exact ⟨rfl, fun _ _ => rfl, by simp⟩
  | cons a G ih =>
    intro nb h1 h2
    rw [List.pairwise_cons] at h2
    obtain ⟨l1, l2, l3⟩ := linkPair_spec (h1 a (by simp))
    obtain ⟨i1, i2, i3⟩ := ih (nb := linkPair nb a.2) (fun g hg s hs => by rw [l1]; exact h1 g (by simp [hg]) s hs) h2.2
    rw [List.foldl_cons]
    refine ⟨i1.trans l1, fun x hx => ?_, fun g hg x hx => ?_⟩
    · rw [i2 x (fun g hg => hx g (by simp [hg])), l2, l3 x (hx a (by simp))]; rfl
    · rcases List.mem_cons.1 hg with rfl | hg
      · rw [i2 x (fun g' hg' => h2.1 g' hg' x hx), l2]
      · rw [i3 g hg x hx, l2, l3 x (fun hc => h2.1 g hg x hc hx)]; rfl

/-- Two sides of a proper list that are the same edge are the same side. -/
theorem Proper.inj {T : List Tri} (h : Proper T) {i i' : ℕ} {j j' : Fin 3} {t t' : Tri} (ht : T[i]? = some t) (ht' : T[i']? = some t') (e : side t j = side t' j') :
    (i, j) = (i', j') := by
  obtain ⟨h, hl⟩ := h
  rw [edgesOf, List.nodup_flatMap] at h
  obtain ⟨hi, rfl⟩ := List.getElem?_eq_some_iff.1 ht
  obtain ⟨hi', rfl⟩ := List.getElem?_eq_some_iff.1 ht'
  have hii : i = i' := by
    by_contra hne
    rcases lt_or_gt_of_ne hne with hlt | hlt
    · exact (List.pairwise_iff_getElem.1 h.2 i i' hi hi' hlt) (side_mem _ j) (e ▸ side_mem _ j')
    · exact (List.pairwise_iff_getElem.1 h.2 i' i hi' hi hlt) (side_mem _ j') (e ▸ side_mem _ j)
  subst hii
  have hn := h.1 _ (List.getElem_mem hi)
  generalize T[i] = t at *
  simp only [sides, List.nodup_cons, List.mem_cons, List.not_mem_nil, or_false, not_or, not_false_eq_true, List.nodup_nil, and_true] at hn
  obtain ⟨⟨n1, n2⟩, n3⟩ := hn
  rw [Prod.mk.injEq]
  refine ⟨rfl, ?_⟩
  fin_cases j <;> fin_cases j' <;> first | rfl | (exfalso; simp only [side] at e; first | exact n1 e | exact n2 e | exact n3 e | exact n1 e.symm | exact n2 e.symm | exact n3 e.symm)

/-- **C128.**  In a list of triangles without repeated directed edges, the neighbour of a triangle at a side is the triangle with the same side in the other
direction, and -1 if there is none. -/
theorem neighbors_spec {T : List Tri} (h : Proper T) : (neighborsOf T).length = T.length ∧
    ∀ (i : ℕ) (t : Tri), T[i]? = some t → ∃ nb, (neighborsOf T)[i]? = some nb ∧
      ∀ j, (nb j = -1 ∧ (side t j).swap ∉ edgesOf T) ∨ ∃ (u : ℕ) (t' : Tri), nb j = u ∧ T[u]? = some t' ∧ (side t j).swap ∈ sides t' := by
  have hG : ∀ g ∈ edgeToTri T, g.2 = ((allSlots T).filter (fun x => x.1 = g.1)).map Prod.snd ∧ g.2 ≠ [] := fun g hg => (mem_enterAll _ _ _).1 hg
  have hmem : ∀ g ∈ edgeToTri T, ∀ i j, (i, j) ∈ g.2 ↔ ∃ t, T[i]? = some t ∧ g.1 = key (side t j) := by
    intro g hg i j
    rw [(hG g hg).1, List.mem_map]
    constructor
    · rintro ⟨⟨k, s⟩, h1, h2⟩
      rw [List.mem_filter] at h1
      simp only at h2
      subst h2
      obtain ⟨t, ht, e⟩ := mem_allSlots.1 h1.1
      exact ⟨t, ht, by rw [← e]; exact (of_decide_eq_true h1.2).symm⟩
    · rintro ⟨t, ht, e⟩
      exact ⟨(g.1, (i, j)), List.mem_filter.2 ⟨mem_allSlots.2 ⟨t, ht, e⟩, by simp⟩, rfl⟩
  have hnd : ∀ g ∈ edgeToTri T, g.2.Nodup := fun g hg => by
    rw [(hG g hg).1]
    exact (slots_nodup T).sublist (List.filter_sublist.map _)
  have hsorted := (enterAll_spec (allSlots T)).1
  have hdis : (edgeToTri T).Pairwise (fun g h => ∀ s ∈ g.2, s ∉ h.2) := by
    have h1 : (edgeToTri T).Pairwise (fun g h => g.1 ≠ h.1) := hsorted.imp (fun h => keyLt_ne h)
    rw [List.pairwise_iff_forall_sublist] at h1 ⊢
    intro g g' hsub s hs hs'
    obtain ⟨i, j⟩ := s
    obtain ⟨t, ht, e⟩ := (hmem g (hsub.subset (by simp)) i j).1 hs
    obtain ⟨t', ht', e'⟩ := (hmem g' (hsub.subset (by simp)) i j).1 hs'
    rw [ht, Option.some.injEq] at ht'
    subst ht'
    exact h1 hsub (e.trans e'.symm)
  have hlen : ∀ g ∈ edgeToTri T, ∀ s ∈ g.2, s.1 < (List.replicate T.length (fun _ : Fin 3 => (-1 : ℤ))).length := by
    rintro g hg ⟨i, j⟩ hs
    obtain ⟨t, ht, -⟩ := (hmem g hg i j).1 hs
    rw [List.length_replicate]; exact (List.getElem?_eq_some_iff.1 ht).1
  obtain ⟨f1, f2, f3⟩ := fold_at hlen hdis
  rw [List.length_replicate] at f1
  refine ⟨f1, fun i t ht => ?_⟩
  have hi : i < T.length := (List.getElem?_eq_some_iff.1 ht).1
  refine ⟨(neighborsOf T)[i]'(by rw [show (neighborsOf T).length = T.length from f1]; exact hi), List.getElem?_eq_getElem _, fun j => ?_⟩
  set nb := (neighborsOf T)[i]'(by rw [show (neighborsOf T).length = T.length from f1]; exact hi) with hnb
  have hat : nbAt (neighborsOf T) (i, j) = some (nb j) := by
    rw [nbAt, List.getElem?_eq_getElem (by rw [show (neighborsOf T).length = T.length from f1]; exact hi)]; rfl
  -- the group of this side
  obtain ⟨vs, hvs⟩ : ∃ vs, (key (side t j), vs) ∈ edgeToTri T := by
    refine ⟨_, (mem_enterAll _ _ _).2 ⟨rfl, ?_⟩⟩
    intro he
    have : (i, j) ∈ ((allSlots T).filter (fun x => x.1 = key (side t j))).map Prod.snd :=
      List.mem_map.2 ⟨(key (side t j), (i, j)), List.mem_filter.2 ⟨mem_allSlots.2 ⟨t, ht, rfl⟩, by simp⟩, rfl⟩
    rw [show ((allSlots T).filter (fun x => x.1 = key (side t j))).map Prod.snd = [] from he] at this
    simp at this
  have hin : (i, j) ∈ vs := (hmem _ hvs i j).2 ⟨t, ht, rfl⟩
  have hval := f3 _ hvs (i, j) hin
  have hinit : nbAt (List.replicate T.length (fun _ : Fin 3 => (-1 : ℤ))) (i, j) = some (-1) := by
    rw [nbAt, List.getElem?_replicate, if_pos hi]; rfl
  rw [hinit] at hval
  replace hval := hat.symm.trans hval
  have hother : ∀ (u : ℕ) (l : Fin 3), (u, l) ∈ vs → (u, l) ≠ (i, j) → ∃ t', T[u]? = some t' ∧ side t' l = (side t j).swap := by
    intro u l hm hne
    obtain ⟨t', ht', e⟩ := (hmem _ hvs u l).1 hm
    refine ⟨t', ht', (key_eq e.symm).resolve_left (fun e' => hne (h.inj ht' ht e'))⟩
  have hv2 := hnd _ hvs
  simp only at hval hv2
  match vs, hin, hval, hother, hv2, hvs with
  | [x], hin, hval, hother, _, hvs =>
    left
    simp only [pairVal, Option.elim] at hval
    rw [Option.some.injEq] at hval
    refine ⟨hval, fun hsw => ?_⟩
    obtain ⟨t', ht', hm⟩ := List.mem_flatMap.1 hsw
    obtain ⟨u, hu⟩ := List.getElem?_of_mem ht'
    obtain ⟨l, hl⟩ := mem_side hm
    have hx : (u, l) ∈ [x] := (hmem _ hvs u l).2 ⟨t', hu, by rw [← hl, key_swap]⟩
    rw [List.mem_singleton] at hx hin
    rw [← hx, Prod.mk.injEq] at hin
    obtain ⟨rfl, rfl⟩ := hin
    rw [ht, Option.some.injEq] at hu
    subst hu
    exact h.2 _ (List.mem_flatMap.2 ⟨t, ht', side_mem t j⟩) (congrArg Prod.snd hl)
  | [x, y], hin, hval, hother, hv2, hvs =>
    right
    have hxy : x ≠ y := by simpa using hv2
    simp only [pairVal] at hval
    by_cases hy : (i, j) = y
    · rw [if_pos hy, Option.elim, Option.some.injEq] at hval
      obtain ⟨t', ht', e⟩ := hother x.1 x.2 (by simp) (fun e => hxy (by rw [← hy, ← e]))
      exact ⟨x.1, t', hval, ht', e ▸ side_mem t' _⟩
    · have hx : (i, j) = x := by
        simp only [List.mem_cons, List.not_mem_nil, or_false] at hin
        exact hin.resolve_right hy
      rw [if_neg hy, if_pos hx, Option.elim, Option.some.injEq] at hval
      obtain ⟨t', ht', e⟩ := hother y.1 y.2 (by simp) (fun e => hy e.symm)
      exact ⟨y.1, t', hval, ht', e ▸ side_mem t' _⟩
  | x :: y :: z :: r, hin, _, hother, hv2, hvs =>
    exfalso
    have hcase : ∀ u v : Slot, u ∈ x :: y :: z :: r → v ∈ x :: y :: z :: r → u ≠ (i, j) → v ≠ (i, j) → u = v := by
      intro u v hu hv h1 h2
      obtain ⟨t1, e1, e1'⟩ := hother u.1 u.2 hu h1
      obtain ⟨t2, e2, e2'⟩ := hother v.1 v.2 hv h2
      exact h.inj e1 e2 (e1'.trans e2'.symm)
    have hxy : x ≠ y := by rintro rfl; simp at hv2
    have hxz : x ≠ z := by rintro rfl; simp at hv2
    have hyz : y ≠ z := by rintro rfl; simp at hv2
    by_cases e1 : x = (i, j)
    · exact hyz (hcase y z (by simp) (by simp) (fun e => hxy (e1.trans e.symm)) (fun e => hxz (e1.trans e.symm)))
    · by_cases e2 : y = (i, j)
      · exact hxz (hcase x z (by simp) (by simp) e1 (fun e => hyz (e2.trans e.symm)))
      · exact hxy (hcase x y (by simp) (by simp) e1 e2)

/-- The triangles of a Delaunay triangulation are proper and good. -/
theorem compute_proper {ps : List Pt} (hc : Clear ps) {m : Mesh} (hm : compute ps = .ret m) :
    m.points = ps ∧ m.neighbors = neighborsOf m.triangles ∧ Proper m.triangles ∧ Good ps m.triangles := by
  rcases Nat.lt_or_ge ps.length 3 with h3 | h3
  · have : compute ps = .ret ⟨ps, [], []⟩ := by
      match ps, h3 with
      | [], _ => rfl
      | [_], _ => rfl
      | [_, _], _ => rfl
    rw [this, Outcome.ret.injEq] at hm
    subst hm
    exact ⟨rfl, rfl, ⟨by simp [edgesOf], by simp [edgesOf]⟩, by simp [Good]⟩
  · obtain ⟨T, hT, T', hinv, hA, hTe⟩ := compute_inv hc h3
    obtain ⟨m', hm', -, hgood, -⟩ := delaunay_partial hc
    rw [hm, Outcome.ret.injEq] at hm'
    subst hm'
    rw [hm, Outcome.ret.injEq] at hT
    subst hT
    refine ⟨rfl, rfl, ⟨?_, ?_⟩, fun t ht => ?_⟩
    · have hn := hinv.nodup hA
      rw [edgesOf, List.nodup_flatMap] at hn ⊢
      subst hTe
      exact ⟨fun t ht => hn.1 t (List.mem_filter.1 ht).1, hn.2.sublist List.filter_sublist⟩
    · intro e he
      obtain ⟨t, ht, he'⟩ := List.mem_flatMap.1 he
      subst hTe
      exact sides_loop (hinv.ccw t (List.mem_filter.1 ht).1) he'
    · obtain ⟨a, b, c, h1, h2, -⟩ := hgood t ht
      exact ⟨a, b, c, h1, h2⟩

/-- The hypothesis of `neighbors_spec` for a square cut in two. -/
example : Proper [(0, 1, 2), (0, 2, 3)] := ⟨by decide, by decide⟩

example : neighborsOf [(0, 1, 2), (0, 2, 3)] = [![-1, -1, 1], ![0, -1, -1]] := by
  simp only [List.cons.injEq, neighborsOf]
  decide

/-! ## The border -/

theorem hull_of {E : List (ℕ × ℕ)} : ∀ {T : List Tri} {N : List (Fin 3 → ℤ)}, N.length = T.length →
    (∀ (i : ℕ) (t : Tri) (nb : Fin 3 → ℤ), T[i]? = some t → N[i]? = some nb → ∀ j, nb j = -1 ↔ (side t j).swap ∉ E) →
    hullEdges T N = .ret ((edgesOf T).filter (fun e => decide (e.swap ∉ E)))
  | [], N, _, _ => by rw [hullEdges]; rfl
  | t :: T, [], h, _ => by simp at h
  | t :: T, nb :: N, h, hE => by
    rw [hullEdges, hull_of (E := E) (by simpa using h) (fun i t nb h1 h2 => hE (i + 1) t nb (by simpa using h1) (by simpa using h2)), Outcome.bind_ret]
    congr 1
    have h0 := hE 0 t nb rfl rfl
    have e0 := h0 0; have e1 := h0 1; have e2 := h0 2
    simp only [side] at e0 e1 e2
    rw [show edgesOf (t :: T) = sides t ++ edgesOf T from rfl, List.filter_append]
    congr 1
    rw [openSides, sides]
    simp only [List.filter_cons, List.filter_nil, e0, e1, e2]
    simp only [Prod.swap_prod_mk, decide_eq_true_eq]
    by_cases c0 : (t.2.1, t.1) ∈ E <;> by_cases c1 : (t.2.2, t.2.1) ∈ E <;> by_cases c2 : (t.1, t.2.2) ∈ E <;> simp [c0, c1, c2]

/-- **C128.**  The border of a proper list of triangles: the sides that belong to one triangle only. -/
theorem hullEdges_spec {T : List Tri} (h : Proper T) : hullEdges T (neighborsOf T) = .ret ((edgesOf T).filter (fun e => decide (e.swap ∉ edgesOf T))) := by
  obtain ⟨h1, h2⟩ := neighbors_spec h
  refine hull_of h1 (fun i t nb ht hn j => ?_)
  obtain ⟨nb', hnb, hj⟩ := h2 i t ht
  rw [hn, Option.some.injEq] at hnb
  subst hnb
  rcases hj j with ⟨e, hs⟩ | ⟨u, t', e, hu, hs⟩
  · exact ⟨fun _ => hs, fun _ => e⟩
  · refine ⟨fun h => by rw [e] at h; omega, fun hn => absurd (List.mem_flatMap.2 ⟨t', List.mem_of_getElem? hu, hs⟩) hn⟩

/-! ## Point location -/

theorem corners_ret {ps : List Pt} {t : Tri} {a b c : Pt} (h : Corners ps t a b c) : corners ps t = .ret (a, b, c) := by
  rw [corners, Outcome.index, h.1, Outcome.bind_ret, Outcome.index, h.2.1, Outcome.bind_ret, Outcome.index, h.2.2, Outcome.bind_ret]

theorem holds_iff {p a b c : Pt} (h : 0 < area2 a b c) : holds p a b c = true ↔ InsideEq p a b c := by
  have e1 : sign p a b = area2 a b p := by simp only [sign, area2]; ring
  have e2 : sign p b c = area2 b c p := by simp only [sign, area2]; ring
  have e3 : sign p c a = area2 c a p := by simp only [sign, area2]; ring
  have hs := area2_split a b c p
  rw [holds, e1, e2, e3, InsideEq]
  simp only [Bool.not_eq_true', Bool.and_eq_false_iff, decide_eq_false_iff_not, not_or, not_lt]
  constructor
  · rintro (h | h)
    · exact h
    · linarith
  · exact Or.inl

theorem locateFrom_spec {ps : List Pt} {p : Pt} : ∀ {T : List Tri} (n : ℕ), Good ps T →
    (locateFrom ps p T n = .ret (-1) ∧ ∀ t ∈ T, ∀ a b c, Corners ps t a b c → ¬ InsideEq p a b c) ∨
    ∃ (i : ℕ) (t : Tri) (a b c : Pt), locateFrom ps p T n = .ret ((n + i : ℕ) : ℤ) ∧ T[i]? = some t ∧ Corners ps t a b c ∧ InsideEq p a b c ∧ 0 < area2 a b c ∧
      ∀ i' < i, ∀ t', T[i']? = some t' → ∀ a b c, Corners ps t' a b c → ¬ InsideEq p a b c
  | [], n, _ => Or.inl ⟨rfl, by simp⟩
  | t :: T, n, hg => by
    obtain ⟨a, b, c, hc, hA⟩ := hg t (by simp)
    rw [locateFrom, corners_ret hc, Outcome.bind_ret]
    have huniq : ∀ a' b' c', Corners ps t a' b' c' → a' = a ∧ b' = b ∧ c' = c := by
      intro a' b' c' h
      obtain ⟨h1, h2, h3⟩ := h
      obtain ⟨g1, g2, g3⟩ := hc
      rw [g1, Option.some.injEq] at h1; rw [g2, Option.some.injEq] at h2; rw [g3, Option.some.injEq] at h3
      exact ⟨h1.symm, h2.symm, h3.symm⟩
    by_cases hh : holds p a b c = true
    · right
      exact ⟨0, t, a, b, c, by rw [if_pos hh]; rfl, rfl, hc, (holds_iff hA).1 hh, hA, by omega⟩
    · rw [if_neg hh]
      have hno : ∀ a' b' c', Corners ps t a' b' c' → ¬ InsideEq p a' b' c' := by
        intro a' b' c' h
        obtain ⟨rfl, rfl, rfl⟩ := huniq _ _ _ h
        exact fun hi => hh ((holds_iff hA).2 hi)
      rcases locateFrom_spec (T := T) (n + 1) (fun t ht => hg t (by simp [ht])) with ⟨h1, h2⟩ | ⟨i, t', a', b', c', h1, h2, h3, h4, h5, h6⟩
      · refine Or.inl ⟨h1, fun u hu => ?_⟩
        rcases List.mem_cons.1 hu with rfl | hu
        · exact hno
        · exact h2 u hu
      · refine Or.inr ⟨i + 1, t', a', b', c', ?_, by simpa using h2, h3, h4, h5, fun i' hi' u hu => ?_⟩
        · rw [h1]; congr 2; omega
        · rcases i' with _ | i'
          · simp only [List.getElem?_cons_zero, Option.some.injEq] at hu
            subst hu; exact hno
          · exact h6 i' (by omega) u (by simpa using hu)

/-- **C128.**  `LocatePoint` returns the index of the first triangle that has the point inside or on its boundary, and -1 if no triangle has it. -/
theorem locate_spec {m : Mesh} (hg : Good m.points m.triangles) (p : Pt) :
    (locate m p = .ret (-1) ∧ ∀ t ∈ m.triangles, ∀ a b c, Corners m.points t a b c → ¬ InsideEq p a b c) ∨
    ∃ (i : ℕ) (t : Tri) (a b c : Pt), locate m p = .ret (i : ℤ) ∧ m.triangles[i]? = some t ∧ Corners m.points t a b c ∧ InsideEq p a b c ∧ 0 < area2 a b c ∧
      ∀ i' < i, ∀ t', m.triangles[i']? = some t' → ∀ a b c, Corners m.points t' a b c → ¬ InsideEq p a b c := by
  have := locateFrom_spec (p := p) 0 hg
  simp only [Nat.zero_add] at this
  exact this

/-! ## Interpolation -/

/-- **C128.**  `Interpolate` at a point that no triangle has returns the default. -/
theorem interpolate_outside {m : Mesh} (hg : Good m.points m.triangles) (p : Pt) (vals : List ℝ) (d : ℝ)
    (h : ∀ t ∈ m.triangles, ∀ a b c, Corners m.points t a b c → ¬ InsideEq p a b c) : interpolate m p vals d = .ret d := by
  rw [interpolate]
  by_cases hl : vals.length ≠ m.points.length
  · rw [if_pos hl]
  · rw [if_neg hl]
    rcases locate_spec hg p with ⟨h1, -⟩ | ⟨i, t, a, b, c, -, h2, h3, h4, -⟩
    · rw [h1, Outcome.bind_ret, if_pos (by norm_num)]
    · exact absurd h4 (h t (List.mem_of_getElem? h2) a b c h3)

/-- **C128.**  `Interpolate` with values for all points, at a point of a triangle: the combination of the values at the corners, by the weights with which the point is
the combination of the corners; but the default if the first triangle with the point has an area below 5·10⁻¹¹. -/
theorem interpolate_partial {m : Mesh} (hg : Good m.points m.triangles) (p : Pt) (vals : List ℝ) (hl : vals.length = m.points.length) (d : ℝ)
    {i : ℕ} (hi : locate m p = .ret (i : ℤ)) : ∃ (t : Tri) (a b c : Pt), m.triangles[i]? = some t ∧ Corners m.points t a b c ∧
      ((area2 a b c < 1 / 10 ^ 10 ∧ interpolate m p vals d = .ret d) ∨
      (1 / 10 ^ 10 ≤ area2 a b c ∧ ∃ (u v w x y z : ℝ), interpolate m p vals d = .ret (x * u + y * v + z * w) ∧
        vals[t.1]? = some u ∧ vals[t.2.1]? = some v ∧ vals[t.2.2]? = some w ∧ 0 ≤ x ∧ 0 ≤ y ∧ 0 ≤ z ∧ x + y + z = 1 ∧
        p.1 = x * a.1 + y * b.1 + z * c.1 ∧ p.2 = x * a.2 + y * b.2 + z * c.2)) := by
  rcases locate_spec hg p with ⟨h1, -⟩ | ⟨i', t, a, b, c, h1, h2, h3, h4, h5, -⟩
  · rw [hi, Outcome.ret.injEq] at h1; omega
  rw [hi, Outcome.ret.injEq] at h1
  have : i = i' := by exact_mod_cast h1
  subst this
  refine ⟨t, a, b, c, h2, h3, ?_⟩
  have hden : denom a b c = area2 a b c := by simp only [denom, area2]; ring
  have hstart : interpolate m p vals d = blend m p vals d i := by
    rw [interpolate, if_neg (by simpa using hl), hi, Outcome.bind_ret, if_neg (by omega), Int.toNat_natCast]
  rw [hstart, blend, Outcome.index, h2, Outcome.bind_ret, corners_ret h3, Outcome.bind_ret]
  simp only [hden, abs_of_pos h5]
  by_cases hs : area2 a b c < 1 / 10 ^ 10
  · rw [if_pos hs]; exact Or.inl ⟨hs, rfl⟩
  · rw [if_neg hs]
    right
    obtain ⟨k1, k2, k3⟩ := h3
    have hx : ∀ {k : ℕ} {q : Pt}, m.points[k]? = some q → ∃ u, vals[k]? = some u := by
      intro k q hk
      have := (List.getElem?_eq_some_iff.1 hk).1
      exact ⟨_, List.getElem?_eq_getElem (by rw [hl]; exact this)⟩
    obtain ⟨u, hu⟩ := hx k1
    obtain ⟨v, hv⟩ := hx k2
    obtain ⟨w, hw⟩ := hx k3
    refine ⟨not_lt.1 hs, u, v, w, _, _, _, by rw [Outcome.index, hu, Outcome.bind_ret, Outcome.index, hv, Outcome.bind_ret, Outcome.index, hw, Outcome.bind_ret], hu, hv, hw, ?_⟩
    have hne : area2 a b c ≠ 0 := h5.ne'
    have w1 : (weights p a b c).1 = area2 b c p / area2 a b c := by rw [weights, hden]; simp only [area2]; congr 1; ring
    have w2 : (weights p a b c).2.1 = area2 c a p / area2 a b c := by rw [weights, hden]; simp only [area2]; congr 1; ring
    have w3 : (weights p a b c).2.2 = area2 a b p / area2 a b c := by
      have : (weights p a b c).2.2 = 1 - (weights p a b c).1 - (weights p a b c).2.1 := rfl
      rw [this, w1, w2, eq_div_iff hne, sub_mul, sub_mul, div_mul_cancel₀ _ hne, div_mul_cancel₀ _ hne]
      simp only [area2]; ring
    rw [w1, w2, w3]
    refine ⟨div_nonneg h4.2.1 h5.le, div_nonneg h4.2.2 h5.le, div_nonneg h4.1 h5.le, ?_, ?_, ?_⟩
    · rw [← add_div, ← add_div, div_eq_one_iff_eq hne]; simp only [area2]; ring
    · rw [div_mul_eq_mul_div, div_mul_eq_mul_div, div_mul_eq_mul_div, ← add_div, ← add_div, eq_div_iff hne]; simp only [area2]; ring
    · rw [div_mul_eq_mul_div, div_mul_eq_mul_div, div_mul_eq_mul_div, ← add_div, ← add_div, eq_div_iff hne]; simp only [area2]; ring

/-- The hypotheses for a square cut in two. -/
example : Good [(0, 0), (1, 0), (1, 1), (0, 1)] [(0, 1, 2), (0, 2, 3)] := by
  intro t ht
  simp only [List.mem_cons, List.not_mem_nil, or_false] at ht
  rcases ht with rfl | rfl
  · exact ⟨(0, 0), (1, 0), (1, 1), ⟨rfl, rfl, rfl⟩, by norm_num [area2]⟩
  · exact ⟨(0, 0), (1, 1), (0, 1), ⟨rfl, rfl, rfl⟩, by norm_num [area2]⟩

/-- **C128.**  A point inside a small triangle gets the default. -/
theorem interpolate_wrong : interpolate ⟨[(0, 0), (1 / 10 ^ 6, 0), (0, 1 / 10 ^ 6)], [(0, 1, 2)], [fun _ => -1]⟩ (1 / 10 ^ 7, 1 / 10 ^ 7) [5, 5, 5] 0 = .ret 0 := by
  set m : Mesh := ⟨[(0, 0), (1 / 10 ^ 6, 0), (0, 1 / 10 ^ 6)], [(0, 1, 2)], [fun _ => -1]⟩ with hm
  have hcor : Corners m.points (0, 1, 2) (0, 0) (1 / 10 ^ 6, 0) (0, 1 / 10 ^ 6) := ⟨rfl, rfl, rfl⟩
  have hg : Good m.points m.triangles := by
    intro t ht
    rw [hm, List.mem_singleton] at ht
    subst ht
    exact ⟨_, _, _, hcor, by norm_num [area2]⟩
  rcases locate_spec hg (1 / 10 ^ 7, 1 / 10 ^ 7) with ⟨-, h2⟩ | ⟨i, t, a, b, c, h1, h2, -⟩
  · exact absurd (by norm_num [InsideEq, area2]) (h2 (0, 1, 2) (by simp [hm]) _ _ _ hcor)
  · obtain ⟨t', a, b, c, h3, h4, h5⟩ := interpolate_partial hg _ [5, 5, 5] rfl 0 h1
    have hi : t' = (0, 1, 2) := by
      have := List.mem_of_getElem? h3
      rwa [hm, List.mem_singleton] at this
    subst hi
    obtain ⟨e1, e2, e3⟩ := h4
    obtain ⟨f1, f2, f3⟩ := hcor
    rw [f1, Option.some.injEq] at e1; rw [f2, Option.some.injEq] at e2; rw [f3, Option.some.injEq] at e3
    rcases h5 with ⟨-, h⟩ | ⟨h, -⟩
    · exact h
    · rw [← e1, ← e2, ← e3] at h; norm_num [area2] at h

/-! ## Any input -/

theorem boundary_sub {B : List Tri} {e : ℕ × ℕ} (h : e ∈ boundary B) : e ∈ edgesOf B := by
  rw [boundary, List.mem_filterMap] at h
  obtain ⟨⟨k, vs⟩, hg, h⟩ := h
  obtain ⟨h1, -⟩ := group_spec hg
  simp only at h
  by_cases hv : vs.length = 1
  · rw [if_pos hv] at h
    have := List.mem_of_getLast? h
    rw [h1, List.mem_filter] at this
    exact this.1
  · rw [if_neg hv] at h; simp at h

theorem neighbors_length (T : List Tri) : (neighborsOf T).length = T.length := by
  have hp : ∀ nb g, (linkPair nb g).length = nb.length := by
    intro nb g
    match g with
    | [] => rfl
    | [_] => rfl
    | [s, t] => rw [linkPair, link_length, link_length]
    | _ :: _ :: _ :: _ => rfl
  have : ∀ (G : List ((ℕ × ℕ) × List Slot)) (nb : List (Fin 3 → ℤ)), (G.foldl (fun nb g => linkPair nb g.2) nb).length = nb.length := by
    intro G
    induction G with
    | nil => intro nb; rfl
    | cons g G ih => intro nb; rw [List.foldl_cons, ih, hp]
  rw [neighborsOf, this, List.length_replicate]

theorem cornersAll_ret {ps : List Pt} : ∀ {T : List Tri}, (∀ t ∈ T, t.1 < ps.length ∧ t.2.1 < ps.length ∧ t.2.2 < ps.length) →
    ∃ xs, cornersAll ps T = .ret xs ∧ xs.length = T.length
  | [], _ => ⟨[], rfl, rfl⟩
  | t :: T, h => by
    obtain ⟨xs, h1, h2⟩ := cornersAll_ret (T := T) (fun u hu => h u (by simp [hu]))
    have hc := corners_of [] (h t (by simp))
    exact ⟨_, by rw [cornersAll, corners_ret hc, Outcome.bind_ret, h1, Outcome.bind_ret], by simp [h2]⟩

/-- **C127.**  For every list of points `ComputeDelaunay` and `DelaunayTriangulate` return; the points are those given, every corner is an index of one of them, and there is
an entry in `neighbors` for every triangle. -/
theorem compute_total (ps : List Pt) : ∃ m, compute ps = .ret m ∧ m.points = ps ∧ m.neighbors.length = m.triangles.length ∧
    (∀ t ∈ m.triangles, t.1 < ps.length ∧ t.2.1 < ps.length ∧ t.2.2 < ps.length) ∧ ∃ xs, triangulate ps = .ret xs ∧ xs.length = m.triangles.length := by
  suffices h : ∃ m, compute ps = .ret m ∧ m.points = ps ∧ m.neighbors.length = m.triangles.length ∧
      (∀ t ∈ m.triangles, t.1 < ps.length ∧ t.2.1 < ps.length ∧ t.2.2 < ps.length) by
    obtain ⟨m, h1, h2, h3, h4⟩ := h
    refine ⟨m, h1, h2, h3, h4, ?_⟩
    obtain ⟨xs, h5, h6⟩ := cornersAll_ret h4
    exact ⟨xs, by rw [triangulate, h1, Outcome.bind_ret, h2, h5], h6⟩
  match ps with
  | [] => exact ⟨_, rfl, rfl, rfl, by simp⟩
  | [_] => exact ⟨_, rfl, rfl, rfl, by simp⟩
  | [_, _] => exact ⟨_, rfl, rfl, rfl, by simp⟩
  | p :: q :: r :: rest =>
    set ps := p :: q :: r :: rest with hps
    have hlen : (work ps).length = rest.length + 6 := by simp [hps, work, superTri, superOf]
    obtain ⟨ts, h1, -⟩ := forRange_rule (fun k ts => ∀ t ∈ valid ts, t.1 < (work ps).length ∧ t.2.1 < (work ps).length ∧ t.2.2 < (work ps).length)
      (rest.length + 3) [((rest.length + 3, rest.length + 4, rest.length + 5), true)] (insertPoint (work ps))
      (by
        intro t ht
        rw [show valid [((rest.length + 3, rest.length + 4, rest.length + 5), true)] = [(rest.length + 3, rest.length + 4, rest.length + 5)] from rfl, List.mem_singleton] at ht
        subst ht
        simp only; omega)
      (by
        intro i ts hi hv
        refine ⟨_, by rw [insertPoint, index_at (by omega), Outcome.bind_ret, marks_eq hv, Outcome.bind_ret], ?_⟩
        rw [valid_append, invalidate_eq, bad_eq, show ((boundary ((valid ts).filter (test (work ps) (at' (work ps) i)))).map (fun e => ((i, e.1, e.2), true))) =
          ((boundary ((valid ts).filter (test (work ps) (at' (work ps) i)))).map (fun e => (i, e.1, e.2))).map (fun t => (t, true)) by rw [List.map_map]; rfl, valid_new]
        intro t ht
        rcases List.mem_append.1 ht with ht | ht
        · exact hv t (List.mem_filter.1 ht).1
        · obtain ⟨e, he, rfl⟩ := List.mem_map.1 ht
          obtain ⟨t, ht, he⟩ := List.mem_flatMap.1 (boundary_sub he)
          have hw := hv t (List.mem_filter.1 ht).1
          obtain ⟨z, hz⟩ := mem_sides.1 he
          have := (corner_rot hz (fun i => i < (work ps).length)).1 hw
          exact ⟨by simp only; omega, this.1, this.2.1⟩)
    refine ⟨⟨ps, extract (rest.length + 3) ts, neighborsOf (extract (rest.length + 3) ts)⟩, ?_, rfl, neighbors_length _, fun t ht => ?_⟩
    · rw [hps, compute]
      exact (congrArg (fun x => x >>= fun ts => Outcome.ret (Mesh.mk (p :: q :: r :: rest) (extract (rest.length + 3) ts) (neighborsOf (extract (rest.length + 3) ts)))) h1).trans (Outcome.bind_ret _ _)
    · have hl : ps.length = rest.length + 3 := rfl
      simp only [extract_eq, List.mem_filter, Bool.and_eq_true, decide_eq_true_eq] at ht
      rw [hl]; omega

end Verif.CompGeo.Del
