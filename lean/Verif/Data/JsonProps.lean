import Verif.Data.JsonLemmas
import Verif.Data.TypeProps
import Mathlib.Data.Rat.Defs

/-!
# Properties of the JSON loader (C27, C28, C61)
-/

set_option autoImplicit false

namespace Verif.Data

variable {R : Type}

/-! ## Building the columns -/

theorem fillColumn_spec (stod : Str → Option R) {n : Nat} : ∀ (vs : List Str) (i : Nat)
    (col : DataColumn R), i + vs.length = n → Ready n col → (vs = [] → col.HasRows n) →
    ∃ col', fillColumn stod n i vs col = .ret col' ∧ col'.name = col.name ∧ col'.type = col.type ∧
      col'.HasRows n ∧ (∀ r v, vs[r]? = some v → col'.cell (i + r) = meaning stod col.type v) ∧
      ∀ j, j < i → col'.cell j = col.cell j := by
  intro vs
  induction vs with
  | nil => intro i col _ _ h; exact ⟨col, rfl, rfl, rfl, h rfl, by simp, fun _ _ => rfl⟩
  | cons v vs ih =>
    intro i col hn hr _
    simp only [List.length_cons] at hn
    obtain ⟨c1, a1, a2, a3, a4, a5, a6⟩ := writeCell_spec stod hr (show i < n by omega) v
    obtain ⟨c2, b1, b2, b3, b4, b5, b6⟩ := ih (i + 1) c1 (by omega) (.of_hasRows a4) (fun _ => a4)
    refine ⟨c2, by simp [fillColumn, a1, b1], b2.trans a2, b3.trans a3, b4, ?_, ?_⟩
    · intro r w hw
      cases r with
      | zero =>
        simp only [List.getElem?_cons_zero, Option.some.injEq] at hw
        subst hw
        rw [Nat.add_zero, b6 i (by omega), a5]
      | succ r =>
        simp only [List.getElem?_cons_succ] at hw
        have := b5 r w hw
        rw [a3] at this
        rw [← this]; congr 1; omega
    · intro j hj; rw [b6 j (by omega), a6 j (by omega)]

theorem buildColumn_spec [Zero R] (stod : Str → Option R) {n : Nat} (k : Str) (vs : List Str)
    (hn : vs.length = n) :
    ∃ col, buildColumn stod n (k, vs) = .ret col ∧ col.name = k ∧ col.type = inferColumnType vs ∧
      col.HasRows n ∧ ∀ r v, vs[r]? = some v → col.cell r = meaning stod col.type v := by
  have hty := inferColumnType_ne_missing vs
  set col0 : DataColumn R :=
    { name := k, type := inferColumnType vs, missingMask := List.replicate n false } with hcol0
  have hname : (preallocJson n col0).name = k ∧ (preallocJson n col0).type = inferColumnType vs := by
    unfold preallocJson
    split
    · exact ⟨rfl, rfl⟩
    · cases hc : inferColumnType vs <;> simp [hcol0, hc]
  have hready : (preallocJson n col0).HasRows n := by
    unfold preallocJson
    split
    · next h =>
      subst h
      have : vs = [] := List.length_eq_zero_iff.mp hn
      subst this
      simp [hcol0, DataColumn.HasRows, DataColumn.size, inferColumnType]
    · cases hc : inferColumnType vs <;>
        simp_all [DataColumn.HasRows, DataColumn.size, resize_length]
  obtain ⟨col, h1, h2, h3, h4, h5, _⟩ := fillColumn_spec stod vs 0 (preallocJson n col0) (by simpa using hn)
    (.of_hasRows hready) (fun _ => hready)
  refine ⟨col, ?_, h2.trans hname.1, h3.trans hname.2, h4, ?_⟩
  · simp only [buildColumn, hn]; exact h1
  · intro r v hv
    have := h5 r v hv
    rw [Nat.zero_add] at this
    rw [this, h3]

/-- The dataset built from columns of equal length. -/
theorem parseArrayOfObjects_of_columns [Zero R] (stod : Str → Option R) {s : Str} {cols : Columns}
    (hp : parseArray s = .ret cols) {n : Nat} (hlen : ∀ c ∈ cols, c.2.length = n) (hne : cols ≠ []) :
    ∃ ds, parseArrayOfObjects stod s = .ret ds ∧ ds.rowCount = n ∧ ds.Rectangular ∧
      List.Forall₂ (fun (c : Str × List Str) (col : DataColumn R) => col.name = c.1 ∧
        col.type = inferColumnType c.2 ∧
        ∀ r v, c.2[r]? = some v → col.cell r = meaning stod col.type v) cols ds.columns := by
  cases cols with
  | nil => exact absurd rfl hne
  | cons c cs =>
    have hc := hlen c (by simp)
    obtain ⟨built, h1, h2⟩ := mapOutcome_spec (buildColumn stod n)
      (fun (c : Str × List Str) (col : DataColumn R) => col.HasRows n ∧ col.name = c.1 ∧
        col.type = inferColumnType c.2 ∧
        ∀ r v, c.2[r]? = some v → col.cell r = meaning stod col.type v) (c :: cs) (by
        intro x hx
        obtain ⟨col, a1, a2, a3, a4, a5⟩ := buildColumn_spec stod (n := n) x.1 x.2 (hlen x hx)
        exact ⟨col, a1, a4, a2, a3, a5⟩)
    refine ⟨{ columns := built, rowCount := n }, ?_, rfl, ?_, h2.imp (fun _ _ h => h.2)⟩
    · simp only [parseArrayOfObjects, hp, Outcome.bind_ret, hc, h1, Outcome.pure_eq]
    · intro col hcol
      change col ∈ built at hcol
      obtain ⟨hl, hg⟩ := List.forall₂_iff_get.mp h2
      obtain ⟨k, hk, rfl⟩ := List.mem_iff_getElem.mp hcol
      exact (hg k (by omega) hk).1

/-! ## Alignment -/

theorem pushValue_mem {α : Type} (ks : List α) (f : α → Str) (L : α → List Str) (x : α) (v : Str)
    (hx : x ∈ ks) (hnd : (ks.map f).Nodup) :
    ∀ [DecidableEq Str], pushValue (ks.map (fun k => (f k, L k))) (f x) v =
      ks.map (fun k => (f k, if f k = f x then L k ++ [v] else L k)) := by
  intro _
  induction ks with
  | nil => simp at hx
  | cons k ks ih =>
    simp only [List.map_cons, List.nodup_cons] at hnd
    by_cases hk : f k = f x
    · simp only [List.map_cons, pushValue, hk, if_true]
      congr 1
      apply List.map_congr_left
      intro y hy
      rw [if_neg]
      intro hyx
      apply hnd.1
      rw [hk, ← hyx]
      exact List.mem_map_of_mem hy
    · simp only [List.map_cons, pushValue, hk, if_false]
      congr 1
      refine ih ?_ hnd.2
      rcases List.mem_cons.mp hx with rfl | h
      · exact absurd rfl hk
      · exact h

theorem value_cons (k : Str) (v : JVal) (o : JObj) (x : Str) :
    JObj.value ((k, v) :: o) x = if k = x then some v else JObj.value o x := by
  unfold JObj.value
  rw [List.find?_cons]
  by_cases h : k = x <;> simp [h]

theorem value_none {o : JObj} {k : Str} (h : k ∉ o.keys) : JObj.value o k = none := by
  unfold JObj.value
  rw [List.find?_eq_none.mpr]; · rfl
  intro p hp hk
  apply h
  simp only [decide_eq_true_eq] at hk
  rw [← hk]; exact List.mem_map_of_mem hp

/-- The text of an optional value: empty when absent. -/
def optText : Option JVal → Str
  | none => []
  | some v => v.text

theorem pushAll_spec {ks : List Str} (hks : ks.Nodup) : ∀ (o : JObj) (L : Str → List Str),
    o.keys.Nodup → (∀ k ∈ o.keys, k ∈ ks) →
    pushAll (ks.map (fun k => (k, L k))) o =
      ks.map (fun k => (k, L k ++ ((JObj.value o k).map JVal.text).toList)) := by
  intro o
  induction o with
  | nil => intro L _ _; simp [pushAll, JObj.value]
  | cons p o ih =>
    intro L hnd hsub
    obtain ⟨k, v⟩ := p
    simp only [JObj.keys, List.map_cons, List.nodup_cons] at hnd
    have h1 := pushValue_mem ks id L k v.text (hsub k (by simp [JObj.keys])) (by simpa using hks)
    simp only [id_eq] at h1
    have : pushAll (ks.map (fun k => (k, L k))) ((k, v) :: o) =
        pushAll (pushValue (ks.map (fun k => (k, L k))) k v.text) o := rfl
    rw [this, h1, ih _ hnd.2 (fun x hx => hsub x (by simp [JObj.keys] at hx ⊢; exact .inr hx))]
    apply List.map_congr_left
    intro x _
    rw [value_cons]
    by_cases hx : x = k
    · subst hx
      rw [value_none hnd.1]; simp
    · simp [hx, Ne.symm hx]

theorem maxRows_eq {cols : Columns} {m : Nat} (h : ∀ c ∈ cols, c.2.length ≤ m)
    (hex : ∃ c ∈ cols, c.2.length = m) : maxRows cols = m := by
  have key : ∀ (cols : Columns) (a : Nat), cols.foldl (fun m c => max m c.2.length) a =
      max a (cols.foldl (fun m c => max m c.2.length) 0) := by
    intro cols
    induction cols with
    | nil => intro a; simp
    | cons c cs ih => intro a; simp only [List.foldl_cons]; rw [ih, ih (max 0 _)]; omega
  unfold maxRows
  induction cols with
  | nil => obtain ⟨c, hc, _⟩ := hex; simp at hc
  | cons c cs ih =>
    simp only [List.foldl_cons]
    rw [key]
    have hc := h c (by simp)
    by_cases hcs : ∃ d ∈ cs, d.2.length = m
    · rw [ih (fun d hd => h d (by simp [hd])) hcs]; omega
    · have : c.2.length = m := by
        obtain ⟨d, hd, hdm⟩ := hex
        rcases List.mem_cons.mp hd with rfl | hd
        · exact hdm
        · exact absurd ⟨d, hd, hdm⟩ hcs
      have hle : ∀ cs : Columns, (∀ d ∈ cs, d.2.length ≤ m) →
          cs.foldl (fun m c => max m c.2.length) 0 ≤ m := by
        intro cs
        induction cs with
        | nil => simp
        | cons d ds ihd =>
          intro hd
          simp only [List.foldl_cons]
          rw [key]
          have h1 := hd d (by simp)
          have h2 := ihd (fun e he => hd e (by simp [he]))
          omega
      have := hle cs (fun d hd => h d (by simp [hd]))
      omega

theorem pad_spec {ks : List Str} (hks : ks.Nodup) {n : Nat} (o : JObj) (L : Str → List Str)
    (hL : ∀ k ∈ ks, (L k).length = n) (hnd : o.keys.Nodup) (hne : o ≠ []) (hsub : ∀ k ∈ o.keys, k ∈ ks) :
    padColumns (pushAll (ks.map (fun k => (k, L k))) o) =
      ks.map (fun k => (k, L k ++ [optText (JObj.value o k)])) := by
  rw [pushAll_spec hks o L hnd hsub]
  have hm : maxRows (ks.map (fun k => (k, L k ++ ((JObj.value o k).map JVal.text).toList))) = n + 1 := by
    apply maxRows_eq
    · intro c hc
      obtain ⟨k, hk, rfl⟩ := List.mem_map.mp hc
      simp only [List.length_append, hL k hk]
      cases JObj.value o k <;> simp
    · cases o with
      | nil => exact absurd rfl hne
      | cons p o =>
        obtain ⟨k, v⟩ := p
        have hk := hsub k (by simp [JObj.keys])
        exact ⟨_, List.mem_map_of_mem hk, by simp [value_cons, hL k hk]⟩
  unfold padColumns
  rw [hm, List.map_map]
  apply List.map_congr_left
  intro k hk
  simp only [Function.comp_apply, List.length_append, hL k hk]
  cases JObj.value o k <;> simp [optText]

theorem columnsOf_spec {ks : List Str} (hks : ks.Nodup) : ∀ (os : List JObj) (n : Nat)
    (L : Str → List Str), (∀ k ∈ ks, (L k).length = n) →
    (∀ o ∈ os, o.keys.Nodup ∧ o ≠ [] ∧ ∀ k ∈ o.keys, k ∈ ks) →
    columnsOf (ks.map (fun k => (k, L k))) os =
      ks.map (fun k => (k, L k ++ os.map (fun o => optText (JObj.value o k)))) := by
  intro os
  induction os with
  | nil => intro n L _ _; simp [columnsOf]
  | cons o os ih =>
    intro n L hL hos
    obtain ⟨h1, h2, h3⟩ := hos o (by simp)
    have : columnsOf (ks.map (fun k => (k, L k))) (o :: os) =
        columnsOf (padColumns (pushAll (ks.map (fun k => (k, L k))) o)) os := rfl
    rw [this, pad_spec hks o L hL h1 h2 h3, ih (n + 1) _ (by intro k hk; simp [hL k hk])
      (fun x hx => hos x (by simp [hx]))]
    simp

theorem pushAll_nil : ∀ (o : JObj) (pre : JObj), (pre ++ o).keys.Nodup →
    pushAll (pre.map (fun p => (p.1, [p.2.text]))) o = (pre ++ o).map (fun p => (p.1, [p.2.text])) := by
  intro o
  induction o with
  | nil => intro pre _; simp [pushAll]
  | cons p o ih =>
    intro pre hnd
    have hnew : ∀ (l : JObj), p.1 ∉ l.keys → pushValue (l.map (fun p => (p.1, [p.2.text]))) p.1 p.2.text =
        (l ++ [p]).map (fun p => (p.1, [p.2.text])) := by
      intro l
      induction l with
      | nil => intro _; simp [pushValue]
      | cons q l ihl =>
        intro hq
        simp only [JObj.keys, List.map_cons, List.mem_cons, not_or] at hq
        simp only [List.map_cons, pushValue, if_neg (Ne.symm hq.1), List.cons_append]
        rw [ihl hq.2]
    have h1 : p.1 ∉ JObj.keys pre := by
      simp only [JObj.keys, List.map_append, List.map_cons] at hnd
      have := (List.nodup_append.mp hnd).2.2
      intro hm
      exact this p.1 hm p.1 (by simp) rfl
    have : pushAll (pre.map (fun p => (p.1, [p.2.text]))) (p :: o) =
        pushAll (pushValue (pre.map (fun p => (p.1, [p.2.text]))) p.1 p.2.text) o := rfl
    rw [this, hnew pre h1, ih (pre ++ [p]) (by simpa using hnd)]
    simp

theorem columnsOf_aligned (o0 : JObj) (os : List JObj) (h0 : o0.keys.Nodup) (hne0 : o0 ≠ [])
    (hos : ∀ o ∈ os, o.keys.Nodup ∧ o ≠ [] ∧ ∀ k ∈ o.keys, k ∈ o0.keys) :
    columnsOf [] (o0 :: os) =
      o0.keys.map (fun k => (k, (o0 :: os).map (fun o => optText (JObj.value o k)))) := by
  have hval : ∀ (o : JObj), o.keys.Nodup → ∀ p ∈ o, JObj.value o p.1 = some p.2 := by
    intro o
    induction o with
    | nil => intro _ p hp; simp at hp
    | cons q o ih =>
      intro hnd p hp
      obtain ⟨k, v⟩ := q
      simp only [JObj.keys, List.map_cons, List.nodup_cons] at hnd
      rw [value_cons]
      rcases List.mem_cons.mp hp with rfl | hp'
      · simp
      · rw [if_neg, ih hnd.2 p hp']
        intro hk
        apply hnd.1
        rw [hk]
        exact List.mem_map_of_mem hp'
  have h1 : pushAll [] o0 = o0.map (fun p => (p.1, [p.2.text])) := by
    have := pushAll_nil o0 [] (by simpa using h0)
    simpa using this
  have h2 : padColumns (pushAll [] o0) = o0.keys.map (fun k => (k, [optText (JObj.value o0 k)])) := by
    rw [h1]
    unfold padColumns
    rw [maxRows_eq (m := 1) (by intro c hc; obtain ⟨p, _, rfl⟩ := List.mem_map.mp hc; simp) (by
      obtain ⟨p, hp⟩ := List.exists_mem_of_ne_nil _ hne0
      exact ⟨_, List.mem_map_of_mem hp, by simp⟩)]
    simp only [JObj.keys, List.map_map]
    apply List.map_congr_left
    intro p hp
    simp [hval o0 h0 p hp, optText]
  have : columnsOf [] (o0 :: os) = columnsOf (padColumns (pushAll [] o0)) os := rfl
  rw [this, h2, columnsOf_spec h0 os 1 (fun k => [optText (JObj.value o0 k)]) (by simp) hos]
  simp

/-- `ds` holds one row per object and one column per key of the first object, in order; the entry of
row `i` and key `k` is the meaning of the value of `k` in object `i`, and missing when object `i` has
no such key. -/
def HoldsObjects (stod : Str → Option R) (o0 : JObj) (os : List JObj) (ds : Dataset R) : Prop :=
  ds.rowCount = (o0 :: os).length ∧ ds.Rectangular ∧ ds.columns.map (·.name) = o0.keys ∧
    ∀ col ∈ ds.columns, ∀ (i : Nat) (o : JObj), (o0 :: os)[i]? = some o →
      col.cell i = match JObj.value o col.name with
        | some v => meaning stod col.type v.text
        | none => none

/-- **C27/C28 (partial).**  For every text of a JSON array of flat objects (any white space, any string
escapes among `\" \\ \/ \n \t \r`) in which no object is empty or repeats a key and every key occurs
in the first object, loading succeeds and holds exactly the objects, row by row.
Missing from the full statement: objects with keys not in the first object, empty objects
(`json_misaligned`, `json_empty_object_dropped`) and the escapes `\b`, `\f`, `\u` (`json_escapes_lost`). -/
theorem loadFromJSONString_partial [Zero R] (stod : Str → Option R) {o0 : JObj} {os : List JObj}
    {s : Str} (hs : ArrayText (o0 :: os) s) (h0 : o0.keys.Nodup) (hne0 : o0 ≠ [])
    (hos : ∀ o ∈ os, o.keys.Nodup ∧ o ≠ [] ∧ ∀ k ∈ o.keys, k ∈ o0.keys) :
    ∃ ds, loadFromJSONString stod s = .ret ds ∧ HoldsObjects stod o0 os ds := by
  have hbom : removeBOM s = s := by
    apply removeBOM_of_not
    cases hs with
    | @mk t w rest ht hw =>
      rintro ⟨x, hx⟩
      cases w with
      | nil => simp only [bom, List.nil_append, List.cons_append, List.cons.injEq] at hx; exact absurd hx.1 (by decide)
      | cons c cs =>
        simp only [bom, List.nil_append, List.cons_append, List.cons.injEq] at hx
        have := hw c (by simp)
        rw [← hx.1] at this; exact absurd this (by decide)
  have hp := parseArray_text hs
  have hcols := columnsOf_aligned o0 os h0 hne0 hos
  rw [hcols] at hp
  obtain ⟨ds, h1, h2, h3, h4⟩ := parseArrayOfObjects_of_columns stod hp (n := (o0 :: os).length)
    (by intro c hc; obtain ⟨k, _, rfl⟩ := List.mem_map.mp hc; simp)
    (by intro h; apply hne0; simpa [JObj.keys] using h)
  refine ⟨ds, by unfold loadFromJSONString; rw [hbom]; exact h1, h2, h3, ?_, ?_⟩
  · obtain ⟨hl, hg⟩ := List.forall₂_iff_get.mp h4
    apply List.ext_getElem
    · simp only [List.length_map] at hl ⊢; omega
    · intro i hi hi'
      have := (hg i (by simpa using hi') (by simpa using hi)).1
      simpa using this
  · intro col hcol i o ho
    obtain ⟨hl, hg⟩ := List.forall₂_iff_get.mp h4
    obtain ⟨k, hk, rfl⟩ := List.mem_iff_getElem.mp hcol
    obtain ⟨g1, g2, g3⟩ := hg k (by omega) hk
    simp only [List.get_eq_getElem, List.getElem_map] at g1 g2 g3
    have hk' : k < (JObj.keys o0).length := by simp only [List.length_map] at hl; omega
    have := g3 i (optText (JObj.value o (JObj.keys o0)[k])) (by rw [List.getElem?_map, ho]; rfl)
    rw [this, g1]
    cases JObj.value o (JObj.keys o0)[k] with
    | some v => rfl
    | none =>
      have hnil : ∀ t, meaning stod t [] = none := by
        intro t; simp [meaning, trim]
      simp [optText, hnil]

/-! ### A case that meets the hypotheses -/

private def q (s : Str) : Str := '"' :: s ++ ['"']

private theorem strText_plain : ∀ (s : Str), (∀ c ∈ s, c ≠ '"' ∧ c ≠ '\\') → StringText PlainCharText s s := by
  intro s
  induction s with
  | nil => intro _; exact .nil
  | cons c s ih =>
    intro h
    exact .cons (t := [c]) (.plain c (h c (by simp)).1 (h c (by simp)).2) (ih (fun d hd => h d (by simp [hd])))

private theorem strLit_plain (s : Str) (h : ∀ c ∈ s, c ≠ '"' ∧ c ≠ '\\') : StrLit s (q s) :=
  ⟨s, strText_plain s h, rfl⟩

/-- Two objects, the second of which lacks a key. -/
private def sampleObjs : JObj × List JObj :=
  ([("id".toList, .num "1".toList), ("n\"x".toList, .str "a/b".toList)], [[("id".toList, .num "-2e3".toList)]])

private def sampleJson : Str :=
  "[ {\"id\" : 1, \"n\\\"x\":\"a\\/b\"},\n{\"id\":-2e3}] trailing".toList

private theorem pair_id (l : Str) (h : NumLit l) (w3 : Str) (hw3 : Ws w3) (w2 : Str) (hw2 : Ws w2) :
    PairText ("id".toList, .num l) ([] ++ q "id".toList ++ w2 ++ ':' :: (w3 ++ l ++ [])) :=
  .mk (strLit_plain _ (by decide)) (.num h) ws_nil hw2 hw3 ws_nil

private theorem sample_text : ArrayText (sampleObjs.1 :: sampleObjs.2) sampleJson := by
  have p1 := pair_id "1".toList ⟨'1', [], rfl, by decide, by simp⟩ [' '] (by simp [Ws]) [' '] (by simp [Ws])
  have p3 := pair_id "-2e3".toList ⟨'-', "2e3".toList, rfl, by decide, by decide⟩ [] ws_nil [] ws_nil
  have p2 : PairText ("n\"x".toList, .str "a/b".toList)
      ([' '] ++ "\"n\\\"x\"".toList ++ [] ++ ':' :: ([] ++ "\"a\\/b\"".toList ++ [])) := by
    refine .mk ⟨"n\\\"x".toList, ?_, rfl⟩ (.str ⟨"a\\/b".toList, ?_, rfl⟩) (by simp [Ws]) ws_nil ws_nil ws_nil
    · exact .cons (t := ['n']) (.plain _ (by decide) (by decide)) (.cons (t := ['\\', '"']) .quote
        (.cons (t := ['x']) (.plain _ (by decide) (by decide)) .nil))
    · exact .cons (t := ['a']) (.plain _ (by decide) (by decide)) (.cons (t := ['\\', '/']) .slash
        (.cons (t := ['b']) (.plain _ (by decide) (by decide)) .nil))
  have o1 := ObjText.mk (w1 := [' ']) (w2 := []) (ListText.cons p1 (by simp) (ListText.one p2))
    (by simp [Ws]) ws_nil
  have o2 := ObjText.mk (w1 := ['\n']) (w2 := []) (ListText.one p3) (by simp [Ws]) ws_nil
  exact ArrayText.mk (w := []) (rest := " trailing".toList) (ListText.cons o1 (by simp) (ListText.one o2)) ws_nil

example : ∃ ds : Dataset ℚ, loadFromJSONString (fun _ => none) sampleJson = .ret ds ∧
    HoldsObjects (fun _ => none) sampleObjs.1 sampleObjs.2 ds :=
  loadFromJSONString_partial _ sample_text (by decide) (by decide) (by decide)

/-! ## String literals -/

/-- **C28 (partial, strings).**  Every string literal whose escapes are among `\" \\ \/ \n \t \r` is
read as the string it denotes, and reading stops right after the closing quote.
Missing: `\b`, `\f` and `\uXXXX` (see `json_escapes_lost`). -/
theorem parseString_partial {s body : Str} (h : StringText PlainCharText s body) {w : Str} (hw : Ws w)
    (rest : Str) : parseString (w ++ '"' :: (body ++ '"' :: rest)) = .ret (s, rest) := by
  have := parseString_lit (s := s) ⟨body, h, rfl⟩ hw rest
  rw [← this]; congr 1; simp

example : parseString ("  \"x\\n\\\\y\": 1".toList) = .ret (['x', '\n', '\\', 'y'], ": 1".toList) :=
  parseString_partial (body := "x\\n\\\\y".toList) (w := "  ".toList)
    (.cons (t := ['x']) (.plain _ (by decide) (by decide)) (.cons (t := ['\\', 'n']) .newline
      (.cons (t := ['\\', '\\']) .backslash (.cons (t := ['y']) (.plain _ (by decide) (by decide)) .nil))))
    (by simp [Ws]) _

/-- **C28, negation of the full statement.**  RFC 8259 escapes that are not decoded: `\b`, `\f` and
`\u0041` are legal texts of a backspace, a form feed and `A`, and are read as `b`, `f` and `u0041`. -/
theorem json_escapes_lost :
    (CharText (Char.ofNat 8) "\\b".toList ∧
      ∀ rest, parseString ('"' :: "\\b\"".toList ++ rest) = .ret ("b".toList, rest)) ∧
    (CharText (Char.ofNat 12) "\\f".toList ∧
      ∀ rest, parseString ('"' :: "\\f\"".toList ++ rest) = .ret ("f".toList, rest)) ∧
    (CharText 'A' "\\u0041".toList ∧
      ∀ rest, parseString ('"' :: "\\u0041\"".toList ++ rest) = .ret ("u0041".toList, rest)) := by
  have hg : ∀ s : Str, get ('"' :: s) = ('"', s) := fun s => get_cons (by decide) s
  refine ⟨⟨.backspace, ?_⟩, ⟨.formFeed, ?_⟩, ⟨.unicode '0' '0' '4' '1' ?_ ?_ ?_ ?_, ?_⟩⟩
  · intro rest
    simp [parseString, hg, parseStringBody_esc, parseStringBody_quote, unescape]
  · intro rest
    simp [parseString, hg, parseStringBody_esc, parseStringBody_quote, unescape]
  · exact .inl (by decide)
  · exact .inl (by decide)
  · exact .inl (by decide)
  · exact .inl (by decide)
  · intro rest
    simp [parseString, hg, parseStringBody_esc, parseStringBody_quote, unescape, parseStringBody_plain]

/-! ## Where alignment fails -/

/-- **C27, negation.**  In `[{"id":1},{"b":2}]` the key `b` occurs only in the second object, but its
value is stored in row 0, beside the first object's: the dataset has one row. -/
theorem json_misaligned :
    parseArray "[{\"id\":1},{\"b\":2}]".toList = .ret [("id".toList, ["1".toList]), ("b".toList, ["2".toList])] := by
  have p1 := pair_id "1".toList ⟨'1', [], rfl, by decide, by simp⟩ [] ws_nil [] ws_nil
  have p2 : PairText ("b".toList, .num "2".toList) ([] ++ q "b".toList ++ [] ++ ':' :: ([] ++ "2".toList ++ [])) :=
    .mk (strLit_plain _ (by decide)) (.num ⟨'2', [], rfl, by decide, by simp⟩) ws_nil ws_nil ws_nil ws_nil
  have o1 := ObjText.mk (w1 := []) (w2 := []) (ListText.one p1) ws_nil ws_nil
  have o2 := ObjText.mk (w1 := []) (w2 := []) (ListText.one p2) ws_nil ws_nil
  have := parseArray_text (ArrayText.mk (w := []) (rest := [])
    (ListText.cons o1 (by simp) (ListText.one o2)) ws_nil)
  exact this

/-- The dataset of `json_misaligned` has one row although the text has two objects. -/
theorem json_misaligned_rows [Zero R] (stod : Str → Option R) :
    ∃ ds, loadFromJSONString stod "[{\"id\":1},{\"b\":2}]".toList = .ret ds ∧ ds.rowCount = 1 := by
  obtain ⟨ds, h1, h2, _⟩ := parseArrayOfObjects_of_columns stod json_misaligned (n := 1)
    (by intro c hc; simp at hc; rcases hc with rfl | rfl <;> rfl) (by simp)
  exact ⟨ds, h1, h2⟩

/-- **C27, negation.**  An empty object adds no row: `[{"id":1},{}]` gives one row. -/
theorem json_empty_object_dropped :
    parseArray "[{\"id\":1},{}]".toList = .ret [("id".toList, ["1".toList])] := by
  have p1 := pair_id "1".toList ⟨'1', [], rfl, by decide, by simp⟩ [] ws_nil [] ws_nil
  have o1 := ObjText.mk (w1 := []) (w2 := []) (ListText.one p1) ws_nil ws_nil
  have o2 : ObjText [] ([] ++ '{' :: ([] ++ '}' :: [])) := .mk (ListText.nil ws_nil) ws_nil ws_nil
  have := parseArray_text (ArrayText.mk (w := []) (rest := [])
    (ListText.cons o1 (by simp) (ListText.one o2)) ws_nil)
  exact this

/-- **C27, negation.**  A repeated key adds a row: `[{"id":1,"id":2}]` gives two rows. -/
theorem json_duplicate_key_adds_row :
    parseArray "[{\"id\":1,\"id\":2}]".toList = .ret [("id".toList, ["1".toList, "2".toList])] := by
  have p1 := pair_id "1".toList ⟨'1', [], rfl, by decide, by simp⟩ [] ws_nil [] ws_nil
  have p2 := pair_id "2".toList ⟨'2', [], rfl, by decide, by simp⟩ [] ws_nil [] ws_nil
  have o1 := ObjText.mk (w1 := []) (w2 := []) (ListText.cons p1 (by simp) (ListText.one p2)) ws_nil ws_nil
  have := parseArray_text (ArrayText.mk (w := []) (rest := []) (ListText.one o1) ws_nil)
  exact this

/-! ## Totality -/

/-- The outcome is either `DataError` or a value with the given property. -/
def Good {α : Type} (P : α → Prop) : Outcome α → Prop
  | .ret x => P x
  | .exn e => e = .mml "DataError"
  | .ub => False

theorem Good.bind {α β : Type} {P : α → Prop} {Q : β → Prop} {o : Outcome α} {f : α → Outcome β}
    (h : Good P o) (hf : ∀ x, P x → Good Q (f x)) : Good Q (o >>= f) := by
  cases o with
  | ret x => exact hf x h
  | exn e => exact h
  | ub => exact h

theorem Good.mono {α : Type} {P Q : α → Prop} {o : Outcome α} (h : Good P o) (hf : ∀ x, P x → Q x) :
    Good Q o := by
  cases o with
  | ret x => exact hf x h
  | exn e => exact h
  | ub => exact h

theorem skipWs_length (s : Str) : (skipWs s).length ≤ s.length := (List.dropWhile_sublist _).length_le

theorem peek_length (s : Str) : (peek s).2.length ≤ s.length := by
  unfold peek
  have := skipWs_length s
  cases h : skipWs s <;> simp_all

theorem get_length (s : Str) : (get s).2.length ≤ s.length := by
  unfold get
  have := skipWs_length s
  cases h : skipWs s <;> simp_all
  omega

theorem get_length_lt {s : Str} (h : (get s).1 ≠ '\x00') : (get s).2.length < s.length := by
  unfold get at *
  have := skipWs_length s
  cases hs : skipWs s <;> simp_all
  omega

theorem parseStringBody_good : ∀ (n : Nat) (acc s : Str), s.length ≤ n →
    Good (fun p : Str × Str => p.2.length ≤ s.length) (parseStringBody acc s) := by
  intro n
  induction n with
  | zero =>
    intro acc s hs
    have : s = [] := List.length_eq_zero_iff.mp (by omega)
    subst this
    rw [parseStringBody.eq_def]; rfl
  | succ n ih =>
    intro acc s hs
    cases s with
    | nil => rw [parseStringBody.eq_def]; rfl
    | cons c cs =>
      simp only [List.length_cons] at hs
      rw [parseStringBody.eq_def]
      dsimp only
      split_ifs
      · simp [Good]
      · cases cs with
        | nil => exact (ih _ [] (by simp)).mono (fun x hx => by simp at hx ⊢; simp [hx])
        | cons e rest =>
          refine (ih _ rest (by simp at hs; omega)).mono (fun x hx => ?_)
          simp only [List.length_cons]; omega
      · refine (ih _ cs (by omega)).mono (fun x hx => ?_)
        simp only [List.length_cons]; omega

theorem parseString_good (s : Str) :
    Good (fun p : Str × Str => p.2.length < s.length) (parseString s) := by
  unfold parseString
  dsimp only
  split_ifs with h
  · rfl
  · have := get_length_lt (s := s) (by intro h0; rw [h0] at h; exact absurd h (by decide))
    exact (parseStringBody_good _ _ _ le_rfl).mono (fun x hx => by omega)

theorem parseNumber_length (s : Str) : (parseNumber s).2.length ≤ s.length := by
  have h0 := skipWs_length s
  unfold parseNumber
  dsimp only
  split
  · next heq =>
    rw [heq] at h0
    have := (List.dropWhile_sublist (l := by assumption) isNumChar).length_le
    simp at h0 ⊢; omega
  · have := (List.dropWhile_sublist (l := skipWs s) isNumChar).length_le
    simp; omega

theorem parseJsonValue_good (s : Str) :
    Good (fun p : Str × Str => p.2.length ≤ s.length) (parseJsonValue s) := by
  have hsk := skipWs_length s
  unfold parseJsonValue
  refine Good.bind (P := fun _ => True) ?_ ?_
  · unfold peekType
    dsimp only
    split_ifs <;> first | trivial | rfl
  · intro t _
    cases t with
    | string => exact (parseString_good s).mono (fun x hx => by omega)
    | number => exact parseNumber_length s
    | bool =>
      refine Good.bind (P := fun p : Bool × Str => p.2.length ≤ s.length) ?_ (fun x hx => hx)
      unfold parseBool
      dsimp only
      split_ifs
      · simp [Good]; omega
      · simp [Good]; omega
      · rfl
    | null =>
      refine Good.bind (P := fun p : Str => p.length ≤ s.length) ?_ (fun x hx => hx)
      unfold parseNull
      dsimp only
      split_ifs
      · simp [Good]; omega
      · rfl
    | array => rfl
    | object => rfl

theorem optComma_length (s : Str) : (if (peek s).1 = ',' then (get s).2 else s).length ≤ s.length := by
  split_ifs
  · exact get_length s
  · exact le_rfl

theorem parsePairs_good : ∀ (fuel : Nat) (cols : Columns) (s : Str), s.length < fuel →
    Good (fun p : Columns × Str => p.2.length ≤ s.length) (parsePairs fuel cols s) := by
  intro fuel
  induction fuel with
  | zero => intro _ _ h; omega
  | succ fuel ih =>
    intro cols s hs
    have h1 := peek_length s
    rw [parsePairs]
    dsimp only
    have h2 := optComma_length (peek s).2
    generalize hs1 : (if (peek (peek s).2).1 = ',' then (get (peek s).2).2 else (peek s).2) = s1 at h2 ⊢
    split_ifs with hc
    · exact h1
    · refine Good.bind (parseString_good _) ?_
      rintro ⟨key, s2⟩ hs2
      dsimp only at hs2 ⊢
      split_ifs
      · rfl
      · have h3 := get_length s2
        refine Good.bind (parseJsonValue_good _) ?_
        rintro ⟨v, s4⟩ hs4
        dsimp only at hs4 ⊢
        exact (ih _ s4 (by omega)).mono (fun x hx => by omega)

/-- All columns have the same length. -/
def Even (cols : Columns) : Prop := ∃ n, ∀ c ∈ cols, c.2.length = n

theorem padColumns_even (cols : Columns) : Even (padColumns cols) := by
  have hle : ∀ (cols : Columns) (a : Nat), a ≤ cols.foldl (fun m c => max m c.2.length) a ∧
      ∀ c ∈ cols, c.2.length ≤ cols.foldl (fun m c => max m c.2.length) a := by
    intro cols
    induction cols with
    | nil => intro a; simp
    | cons d ds ih =>
      intro a
      obtain ⟨i1, i2⟩ := ih (max a d.2.length)
      simp only [List.foldl_cons]
      refine ⟨by omega, ?_⟩
      intro c hc
      rcases List.mem_cons.mp hc with rfl | hc
      · omega
      · exact i2 c hc
  refine ⟨maxRows cols, ?_⟩
  intro c hc
  obtain ⟨d, hd, rfl⟩ := List.mem_map.mp hc
  have := (hle cols 0).2 d hd
  simp only [List.length_append, List.length_replicate]
  unfold maxRows
  omega

theorem parseObjects_good : ∀ (fuel : Nat) (cols : Columns) (s : Str), s.length < fuel → Even cols →
    Good (fun p : Columns × Str => Even p.1) (parseObjects fuel cols s) := by
  intro fuel
  induction fuel with
  | zero => intro _ _ h; omega
  | succ fuel ih =>
    intro cols s hs hev
    have h1 := peek_length s
    rw [parseObjects]
    dsimp only
    have h2 := optComma_length (peek s).2
    generalize hs1 : (if (peek (peek s).2).1 = ',' then (get (peek s).2).2 else (peek s).2) = s1 at h2 ⊢
    split_ifs with hc hb
    · exact hev
    · rfl
    · have hbr : (get s1).1 = '{' := by simpa using hb
      have h3 := get_length_lt (s := s1) (by rw [hbr]; decide)
      refine Good.bind (parsePairs_good _ _ _ (by omega)) ?_
      rintro ⟨cols', s4⟩ hs4
      dsimp only at hs4 ⊢
      split_ifs
      · rfl
      · have h5 := get_length s4
        exact ih _ _ (by omega) (padColumns_even cols')

theorem parseArray_good (s : Str) : Good Even (parseArray s) := by
  unfold parseArray
  dsimp only
  split_ifs
  · rfl
  · refine Good.bind (parseObjects_good _ _ _ (Nat.lt_succ_self _) ⟨0, by simp⟩) ?_
    rintro ⟨cols, s'⟩ hev
    dsimp only at hev ⊢
    split_ifs
    · rfl
    · exact hev

/-- **C61 (totality of JSON loading).**  For every text whatsoever, loading either throws `DataError`
or returns a dataset all of whose columns have exactly as many entries as it has rows; it never loops
for ever (the model's fuel never runs out) and never indexes out of range. -/
theorem parse_total [Zero R] (stod : Str → Option R) (s : Str) :
    loadFromJSONString stod s = dataError ∨
      ∃ ds, loadFromJSONString stod s = .ret ds ∧ ds.Rectangular := by
  unfold loadFromJSONString
  generalize removeBOM s = t
  have hg := parseArray_good t
  cases hp : parseArray t with
  | ub => rw [hp] at hg; exact hg.elim
  | exn e =>
    rw [hp] at hg
    left
    rw [parseArrayOfObjects, hp, hg]; rfl
  | ret cols =>
    right
    rw [hp] at hg
    obtain ⟨n, hn⟩ := hg
    by_cases hne : cols = []
    · subst hne
      refine ⟨{}, by rw [parseArrayOfObjects, hp]; rfl, ?_⟩
      intro c hc; simp at hc
    · obtain ⟨ds, h1, _, h3, _⟩ := parseArrayOfObjects_of_columns stod hp hn hne
      exact ⟨ds, h1, h3⟩

/-- Both cases occur. -/
example : loadFromJSONString (R := ℚ) (fun _ => none) "{}".toList = dataError := by
  have : get "{}".toList = ('{', "}".toList) := get_cons (by decide) _
  simp only [loadFromJSONString, removeBOM, parseArrayOfObjects, parseArray]
  rfl

/-- **C61.**  Loading a file gives the same dataset as loading its content, under the file's name; a
file that cannot be opened is a `DataError`. -/
theorem loadJSON_eq [Zero R] (stod : Str → Option R) (filename content : Str) :
    loadJSON stod filename none = dataError ∧
    loadJSON stod filename (some content) =
      (do let d ← loadFromJSONString stod content; return { d with name := filename }) :=
  ⟨rfl, rfl⟩

end Verif.Data
