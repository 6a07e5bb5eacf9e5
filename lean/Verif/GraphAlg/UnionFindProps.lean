import Verif.GraphAlg.UnionFindModel
import Mathlib.Logic.Relation
import Mathlib.Data.List.Induction
import Mathlib.Tactic.Common

/-!
# Property C12: union-find represents the generated equivalence
-/

set_option autoImplicit false

namespace Verif.Graph

/-- Following parent pointers from `x` ends in the root `r`. -/
inductive Root (p : List Nat) : Nat → Nat → Prop
  | root {x : Nat} : p[x]? = some x → Root p x x
  | step {x y r : Nat} : p[x]? = some y → y ≠ x → Root p y r → Root p x r

theorem Root.isRoot {p : List Nat} {x r : Nat} (h : Root p x r) : p[r]? = some r := by
  induction h with
  | root h => exact h
  | step _ _ _ ih => exact ih

theorem Root.det {p : List Nat} {x r r' : Nat} (h : Root p x r) (h' : Root p x r') : r = r' := by
  induction h with
  | root h =>
    cases h' with
    | root _ => rfl
    | step h1 h2 _ => rw [h] at h1; cases h1; exact absurd rfl h2
  | step h1 h2 _ ih =>
    cases h' with
    | root h3 => rw [h1] at h3; cases h3; exact absurd rfl h2
    | step h3 _ h5 => rw [h1] at h3; cases h3; exact ih h5

/-- Invariant: valid parents and ranks that grow along parent pointers. -/
structure UFInv (n : Nat) (p rk : List Nat) : Prop where
  plen : p.length = n
  rlen : rk.length = n
  par : ∀ x y : Nat, p[x]? = some y → y < n
  rank : ∀ x y a b : Nat, p[x]? = some y → y ≠ x → rk[x]? = some a → rk[y]? = some b → a < b

theorem getElem?_le_sum (l : List Nat) (i a : Nat) (h : l[i]? = some a) : a ≤ l.sum := by
  induction l generalizing i with
  | nil => simp at h
  | cons x l ih =>
    cases i with
    | zero => simp at h; subst h; simp
    | succ i => simp at h; have := ih i h; simp; omega

/-- Redirecting a non-root to its own root changes no root. -/
theorem root_compress {p : List Nat} {x r : Nat} (hx : Root p x r) (hne : r ≠ x) (y z : Nat) :
    Root (p.set x r) y z ↔ Root p y z := by
  have hxlt : x < p.length := by
    cases hx with
    | root _ => exact absurd rfl hne
    | step h1 _ _ => exact (List.getElem?_eq_some_iff.1 h1).1
  have hget : ∀ w, (p.set x r)[w]? = if w = x then some r else p[w]? := by
    intro w
    by_cases hw : w = x
    · subst hw; simp [hxlt]
    · rw [List.getElem?_set_ne (Ne.symm hw), if_neg hw]
  have hr : p[r]? = some r := hx.isRoot
  constructor
  · intro h
    induction h with
    | @root a ha =>
      rw [hget] at ha
      split at ha
      · next hax => subst hax; exact absurd (Option.some.inj ha) hne
      · exact .root ha
    | @step a b c ha hb _ ih =>
      rw [hget] at ha
      split at ha
      · next hax =>
        subst hax
        cases ha
        have := ih.det (.root hr)
        subst this; exact hx
      · exact .step ha hb ih
  · intro h
    induction h with
    | @root a ha =>
      have : a ≠ x := by
        rintro rfl
        exact hne (hx.det (.root ha))
      exact .root (by rw [hget, if_neg this]; exact ha)
    | @step a b c ha hb hbc ih =>
      by_cases hax : a = x
      · subst hax
        have hc : c = r := (Root.step ha hb hbc).det hx
        subst hc
        exact .step (by rw [hget, if_pos rfl]) hne (.root (by rw [hget, if_neg hne]; exact hr))
      · exact .step (by rw [hget, if_neg hax]; exact ha) hb ih

theorem Root.rank_lt {n : Nat} {p rk : List Nat} (hI : UFInv n p rk) {x r : Nat} (h : Root p x r)
    (hne : r ≠ x) {a b : Nat} (ha : rk[x]? = some a) (hb : rk[r]? = some b) : a < b := by
  induction h generalizing a with
  | root _ => exact absurd rfl hne
  | @step x y r h1 h2 h3 ih =>
    have hy := hI.par _ _ h1
    have hylt : y < rk.length := by rw [hI.rlen]; exact hy
    have hc := List.getElem?_eq_getElem hylt
    have h4 := hI.rank _ _ _ _ h1 h2 ha hc
    by_cases hry : r = y
    · subst hry; rw [hc] at hb; cases hb; exact h4
    · exact Nat.lt_trans h4 (ih hry hc hb)

theorem root_lt {n : Nat} {p rk : List Nat} (hI : UFInv n p rk) {x r : Nat} (h : Root p x r) : x < n ∧ r < n := by
  have h1 : ∀ {y z : Nat}, p[y]? = some z → y < n := by
    intro y z h; rw [← hI.plen]; exact (List.getElem?_eq_some_iff.1 h).1
  refine ⟨?_, h1 h.isRoot⟩
  cases h with
  | root h => exact h1 h
  | step h _ _ => exact h1 h

theorem ufInv_compress {n : Nat} {p rk : List Nat} (hI : UFInv n p rk) {x r : Nat} (hx : Root p x r)
    (hne : r ≠ x) : UFInv n (p.set x r) rk := by
  have hxlt : x < p.length := by rw [hI.plen]; exact (root_lt hI hx).1
  refine ⟨by simp [hI.plen], hI.rlen, ?_, ?_⟩
  · intro a b hab
    by_cases ha : a = x
    · subst ha; simp [hxlt] at hab; subst hab; exact (root_lt hI hx).2
    · rw [List.getElem?_set_ne (Ne.symm ha)] at hab; exact hI.par a b hab
  · intro a b c d hab hne' hc hd
    by_cases ha : a = x
    · subst ha; simp [hxlt] at hab; subst hab
      exact hx.rank_lt hI hne' hc hd
    · rw [List.getElem?_set_ne (Ne.symm ha)] at hab; exact hI.rank a b c d hab hne' hc hd

/-- `find` returns the root, keeps the invariant and changes no root. -/
theorem ufFind_spec {n : Nat} {p rk : List Nat} (hI : UFInv n p rk) :
    ∀ (fuel x a : Nat), rk[x]? = some a → rk.sum - a < fuel →
      ∃ p' r, ufFind fuel p x = some (.ret (p', r)) ∧ Root p x r ∧ UFInv n p' rk ∧
        ∀ y z, Root p' y z ↔ Root p y z := by
  intro fuel
  induction fuel with
  | zero => intro x a _ h; omega
  | succ fuel ih =>
    intro x a ha hf
    have hx : x < p.length := by rw [hI.plen, ← hI.rlen]; exact (List.getElem?_eq_some_iff.1 ha).1
    have hpx := List.getElem?_eq_getElem hx
    simp only [ufFind, hpx]
    by_cases hne : p[x] = x
    · rw [if_neg (by simpa using hne)]
      refine ⟨p, p[x], rfl, ?_, hI, fun _ _ => Iff.rfl⟩
      rw [hne] at hpx ⊢
      exact .root hpx
    · rw [if_pos hne]
      have hylt : p[x] < rk.length := by rw [hI.rlen]; exact hI.par _ _ hpx
      have hb := List.getElem?_eq_getElem hylt
      have h1 := hI.rank _ _ _ _ hpx hne ha hb
      have h2 := getElem?_le_sum _ _ _ hb
      obtain ⟨p', r, h3, h4, h5, h6⟩ := ih (p[x]) _ hb (by omega)
      rw [h3]
      have hxr : Root p x r := .step hpx hne h4
      have hxr' : Root p' x r := (h6 x r).2 hxr
      have hrx : r ≠ x := by
        rintro rfl
        have := h4.isRoot
        rw [hpx] at this
        exact hne (Option.some.inj this)
      refine ⟨p'.set x r, r, rfl, hxr, ufInv_compress h5 hxr' hrx, ?_⟩
      intro y z
      rw [root_compress hxr' hrx, h6]

theorem UF.find_spec {n : Nat} {u : UF} (hI : UFInv n u.parent u.rank) {x : Nat} (hx : x < n) :
    ∃ p' r, u.find x = some (.ret (⟨p', u.rank⟩, r)) ∧ Root u.parent x r ∧ UFInv n p' u.rank ∧
      ∀ y z, Root p' y z ↔ Root u.parent y z := by
  have hlt : x < u.rank.length := by rw [hI.rlen]; exact hx
  obtain ⟨p', r, h1, h2⟩ := ufFind_spec hI (u.rank.sum + 1) x _ (List.getElem?_eq_getElem hlt) (by omega)
  exact ⟨p', r, by simp [UF.find, h1], h2⟩

/-- Attaching the root `b` to the root `a`. -/
theorem root_link {n : Nat} {p rk : List Nat} (hI : UFInv n p rk) {a b : Nat} (ha : p[a]? = some a)
    (hb : p[b]? = some b) (hab : a ≠ b) (y z : Nat) :
    Root (p.set b a) y z ↔ (Root p y z ∧ z ≠ b) ∨ (Root p y b ∧ z = a) := by
  have hblt : b < p.length := (List.getElem?_eq_some_iff.1 hb).1
  have hget : ∀ w, (p.set b a)[w]? = if w = b then some a else p[w]? := by
    intro w
    by_cases hw : w = b
    · subst hw; simp [hblt]
    · rw [List.getElem?_set_ne (Ne.symm hw), if_neg hw]
  constructor
  · intro h
    induction h with
    | @root x hx =>
      rw [hget] at hx
      split at hx
      · next hxb => subst hxb; exact absurd (Option.some.inj hx) hab
      · next hxb => exact Or.inl ⟨.root hx, hxb⟩
    | @step x w c hx hw _ ih =>
      rw [hget] at hx
      split at hx
      · next hxb =>
        subst hxb
        cases hx
        right
        refine ⟨.root hb, ?_⟩
        rcases ih with ⟨h1, _⟩ | ⟨h1, h2⟩
        · exact h1.det (.root ha)
        · exact h2
      · rcases ih with ⟨h1, h2⟩ | ⟨h1, h2⟩
        · exact Or.inl ⟨.step hx hw h1, h2⟩
        · exact Or.inr ⟨.step hx hw h1, h2⟩
  · have haroot : Root (p.set b a) a a := .root (by rw [hget, if_neg hab]; exact ha)
    have key : ∀ {y z : Nat}, Root p y z → Root (p.set b a) y (if z = b then a else z) := by
      intro y z h
      induction h with
      | @root x hx =>
        split
        · next hxb =>
          subst hxb
          exact .step (by rw [hget, if_pos rfl]) hab haroot
        · next hxb => exact .root (by rw [hget, if_neg hxb]; exact hx)
      | @step x w c hx hw _ ih =>
        have hxb : x ≠ b := by
          rintro rfl
          rw [hb] at hx; exact hw (Option.some.inj hx).symm
        exact .step (by rw [hget, if_neg hxb]; exact hx) hw ih
    rintro (⟨h1, h2⟩ | ⟨h1, rfl⟩)
    · have := key h1; rwa [if_neg h2] at this
    · have := key h1; rwa [if_pos rfl] at this

theorem ufInv_link {n : Nat} {p rk : List Nat} (hI : UFInv n p rk) {a b ra rb : Nat} (ha : p[a]? = some a)
    (hb : p[b]? = some b) (hab : a ≠ b) (hra : rk[a]? = some ra) (hrb : rk[b]? = some rb) (hle : rb ≤ ra) :
    UFInv n (p.set b a) (if ra = rb then rk.set a (ra + 1) else rk) := by
  have hblt : b < p.length := (List.getElem?_eq_some_iff.1 hb).1
  have halt : a < rk.length := (List.getElem?_eq_some_iff.1 hra).1
  have hget : ∀ w, (p.set b a)[w]? = if w = b then some a else p[w]? := by
    intro w
    by_cases hw : w = b
    · subst hw; simp [hblt]
    · rw [List.getElem?_set_ne (Ne.symm hw), if_neg hw]
  -- new ranks: the rank of `a` exceeds `rb`, other ranks are unchanged
  obtain ⟨rk', hrk', ra', hra', hgt, hge, hother, hlen⟩ : ∃ rk', (if ra = rb then rk.set a (ra + 1) else rk) = rk' ∧
      ∃ ra', rk'[a]? = some ra' ∧ rb < ra' ∧ ra ≤ ra' ∧ (∀ w, w ≠ a → rk'[w]? = rk[w]?) ∧ rk'.length = rk.length := by
    refine ⟨_, rfl, ?_⟩
    split
    · next h =>
      subst h
      refine ⟨ra + 1, by simp [halt], by omega, by omega, fun w hw => ?_, by simp⟩
      rw [List.getElem?_set_ne (Ne.symm hw)]
    · exact ⟨ra, hra, by omega, Nat.le_refl _, fun _ _ => rfl, rfl⟩
  rw [hrk']
  refine ⟨by simp [hI.plen], by rw [hlen, hI.rlen], ?_, ?_⟩
  · intro x y hxy
    rw [hget] at hxy
    split at hxy
    · cases hxy; rw [← hI.rlen]; exact halt
    · exact hI.par x y hxy
  · intro x y c d hxy hne hc hd
    rw [hget] at hxy
    split at hxy
    · next hxb =>
      subst hxb
      cases hxy
      rw [hother x (Ne.symm hab), hrb] at hc
      rw [hra'] at hd
      cases hc; cases hd; exact hgt
    · next hxb =>
      have hxa : x ≠ a := by
        rintro rfl
        rw [ha] at hxy; exact hne (Option.some.inj hxy).symm
      rw [hother x hxa] at hc
      by_cases hya : y = a
      · subst hya
        rw [hra'] at hd; cases hd
        exact Nat.lt_of_lt_of_le (hI.rank x y c ra hxy hne hc hra) hge
      · rw [hother y hya] at hd
        exact hI.rank x y c d hxy hne hc hd

/-- The structure represents the relation `R`. -/
structure UFRep (n : Nat) (u : UF) (R : Nat → Nat → Prop) : Prop where
  inv : UFInv n u.parent u.rank
  rel : ∀ a b r s : Nat, Root u.parent a r → Root u.parent b s → (r = s ↔ R a b)

/-- Every element has a root. -/
theorem exists_root {n : Nat} {u : UF} (hI : UFInv n u.parent u.rank) {x : Nat} (hx : x < n) :
    ∃ r, Root u.parent x r := by
  obtain ⟨_, r, _, h, _⟩ := UF.find_spec hI hx
  exact ⟨r, h⟩

/-- Specification: the equivalence generated by a set of pairs. -/
abbrev Generated (P : Nat → Nat → Prop) : Nat → Nat → Prop := Relation.EqvGen P

theorem UFRep.find {n : Nat} {u : UF} {R : Nat → Nat → Prop} (h : UFRep n u R) {x : Nat} (hx : x < n) :
    ∃ u' r, u.find x = some (.ret (u', r)) ∧ UFRep n u' R ∧ Root u.parent x r ∧
      ∀ y z, Root u'.parent y z ↔ Root u.parent y z := by
  obtain ⟨p', r, h1, h2, h3, h4⟩ := UF.find_spec h.inv hx
  refine ⟨_, r, h1, ⟨h3, ?_⟩, h2, h4⟩
  intro a b r s hr hs
  exact h.rel a b r s ((h4 _ _).1 hr) ((h4 _ _).1 hs)

/-- `unite` returns, adds the pair to the relation and reports whether it was new. -/
theorem UFRep.unite {n : Nat} {u : UF} {P : Nat → Nat → Prop} (h : UFRep n u (Generated P))
    {x y : Nat} (hx : x < n) (hy : y < n) :
    ∃ u' b, u.unite x y = some (.ret (u', b)) ∧ (b = true ↔ ¬ Generated P x y) ∧
      UFRep n u' (Generated (fun a b => P a b ∨ (a = x ∧ b = y))) := by
  obtain ⟨u1, px, h1, hr1, hpx, heq1⟩ := h.find hx
  obtain ⟨u2, py, h2, hr2, hpy, heq2⟩ := hr1.find hy
  have hpx2 : Root u2.parent x px := (heq2 _ _).2 ((heq1 _ _).2 hpx)
  have hpy2 : Root u2.parent y py := (heq2 _ _).2 hpy
  have hxy := hr2.rel x y px py hpx2 hpy2
  -- the enlarged relation
  have hmono : ∀ a b, Generated P a b → Generated (fun a b => P a b ∨ (a = x ∧ b = y)) a b :=
    fun a b hab => hab.mono (fun _ _ h => Or.inl h)
  have hchar : ∀ a b, Generated (fun a b => P a b ∨ (a = x ∧ b = y)) a b →
      Generated P a b ∨ (Generated P a x ∧ Generated P b y) ∨ (Generated P a y ∧ Generated P b x) := by
    intro a b hab
    have hs : ∀ {a b : Nat}, Generated P a b → Generated P b a := fun h => h.symm
    have ht : ∀ {a b c : Nat}, Generated P a b → Generated P b c → Generated P a c := fun h h' => h.trans _ _ _ h'
    induction hab with
    | rel a b hab =>
      rcases hab with hab | ⟨rfl, rfl⟩
      · exact Or.inl (.rel _ _ hab)
      · exact Or.inr (Or.inl ⟨.refl _, .refl _⟩)
    | refl a => exact Or.inl (.refl a)
    | symm a b _ ih =>
      rcases ih with h | ⟨h, h'⟩ | ⟨h, h'⟩
      · exact Or.inl (hs h)
      · exact Or.inr (Or.inr ⟨h', h⟩)
      · exact Or.inr (Or.inl ⟨h', h⟩)
    | trans a b c _ _ ih1 ih2 =>
      rcases ih1 with h | ⟨h, h'⟩ | ⟨h, h'⟩ <;> rcases ih2 with k | ⟨k, k'⟩ | ⟨k, k'⟩
      · exact Or.inl (ht h k)
      · exact Or.inr (Or.inl ⟨ht h k, k'⟩)
      · exact Or.inr (Or.inr ⟨ht h k, k'⟩)
      · exact Or.inr (Or.inl ⟨h, ht (hs k) h'⟩)
      · exact Or.inr (Or.inl ⟨h, k'⟩)
      · exact Or.inl (ht h (hs k'))
      · exact Or.inr (Or.inr ⟨h, ht (hs k) h'⟩)
      · exact Or.inl (ht h (hs k'))
      · exact Or.inr (Or.inr ⟨h, k'⟩)
  have hnew : Generated (fun a b => P a b ∨ (a = x ∧ b = y)) x y := .rel _ _ (Or.inr ⟨rfl, rfl⟩)
  simp only [UF.unite, h1, h2, UF.link]
  by_cases hpq : px = py
  · rw [if_pos hpq]
    have hgen := hxy.1 hpq
    refine ⟨_, _, rfl, by simp [hgen], hr2.inv, ?_⟩
    intro a b r s hr hs
    rw [hr2.rel a b r s hr hs]
    refine ⟨hmono a b, fun hab => ?_⟩
    rcases hchar a b hab with k | ⟨k, k'⟩ | ⟨k, k'⟩
    · exact k
    · exact (k.trans _ _ _ hgen).trans _ _ _ k'.symm
    · exact (k.trans _ _ _ hgen.symm).trans _ _ _ k'.symm
  · rw [if_neg hpq]
    have hpxn := (root_lt hr2.inv hpx2).2
    have hpyn := (root_lt hr2.inv hpy2).2
    obtain ⟨rx, hrx⟩ : ∃ rx, u2.rank[px]? = some rx :=
      ⟨_, List.getElem?_eq_getElem (show px < u2.rank.length by rw [hr2.inv.rlen]; exact hpxn)⟩
    obtain ⟨ry, hry⟩ : ∃ ry, u2.rank[py]? = some ry :=
      ⟨_, List.getElem?_eq_getElem (show py < u2.rank.length by rw [hr2.inv.rlen]; exact hpyn)⟩
    rw [hrx, hry]
    -- both orientations
    have fin : ∀ a b ra rb, u2.parent[a]? = some a → u2.parent[b]? = some b → a ≠ b →
        u2.rank[a]? = some ra → u2.rank[b]? = some rb → rb ≤ ra →
        ((a = px ∧ b = py) ∨ (a = py ∧ b = px)) →
        UFRep n ⟨u2.parent.set b a, if ra = rb then u2.rank.set a (ra + 1) else u2.rank⟩
          (Generated (fun a b => P a b ∨ (a = x ∧ b = y))) := by
      intro a b ra rb ha hb hab hra hrb hle hor
      refine ⟨ufInv_link hr2.inv ha hb hab hra hrb hle, ?_⟩
      intro c d r s hr hs
      dsimp only at hr hs
      rw [root_link hr2.inv ha hb hab] at hr hs
      -- old roots of c and d
      have hroots : ∀ {w t : Nat}, (Root u2.parent w t ∧ t ≠ b ∨ Root u2.parent w b ∧ t = a) →
          ∃ t0, Root u2.parent w t0 ∧ t = if t0 = b then a else t0 := by
        rintro w t (⟨k, k'⟩ | ⟨k, k'⟩)
        · exact ⟨t, k, by rw [if_neg k']⟩
        · exact ⟨b, k, by rw [if_pos rfl]; exact k'⟩
      obtain ⟨r0, hr0, hr0e⟩ := hroots hr
      obtain ⟨s0, hs0, hs0e⟩ := hroots hs
      have hax : ∀ {w : Nat}, Root u2.parent w px → Generated P w x := fun k =>
        (hr2.rel _ _ _ _ k hpx2).1 rfl
      have hay : ∀ {w : Nat}, Root u2.parent w py → Generated P w y := fun k =>
        (hr2.rel _ _ _ _ k hpy2).1 rfl
      constructor
      · intro hrs
        by_cases h0 : r0 = s0
        · exact hmono _ _ ((hr2.rel c d r0 s0 hr0 hs0).1 h0)
        · have hpair : (r0 = a ∧ s0 = b) ∨ (r0 = b ∧ s0 = a) := by
            rw [hr0e, hs0e] at hrs
            split at hrs <;> split at hrs
            · next e1 e2 => exact absurd (e1.trans e2.symm) h0
            · next e1 e2 => exact Or.inr ⟨e1, hrs.symm⟩
            · next e1 e2 => exact Or.inl ⟨hrs, e2⟩
            · exact absurd hrs h0
          have htwo : (r0 = px ∧ s0 = py) ∨ (r0 = py ∧ s0 = px) := by
            rcases hor with ⟨rfl, rfl⟩ | ⟨rfl, rfl⟩ <;> tauto
          rcases htwo with ⟨rfl, rfl⟩ | ⟨rfl, rfl⟩
          · exact ((hmono _ _ (hax hr0)).trans _ _ _ hnew).trans _ _ _ (hmono _ _ (hay hs0)).symm
          · exact ((hmono _ _ (hay hr0)).trans _ _ _ hnew.symm).trans _ _ _ (hmono _ _ (hax hs0)).symm
      · intro hcd
        rw [hr0e, hs0e]
        rcases hchar c d hcd with k | ⟨k, k'⟩ | ⟨k, k'⟩
        · rw [(hr2.rel c d r0 s0 hr0 hs0).2 k]
        · have e1 : r0 = px := (hr2.rel _ _ _ _ hr0 hpx2).2 k
          have e2 : s0 = py := (hr2.rel _ _ _ _ hs0 hpy2).2 k'
          rcases hor with ⟨rfl, rfl⟩ | ⟨rfl, rfl⟩ <;> simp_all
        · have e1 : r0 = py := (hr2.rel _ _ _ _ hr0 hpy2).2 k
          have e2 : s0 = px := (hr2.rel _ _ _ _ hs0 hpx2).2 k'
          rcases hor with ⟨rfl, rfl⟩ | ⟨rfl, rfl⟩ <;> simp_all
    have hnot : ¬ Generated P x y := fun k => hpq (hxy.2 k)
    by_cases hlt : rx < ry
    · simp only [hlt, if_true]
      refine ⟨_, true, rfl, by simp [hnot], ?_⟩
      exact fin py px _ _ hpy2.isRoot hpx2.isRoot (Ne.symm hpq) hry hrx (by omega) (Or.inr ⟨rfl, rfl⟩)
    · simp only [hlt, if_false]
      refine ⟨_, true, rfl, by simp [hnot], ?_⟩
      exact fin px py _ _ hpx2.isRoot hpy2.isRoot hpq hrx hry (by omega) (Or.inl ⟨rfl, rfl⟩)

theorem ufRep_new (n : Nat) : UFRep n (UF.new n) (Generated (fun _ _ => False)) := by
  have hpar : ∀ x y, (UF.new n).parent[x]? = some y → y = x ∧ x < n := by
    intro x y h
    simp only [UF.new] at h
    obtain ⟨h1, h2⟩ := List.getElem?_eq_some_iff.1 h
    simp at h1 h2
    exact ⟨h2.symm, h1⟩
  refine ⟨⟨by simp [UF.new], by simp [UF.new], ?_, ?_⟩, ?_⟩
  · intro x y h; obtain ⟨rfl, h⟩ := hpar x y h; exact h
  · intro x y a b h hne; exact absurd (hpar x y h).1 hne
  · intro a b r s hr hs
    have hself : ∀ {x r : Nat}, Root (UF.new n).parent x r → r = x := by
      intro x r h
      cases h with
      | root _ => rfl
      | step h1 h2 _ => exact absurd (hpar _ _ h1).1 h2
    rw [hself hr, hself hs]
    constructor
    · rintro rfl; exact .refl _
    · intro h
      clear hr hs
      induction h with
      | rel _ _ h => exact h.elim
      | refl _ => rfl
      | symm _ _ _ ih => exact ih.symm
      | trans _ _ _ _ _ ih1 ih2 => exact ih1.trans ih2

/-- Specification: all arguments of the history are elements. -/
def ValidOps (n : Nat) (ops : List UFOp) : Prop :=
  ∀ op ∈ ops, match op with
    | .find x => x < n
    | .unite x y => x < n ∧ y < n

/-- Specification: the pairs united in a history. -/
def United (ops : List UFOp) (a b : Nat) : Prop := UFOp.unite a b ∈ ops

theorem ufRun_rep (n : Nat) (ops : List UFOp) (h : ValidOps n ops) :
    ∃ u, UF.run n ops = some (.ret u) ∧ UFRep n u (Generated (United ops)) := by
  induction ops using List.reverseRecOn with
  | nil =>
    refine ⟨_, rfl, ?_⟩
    have : United [] = fun _ _ => False := by funext a b; simp [United]
    rw [this]; exact ufRep_new n
  | append_singleton ops op ih =>
    obtain ⟨u, h1, h2⟩ := ih (fun o ho => h o (List.mem_append_left _ ho))
    have hrun : UF.run n (ops ++ [op]) = u.apply op := by
      unfold UF.run at h1 ⊢
      rw [List.foldl_append, h1]; rfl
    rw [hrun]
    have hop := h op (by simp)
    cases op with
    | find x =>
      obtain ⟨u', r, h3, h4, _⟩ := h2.find hop
      refine ⟨u', by simp [UF.apply, h3], ?_⟩
      have : United (ops ++ [UFOp.find x]) = United ops := by funext a b; simp [United]
      rw [this]; exact h4
    | unite x y =>
      obtain ⟨u', b, h3, _, h4⟩ := h2.unite hop.1 hop.2
      refine ⟨u', by simp [UF.apply, h3], ?_⟩
      have : United (ops ++ [UFOp.unite x y]) = fun a b => United ops a b ∨ (a = x ∧ b = y) := by
        funext a b; simp [United]
      rw [this]; exact h4

/-- **C12.** After any history of `find` and `unite` calls on valid elements no call has gone wrong, and for
all elements `a` and `b`: `find(a)` and then `find(b)` return the same element exactly when `a` and `b` are
related by the equivalence generated by the united pairs, and `unite(a, b)` returns `true` exactly when
they are not. -/
theorem unionFind_correct (n : Nat) (ops : List UFOp) (h : ValidOps n ops) :
    ∃ u, UF.run n ops = some (.ret u) ∧
      ∀ a b, a < n → b < n →
        (∃ u1 u2 ra rb, u.find a = some (.ret (u1, ra)) ∧ u1.find b = some (.ret (u2, rb)) ∧
          (ra = rb ↔ Generated (United ops) a b)) ∧
        (∃ u' r, u.unite a b = some (.ret (u', r)) ∧ (r = true ↔ ¬ Generated (United ops) a b)) := by
  obtain ⟨u, h1, h2⟩ := ufRun_rep n ops h
  refine ⟨u, h1, fun a b ha hb => ⟨?_, ?_⟩⟩
  · obtain ⟨u1, ra, h3, h4, h5, h6⟩ := h2.find ha
    obtain ⟨u2, rb, h7, h8, h9, h10⟩ := h4.find hb
    exact ⟨u1, u2, ra, rb, h3, h7, h4.rel a b ra rb ((h6 _ _).2 h5) h9⟩
  · obtain ⟨u', r, h3, h4, _⟩ := h2.unite ha hb
    exact ⟨u', r, h3, h4⟩

/-- **C12** (`find` is stable).  The element returned by `find` is a fixed representative: it is returned
again by every later `find` of the same class until the next successful `unite`. -/
theorem unionFind_find_stable (n : Nat) (ops : List UFOp) (h : ValidOps n ops) (u : UF)
    (hu : UF.run n ops = some (.ret u)) {a b : Nat} (ha : a < n) (hb : b < n) {u1 : UF} {ra : Nat}
    (hf : u.find a = some (.ret (u1, ra))) :
    ∃ u2, u1.find b = some (.ret (u2, (match u.find b with | some (.ret (_, rb)) => rb | _ => b))) := by
  obtain ⟨u', h1, h2⟩ := ufRun_rep n ops h
  rw [hu] at h1; cases h1
  obtain ⟨v1, r1, h3, h4, h5, h6⟩ := h2.find ha
  rw [hf] at h3; cases h3
  obtain ⟨v2, rb, h7, _, h8, _⟩ := h4.find hb
  obtain ⟨v3, rb', h9, _, h10, _⟩ := h2.find hb
  have : rb = rb' := ((h6 _ _).1 h8).det h10
  subst this
  exact ⟨v2, by rw [h7, h9]⟩

/-! ### Concrete instances -/

/-- A history with an indirect connection 0-1-2-3 and a redundant `unite`. -/
def sampleUF : List UFOp := [.unite 0 1, .unite 2 3, .find 3, .unite 1 3, .unite 0 2]

example : ValidOps 6 sampleUF := by simp [ValidOps, sampleUF]

example : ∃ u u1 u2, UF.run 6 sampleUF = some (.ret u) ∧ u.find 1 = some (.ret (u1, 0)) ∧
    u1.find 2 = some (.ret (u2, 0)) := ⟨_, _, _, rfl, rfl, rfl⟩

end Verif.Graph
