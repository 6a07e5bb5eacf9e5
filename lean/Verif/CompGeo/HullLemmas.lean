import Verif.CompGeo.HullModel
import Mathlib.Tactic.Ring
import Mathlib.Tactic.Positivity
import Mathlib.Tactic.NormNum
import Mathlib.Tactic.LinearCombination
import Mathlib.Tactic.Linarith
import Mathlib.Data.List.Chain

/-!
# Chains of points: orientation along a lexicographic order
-/

set_option autoImplicit false

namespace Verif.CompGeo

open Verif

/-! ## Vectors -/

def cr (u v : ℝ × ℝ) : ℝ := u.1 * v.2 - u.2 * v.1

def LexPos (v : ℝ × ℝ) : Prop := 0 < v.1 ∨ v.1 = 0 ∧ 0 < v.2

theorem cr_weak {a b c : ℝ × ℝ} (ha : LexPos a) (hb : LexPos b) (hc : LexPos c) (h1 : 0 ≤ cr a b) (h2 : 0 ≤ cr b c) :
    0 ≤ cr a c := by
  have ha1 : 0 ≤ a.1 := by rcases ha with h | ⟨h, -⟩ <;> linarith
  have hc1 : 0 ≤ c.1 := by rcases hc with h | ⟨h, -⟩ <;> linarith
  have key : b.1 * cr a c = c.1 * cr a b + a.1 * cr b c := by simp only [cr]; ring
  rcases hb with hb | ⟨hb, hb2⟩
  · have : 0 ≤ b.1 * cr a c := by rw [key]; positivity
    exact nonneg_of_mul_nonneg_right this hb
  · simp only [cr, hb] at h2 ⊢
    have hc0 : c.1 = 0 := by
      by_contra hne
      have : 0 < c.1 := lt_of_le_of_ne hc1 (Ne.symm hne)
      nlinarith
    rcases hc with hc | hc
    · linarith
    · rw [hc0]
      nlinarith [hc.2]

theorem cr_strict {a b c : ℝ × ℝ} (ha : LexPos a) (hb : LexPos b) (hc : LexPos c) (h1 : 0 < cr a b) (h2 : 0 < cr b c) :
    0 < cr a c := by
  have ha1 : 0 ≤ a.1 := by rcases ha with h | ⟨h, -⟩ <;> linarith
  have hc1 : 0 ≤ c.1 := by rcases hc with h | ⟨h, -⟩ <;> linarith
  have key : b.1 * cr a c = c.1 * cr a b + a.1 * cr b c := by simp only [cr]; ring
  rcases hb with hb | ⟨hb, hb2⟩
  · rcases ha with ha | ⟨ha, ha2⟩
    · have : 0 < b.1 * cr a c := by
        rw [key]
        have := mul_nonneg hc1 h1.le
        have := mul_pos ha h2
        linarith
      exact pos_of_mul_pos_right this hb.le
    · simp only [cr, ha] at h1
      nlinarith
  · simp only [cr, hb] at h2
    nlinarith

/-! ## Points -/

/-- Before, in the lexicographic order (`σ = 1`) or its reverse (`σ = -1`). -/
def Lt (σ : ℝ) (a b : ℝ × ℝ) : Prop := LexPos (σ * (b.1 - a.1), σ * (b.2 - a.2))

/-- A direction to run through the points in. -/
def Dir (σ : ℝ) : Prop := σ = 1 ∨ σ = -1

theorem Dir.sq {σ : ℝ} (h : Dir σ) : σ * σ = 1 := by rcases h with rfl | rfl <;> norm_num

theorem Lt.trichotomy {σ : ℝ} (h : Dir σ) (a b : ℝ × ℝ) : a = b ∨ Lt σ a b ∨ Lt σ b a := by
  rcases lt_trichotomy (σ * (b.1 - a.1)) 0 with h1 | h1 | h1
  · exact Or.inr (Or.inr (Or.inl (by nlinarith)))
  · have h1' : b.1 - a.1 = 0 := by have := h.sq; rcases mul_eq_zero.mp h1 with h0 | h0 <;> nlinarith
    rcases lt_trichotomy (σ * (b.2 - a.2)) 0 with h2 | h2 | h2
    · exact Or.inr (Or.inr (Or.inr ⟨by dsimp only; rw [show a.1 - b.1 = 0 by linarith, mul_zero], by dsimp only; nlinarith⟩))
    · have h2' : b.2 - a.2 = 0 := by have := h.sq; rcases mul_eq_zero.mp h2 with h0 | h0 <;> nlinarith
      exact Or.inl (Prod.ext (by linarith) (by linarith))
    · exact Or.inr (Or.inl (Or.inr ⟨h1, h2⟩))
  · exact Or.inr (Or.inl (Or.inl h1))

theorem Lt.trans {σ : ℝ} {a b c : ℝ × ℝ} (h1 : Lt σ a b) (h2 : Lt σ b c) : Lt σ a c := by
  rcases h1 with h1 | ⟨h1, h1'⟩ <;> rcases h2 with h2 | ⟨h2, h2'⟩ <;> dsimp only at h1 h2
  · exact Or.inl (by dsimp only; linarith)
  · exact Or.inl (by dsimp only; linarith)
  · exact Or.inl (by dsimp only; linarith)
  · exact Or.inr ⟨by dsimp only; linarith, by dsimp only at h1' h2' ⊢; linarith⟩

theorem Lt.irrefl {σ : ℝ} {a : ℝ × ℝ} (h : Lt σ a a) : False := by
  rcases h with h | ⟨-, h⟩ <;> simp at h

theorem Lt.ne {σ : ℝ} {a b : ℝ × ℝ} (h : Lt σ a b) : a ≠ b := by
  rintro rfl
  exact h.irrefl

theorem Lt.asymm {σ : ℝ} {a b : ℝ × ℝ} (h : Lt σ a b) (h' : Lt σ b a) : False := (h.trans h').irrefl

theorem Lt.neg {σ : ℝ} {a b : ℝ × ℝ} (h : Lt σ a b) : Lt (-σ) b a := by
  have e : ((-σ * (a.1 - b.1), -σ * (a.2 - b.2)) : ℝ × ℝ) = (σ * (b.1 - a.1), σ * (b.2 - a.2)) :=
    Prod.ext (by dsimp only; ring) (by dsimp only; ring)
  rw [Lt, e]
  exact h

/-- The cross product of the steps from `a` to `b` and from `c` to `d`, in terms of the order's vectors. -/
theorem cr_dir {σ : ℝ} (h : Dir σ) (a b c d : ℝ × ℝ) :
    cr (σ * (b.1 - a.1), σ * (b.2 - a.2)) (σ * (d.1 - c.1), σ * (d.2 - c.2)) =
      (b.1 - a.1) * (d.2 - c.2) - (b.2 - a.2) * (d.1 - c.1) := by
  simp only [cr]
  linear_combination ((b.1 - a.1) * (d.2 - c.2) - (b.2 - a.2) * (d.1 - c.1)) * h.sq

/-- Appending an edge to a left turn: earlier points are to the left of the new edge. -/
theorem left_of_new {σ : ℝ} (h : Dir σ) {a' a p q : ℝ × ℝ} (h1 : Lt σ a' a) (h2 : Lt σ q a) (h3 : Lt σ a p)
    (hq : 0 ≤ cross a' a q) (hp : 0 ≤ cross a' a p) : 0 ≤ cross a p q := by
  have h4 := cr_weak h2 h1 h3
    (by rw [cr_dir h]; simp only [cross] at hq; nlinarith) (by rw [cr_dir h]; simp only [cross] at hp; nlinarith)
  rw [cr_dir h] at h4
  simp only [cross]
  nlinarith

/-- Replacing an edge after a right turn: later points stay to the left. -/
theorem left_of_shortcut {σ : ℝ} (h : Dir σ) {a b p q : ℝ × ℝ} (h1 : Lt σ a b) (h2 : Lt σ a p) (h3 : Lt σ a q)
    (hq : 0 ≤ cross a b q) (hp : cross a b p ≤ 0) : 0 ≤ cross a p q := by
  have h4 := cr_weak h2 h1 h3
    (by rw [cr_dir h]; simp only [cross] at hp; nlinarith) (by rw [cr_dir h]; simp only [cross] at hq; nlinarith)
  rw [cr_dir h] at h4
  simp only [cross]
  nlinarith

/-- A left turn followed by a left turn: the last point is to the left of the first edge. -/
theorem left_of_earlier {σ : ℝ} (h : Dir σ) {a b c p : ℝ × ℝ} (h1 : Lt σ a b) (h2 : Lt σ b c) (h3 : Lt σ c p)
    (hc : 0 < cross a b c) (hp : 0 < cross b c p) : 0 < cross a b p := by
  have h4 := cr_strict h1 h2 h3
    (by rw [cr_dir h]; simp only [cross] at hc; nlinarith) (by rw [cr_dir h]; simp only [cross] at hp; nlinarith)
  rw [cr_dir h] at h4
  simp only [cross] at hc ⊢
  nlinarith

/-! ## Stacks -/

/-- All consecutive triples of a stack (last point first) turn left. -/
def Turns : List (ℝ × ℝ) → Prop
  | c :: b :: a :: s => 0 < cross a b c ∧ Turns (b :: a :: s)
  | _ => True

/-- An edge of a chain over the points `seen`. -/
def Good (σ : ℝ) (seen : List (ℝ × ℝ)) (b a : ℝ × ℝ) : Prop := Lt σ a b ∧ ∀ q ∈ seen, 0 ≤ cross a b q

/-- The stack `s` is the lower hull (with respect to the direction) of the points `seen`, the first of which is `o`. -/
structure Inv (σ : ℝ) (o : ℝ × ℝ) (seen s : List (ℝ × ℝ)) : Prop where
  sub : ∀ a ∈ s, a ∈ seen
  bottom : s.getLast? = some o
  first : ∀ q ∈ seen, q = o ∨ Lt σ o q
  good : s.IsChain (Good σ seen)
  turns : Turns s

theorem Turns.tail {b : ℝ × ℝ} {s : List (ℝ × ℝ)} (h : Turns (b :: s)) : Turns s := by
  match s, h with
  | [], _ => trivial
  | [_], _ => trivial
  | _ :: _ :: _, h => exact h.2

/-- A new point to the left of the last edge is to the left of all edges. -/
theorem left_of_all {σ : ℝ} (hσ : Dir σ) {seen : List (ℝ × ℝ)} {p : ℝ × ℝ} (s : List (ℝ × ℝ)) (hp : ∀ q ∈ s, Lt σ q p)
    (hg : s.IsChain (Good σ seen)) (ht : Turns s)
    (hstop : ∀ b a t, s = b :: a :: t → 0 < cross a b p) :
    s.IsChain (Good σ (p :: seen)) := by
  induction s with
  | nil => exact List.IsChain.nil
  | cons b s ih =>
    cases s with
    | nil => exact List.IsChain.singleton _
    | cons a t =>
      rw [List.isChain_cons_cons] at hg ⊢
      have h0 := hstop b a t rfl
      refine ⟨⟨hg.1.1, ?_⟩, ih (fun q hq => hp q (List.mem_cons_of_mem _ hq)) hg.2 ht.tail ?_⟩
      · intro q hq
        rcases List.mem_cons.mp hq with rfl | hq
        · exact h0.le
        · exact hg.1.2 q hq
      · intro b' a' t' he
        cases he
        have hg2 := (List.isChain_cons_cons.mp hg.2).1
        exact left_of_earlier hσ hg2.1 hg.1.1 (hp b List.mem_cons_self) ht.1 h0

/-- Among the points, any right turn is at least a turn by more than the tolerance. -/
def Sharp (seen : List (ℝ × ℝ)) : Prop := ∀ a ∈ seen, ∀ b ∈ seen, ∀ c ∈ seen, cross a b c ≤ geomEps → cross a b c ≤ 0

/-- What is known about the top of the stack while points are removed for the sake of `p`: it is the last of the points, or a
point beyond it has been removed. -/
def TopOk (σ : ℝ) (seen : List (ℝ × ℝ)) (p a : ℝ × ℝ) : Prop :=
  (∀ q ∈ seen, q = a ∨ Lt σ q a) ∨ ∃ b, Lt σ a b ∧ cross a b p ≤ 0 ∧ ∀ q ∈ seen, 0 ≤ cross a b q

theorem pop_inv {σ : ℝ} {o p : ℝ × ℝ} {seen : List (ℝ × ℝ)} (hs : ∀ a ∈ seen, ∀ b ∈ seen, cross a b p ≤ geomEps → cross a b p ≤ 0)
    (s : List (ℝ × ℝ)) (h : Inv σ o seen s) (htop : ∀ a t, s = a :: t → TopOk σ seen p a) :
    Inv σ o seen (pop 2 p s) ∧ (∀ a t, pop 2 p s = a :: t → TopOk σ seen p a) ∧
      ∀ b a t, pop 2 p s = b :: a :: t → 0 < cross a b p := by
  induction s with
  | nil =>
    rw [pop]
    · exact ⟨h, htop, fun b a t he => absurd he (by simp)⟩
    · simp
  | cons b s ih =>
    cases s with
    | nil =>
      rw [pop]
      · exact ⟨h, htop, fun b a t he => absurd he (by simp)⟩
      · simp
    | cons a t =>
      rw [pop]
      have hg := List.isChain_cons_cons.mp h.good
      by_cases hc : 2 ≤ (b :: a :: t).length ∧ cross a b p ≤ geomEps
      · rw [if_pos hc]
        refine ih ⟨fun x hx => h.sub x (List.mem_cons_of_mem _ hx), ?_, h.first, hg.2, h.turns.tail⟩ ?_
        · have := h.bottom
          rwa [List.getLast?_cons_cons] at this
        · intro a' t' he
          cases he
          exact Or.inr ⟨b, hg.1.1, hs a (h.sub a (by simp)) b (h.sub b (by simp)) hc.2, hg.1.2⟩
      · rw [if_neg hc]
        refine ⟨h, htop, ?_⟩
        intro b' a' t' he
        cases he
        by_contra hn
        refine hc ⟨by simp, ?_⟩
        rw [not_lt] at hn
        exact hn.trans (by norm_num [geomEps])

theorem push_inv {σ : ℝ} (hσ : Dir σ) {o p : ℝ × ℝ} {seen s : List (ℝ × ℝ)} (hp : ∀ q ∈ seen, Lt σ q p) (h : Inv σ o seen s)
    (htop : ∀ a t, s = a :: t → TopOk σ seen p a) (hstop : ∀ b a t, s = b :: a :: t → 0 < cross a b p) :
    Inv σ o (p :: seen) (p :: s) := by
  have hall := left_of_all hσ s (fun q hq => hp q (h.sub q hq)) h.good h.turns hstop
  cases s with
  | nil => exact absurd h.bottom (by simp)
  | cons a t =>
    have hap := hp a (h.sub a List.mem_cons_self)
    refine ⟨?_, ?_, ?_, ?_, ?_⟩
    · intro x hx
      rcases List.mem_cons.mp hx with rfl | hx
      · exact List.mem_cons_self
      · exact List.mem_cons_of_mem _ (h.sub x hx)
    · rw [List.getLast?_cons_cons]
      exact h.bottom
    · intro q hq
      rcases List.mem_cons.mp hq with rfl | hq
      · right
        refine hp o ?_
        exact h.sub o (List.mem_of_getLast? h.bottom)
      · exact h.first q hq
    · rw [List.isChain_cons_cons]
      refine ⟨⟨hap, ?_⟩, hall⟩
      have back : ∀ q ∈ seen, Lt σ q a → 0 ≤ cross a p q := by
        intro q hq hqa
        cases t with
        | nil =>
          have hao : a = o := by simpa using h.bottom
          rcases h.first q hq with rfl | hoq
          · rw [hao] at hqa
            exact absurd hqa fun h => h.irrefl
          · rw [hao] at hqa
            exact absurd hqa fun h => h.asymm hoq
        | cons a' t =>
          have hg := (List.isChain_cons_cons.mp h.good).1
          exact left_of_new hσ hg.1 hqa hap (hg.2 q hq) (hstop a a' t rfl).le
      intro q hq
      rcases List.mem_cons.mp hq with rfl | hq
      · simp only [cross]
        exact le_of_eq (by ring)
      rcases htop a t rfl with ht | ⟨b, hb1, hb2, hb3⟩
      · rcases ht q hq with rfl | hqa
        · simp [cross]
        · exact back q hq hqa
      · rcases Lt.trichotomy hσ q a with rfl | hqa | haq
        · simp [cross]
        · exact back q hq hqa
        · exact left_of_shortcut hσ hb1 hap haq (hb3 q hq) hb2
    · cases t with
      | nil => trivial
      | cons a' t => exact ⟨hstop a a' t rfl, h.turns⟩

theorem pop_length (m : ℕ) (p : ℝ × ℝ) (s : List (ℝ × ℝ)) : (pop m p s).length ≤ s.length := by
  induction s with
  | nil => simp [pop]
  | cons b s ih =>
    cases s with
    | nil => simp [pop]
    | cons a t =>
      rw [pop]
      split
      · exact ih.trans (by simp)
      · exact le_rfl

/-- The loop over further points. -/
theorem chain_inv {σ : ℝ} (hσ : Dir σ) {o : ℝ × ℝ} (n : ℕ) (ps seen s : List (ℝ × ℝ)) (h : Inv σ o seen s)
    (htop : ∀ a t, s = a :: t → ∀ q ∈ seen, q = a ∨ Lt σ q a) (hps : ps.Pairwise (Lt σ)) (hsp : ∀ q ∈ seen, ∀ p ∈ ps, Lt σ q p)
    (hsharp : Sharp (ps.reverse ++ seen)) (hn : s.length + ps.length ≤ n) :
    ∃ s', chain n 2 ps s = .ret s' ∧ s'.length ≤ s.length + ps.length ∧ Inv σ o (ps.reverse ++ seen) s' ∧
      (∀ p, ps.getLast? = some p → s'.head? = some p) ∧ (ps = [] → s' = s) := by
  induction ps generalizing seen s with
  | nil => exact ⟨s, rfl, by simp, h, by simp, fun _ => rfl⟩
  | cons p ps ih =>
    have hmem : ∀ x, x ∈ (p :: ps).reverse ++ seen ↔ x ∈ ps.reverse ++ (p :: seen) := by
      intro x
      simp
    have hps' := List.pairwise_cons.mp hps
    obtain ⟨i1, i2, i3⟩ := pop_inv (p := p) (fun a ha b hb => hsharp a (by simp [ha]) b (by simp [hb]) p (by simp)) s h
      (fun a t he => Or.inl (htop a t he))
    have hlen := pop_length 2 p s
    simp only [List.length_cons] at hn
    have hpush : push n p (pop 2 p s) = .ret (p :: pop 2 p s) := by
      rw [push, if_pos (by omega)]
    have j := push_inv hσ (fun q hq => hsp q hq p List.mem_cons_self) i1 i2 i3
    have l1 : ∀ a t, p :: pop 2 p s = a :: t → ∀ q ∈ p :: seen, q = a ∨ Lt σ q a := by
      intro a t he q hq
      cases he
      rcases List.mem_cons.mp hq with rfl | hq
      · exact Or.inl rfl
      · exact Or.inr (hsp q hq p List.mem_cons_self)
    have l2 : ∀ q ∈ p :: seen, ∀ p' ∈ ps, Lt σ q p' := by
      intro q hq p' hp'
      rcases List.mem_cons.mp hq with rfl | hq
      · exact hps'.1 p' hp'
      · exact hsp q hq p' (List.mem_cons_of_mem _ hp')
    have l3 : Sharp (ps.reverse ++ (p :: seen)) := by
      intro a ha b hb c hc
      exact hsharp a ((hmem a).mpr ha) b ((hmem b).mpr hb) c ((hmem c).mpr hc)
    obtain ⟨s', k1, k2, k3, k4, k5⟩ := ih (p :: seen) (p :: pop 2 p s) j l1 hps'.2 l2 l3
      (by simp only [List.length_cons]; omega)
    refine ⟨s', ?_, ?_, ?_, ?_, by simp⟩
    · rw [chain, hpush, Outcome.bind_ret, k1]
    · simp only [List.length_cons] at k2 ⊢
      omega
    · have e : (p :: ps).reverse ++ seen = ps.reverse ++ (p :: seen) := by simp
      rw [e]
      exact k3
    · intro q hq
      cases ps with
      | nil =>
        rw [k5 rfl]
        simpa using hq
      | cons p' ps => exact k4 q (by simpa using hq)

/-- The loop over all points, from the first on. -/
theorem chain_start {σ : ℝ} (hσ : Dir σ) {o : ℝ × ℝ} (n : ℕ) (ps : List (ℝ × ℝ)) (hps : (o :: ps).Pairwise (Lt σ))
    (hsharp : Sharp (ps.reverse ++ [o])) (hn : 1 + ps.length ≤ n) :
    ∃ s', chain n 2 ps [o] = .ret s' ∧ s'.length ≤ 1 + ps.length ∧ Inv σ o (ps.reverse ++ [o]) s' ∧
      s'.head? = (o :: ps).getLast? := by
  have hps' := List.pairwise_cons.mp hps
  obtain ⟨s', k1, k2, k3, k4, k5⟩ := chain_inv hσ n ps [o] [o]
    ⟨by simp, rfl, by simp, List.IsChain.singleton _, trivial⟩ (by simp) hps'.2 (by simpa using hps'.1) hsharp (by simpa using hn)
  refine ⟨s', k1, by simpa using k2, k3, ?_⟩
  cases ps with
  | nil => rw [k5 rfl]; rfl
  | cons p ps =>
    rw [List.getLast?_cons_cons]
    obtain ⟨q, hq⟩ : ∃ q, (p :: ps).getLast? = some q := ⟨_, List.getLast?_eq_some_getLast (by simp)⟩
    rw [hq, k4 q hq]

/-! ## The second loop runs on top of the first stack -/

theorem pop_floor (p : ℝ × ℝ) (base s : List (ℝ × ℝ)) (hs : s ≠ []) :
    pop (base.length + 2) p (s ++ base) = pop 2 p s ++ base ∧ pop 2 p s ≠ [] := by
  induction s with
  | nil => exact absurd rfl hs
  | cons b s ih =>
    cases s with
    | nil =>
      cases base with
      | nil => simp [pop]
      | cons a t => simp [pop]
    | cons a t =>
      rw [List.cons_append, List.cons_append, pop, pop]
      by_cases hc : cross a b p ≤ geomEps
      · rw [if_pos ⟨by simp, hc⟩, if_pos ⟨by simp, hc⟩]
        exact ih (by simp)
      · rw [if_neg (fun h => hc h.2), if_neg (fun h => hc h.2)]
        simp

theorem chain_floor (n n' : ℕ) (base ps s s' : List (ℝ × ℝ)) (hs : s ≠ []) (hn : n' + base.length ≤ n)
    (h : chain n' 2 ps s = .ret s') : chain n (base.length + 2) ps (s ++ base) = .ret (s' ++ base) := by
  induction ps generalizing s with
  | nil =>
    cases h
    rfl
  | cons p ps ih =>
    obtain ⟨h1, h2⟩ := pop_floor p base s hs
    rw [chain] at h ⊢
    rw [h1]
    rw [push] at h ⊢
    by_cases hl : (pop 2 p s).length < n'
    · rw [if_pos hl, Outcome.bind_ret] at h
      rw [if_pos (by rw [List.length_append]; omega), Outcome.bind_ret]
      exact ih (p :: pop 2 p s) (by simp) h
    · rw [if_neg hl] at h
      simp at h

end Verif.CompGeo
