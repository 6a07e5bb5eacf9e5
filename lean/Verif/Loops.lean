import Verif.Common

/-!
# Counted loops and array accesses

Rules for the C++ `for` loops and unchecked array accesses that occur in many of the modelled functions.
Like `Verif/Common.lean`, this models no particular function of MML.
-/

set_option autoImplicit false

namespace Verif

/-- Writing `v[i] = a` through `operator[]`: undefined behaviour out of range. -/
def Outcome.store {α : Type _} (v : List α) (i : Nat) (a : α) : Outcome (List α) :=
  if i < v.length then .ret (v.set i a) else .ub

/-- `for (i = 0; i < n; i++) body`. -/
def forRange {σ : Type _} (n : Nat) (s : σ) (body : σ → Nat → Outcome σ) : Outcome σ :=
  match n with
  | 0 => .ret s
  | n + 1 => do
    let s ← forRange n s body
    body s n

/-- `for (i = a; i < b; i++) body`. -/
def forFromTo {σ : Type _} (a b : Nat) (s : σ) (body : σ → Nat → Outcome σ) : Outcome σ :=
  forRange (b - a) s (fun s i => body s (a + i))

/-- `for (i = a; i < b; i += d) body` with `d > 0`. -/
def forStep {σ : Type _} (a b d : Nat) (s : σ) (body : σ → Nat → Outcome σ) : Outcome σ :=
  forRange ((b - a + (d - 1)) / d) s (fun s i => body s (a + d * i))

/-- `for (i = b - 1; i >= a; i--) body`. -/
def forDown {σ : Type _} (a b : Nat) (s : σ) (body : σ → Nat → Outcome σ) : Outcome σ :=
  forRange (b - a) s (fun s i => body s (b - 1 - i))

/-- Hoare rule for a counted loop whose body always returns. -/
theorem forRange_rule {σ : Type _} (P : Nat → σ → Prop) (n : Nat) (s : σ)
    (body : σ → Nat → Outcome σ) (h0 : P 0 s)
    (hs : ∀ i t, i < n → P i t → ∃ t', body t i = .ret t' ∧ P (i + 1) t') :
    ∃ t, forRange n s body = .ret t ∧ P n t := by
  induction n with
  | zero => exact ⟨s, rfl, h0⟩
  | succ n ih =>
    obtain ⟨t, ht, hP⟩ := ih (fun i t hi => hs i t (by omega))
    obtain ⟨t', ht', hP'⟩ := hs n t (by omega) hP
    exact ⟨t', by simp [forRange, ht, ht'], hP'⟩

theorem forFromTo_rule {σ : Type _} (P : Nat → σ → Prop) (a b : Nat) (hab : a ≤ b) (s : σ)
    (body : σ → Nat → Outcome σ) (h0 : P a s)
    (hs : ∀ i t, a ≤ i → i < b → P i t → ∃ t', body t i = .ret t' ∧ P (i + 1) t') :
    ∃ t, forFromTo a b s body = .ret t ∧ P b t := by
  obtain ⟨t, ht, hP⟩ := forRange_rule (fun i t => P (a + i) t) (b - a) s
    (fun s i => body s (a + i)) (by simpa using h0)
    (fun i t hi hP => hs (a + i) t (by omega) (by omega) hP)
  refine ⟨t, ht, ?_⟩
  have : a + (b - a) = b := by omega
  rwa [this] at hP

theorem forDown_rule {σ : Type _} (P : Nat → σ → Prop) (a b : Nat) (hab : a ≤ b) (s : σ)
    (body : σ → Nat → Outcome σ) (h0 : P b s)
    (hs : ∀ i t, a ≤ i → i < b → P (i + 1) t → ∃ t', body t i = .ret t' ∧ P i t') :
    ∃ t, forDown a b s body = .ret t ∧ P a t := by
  obtain ⟨t, ht, hP⟩ := forRange_rule (fun i t => P (b - i) t) (b - a) s
    (fun s i => body s (b - 1 - i)) (by simpa using h0)
    (fun i t hi hP => by
      have h1 : b - i = (b - 1 - i) + 1 := by omega
      rw [h1] at hP
      obtain ⟨t', h, hP'⟩ := hs (b - 1 - i) t (by omega) (by omega) hP
      exact ⟨t', h, by
        have : b - (i + 1) = b - 1 - i := by omega
        rwa [this]⟩)
  refine ⟨t, ht, ?_⟩
  have : b - (b - a) = a := by omega
  rwa [this] at hP

/-- Partial correctness: whatever the body does, if the loop returns, the invariant held throughout. -/
theorem forRange_inv {σ : Type _} (P : Nat → σ → Prop) (n : Nat) (s t : σ)
    (body : σ → Nat → Outcome σ) (h0 : P 0 s)
    (hs : ∀ i u u', i < n → P i u → body u i = .ret u' → P (i + 1) u')
    (h : forRange n s body = .ret t) : P n t := by
  induction n generalizing t with
  | zero => simp only [forRange, Outcome.ret.injEq] at h; exact h ▸ h0
  | succ n ih =>
    simp only [forRange] at h
    cases h1 : forRange n s body with
    | ret u =>
      simp only [h1, Outcome.bind_ret] at h
      exact hs n u t (by omega) (ih u (fun i a b hi => hs i a b (by omega)) h1) h
    | exn e => simp [h1] at h
    | ub => simp [h1] at h

theorem forFromTo_inv {σ : Type _} (P : Nat → σ → Prop) (a b : Nat) (hab : a ≤ b) (s t : σ)
    (body : σ → Nat → Outcome σ) (h0 : P a s)
    (hs : ∀ i u u', a ≤ i → i < b → P i u → body u i = .ret u' → P (i + 1) u')
    (h : forFromTo a b s body = .ret t) : P b t := by
  have := forRange_inv (fun i t => P (a + i) t) (b - a) s t _ (by simpa using h0)
    (fun i u u' hi hP hb => hs (a + i) u u' (by omega) (by omega) hP hb) h
  have e : a + (b - a) = b := by omega
  rwa [e] at this

theorem forDown_inv {σ : Type _} (P : Nat → σ → Prop) (a b : Nat) (hab : a ≤ b) (s t : σ)
    (body : σ → Nat → Outcome σ) (h0 : P b s)
    (hs : ∀ i u u', a ≤ i → i < b → P (i + 1) u → body u i = .ret u' → P i u')
    (h : forDown a b s body = .ret t) : P a t := by
  have := forRange_inv (fun i t => P (b - i) t) (b - a) s t _ (by simpa using h0)
    (fun i u u' hi hP hb => by
      have h1 : b - i = (b - 1 - i) + 1 := by omega
      rw [h1] at hP
      have := hs (b - 1 - i) u u' (by omega) (by omega) hP hb
      have e : b - (i + 1) = b - 1 - i := by omega
      rwa [e]) h
  have e : b - (b - a) = a := by omega
  rwa [e] at this

/-! ## Arrays given by a function -/

/-- The array of length `n` holding `f 0, …, f (n-1)`. -/
def tab {α : Type _} (n : Nat) (f : Nat → α) : List α := (List.range n).map f

@[simp] theorem length_tab {α : Type _} (n : Nat) (f : Nat → α) : (tab n f).length = n := by simp [tab]

theorem getElem?_tab {α : Type _} (n : Nat) (f : Nat → α) (i : Nat) :
    (tab n f)[i]? = if i < n then some (f i) else none := by
  by_cases h : i < n
  · simp [tab, h]
  · simp [tab, h]

theorem index_tab {α : Type _} {n : Nat} (f : Nat → α) {i : Nat} (h : i < n) :
    Outcome.index (tab n f) i = .ret (f i) := by
  simp only [Outcome.index, getElem?_tab, if_pos h]

theorem store_tab {α : Type _} {n : Nat} (f : Nat → α) {i : Nat} (h : i < n) (a : α) :
    Outcome.store (tab n f) i a = .ret (tab n (fun k => if k = i then a else f k)) := by
  simp only [Outcome.store, length_tab, if_pos h, Outcome.ret.injEq]
  apply List.ext_getElem?
  intro k
  rw [List.getElem?_set, getElem?_tab, getElem?_tab]
  by_cases hk : i = k
  · subst hk; simp [h]
  · have : k ≠ i := fun h => hk h.symm
    simp [hk, this]

theorem tab_congr {α : Type _} {n : Nat} {f g : Nat → α} (h : ∀ i, i < n → f i = g i) :
    tab n f = tab n g := by
  apply List.ext_getElem?
  intro k
  rw [getElem?_tab, getElem?_tab]
  split
  · next hk => rw [h k hk]
  · rfl

/-- Every array is given by a function. -/
theorem eq_tab {α : Type _} (v : List α) (d : α) : v = tab v.length (fun i => v.getD i d) := by
  apply List.ext_getElem?
  intro k
  rw [getElem?_tab]
  by_cases h : k < v.length
  · simp [h, List.getD]
  · simp [h]

end Verif
