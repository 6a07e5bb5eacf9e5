import Verif.Pool.InvB
import Mathlib.Tactic.Ring
import Mathlib.Algebra.Order.BigOperators.Group.Finset

set_option autoImplicit false

namespace Verif.Pool

/-- Number of indices below `n` whose value has the property `p`. -/
def cnt {α : Type} (n : Nat) (f : Nat → α) (p : α → Bool) : Int :=
  ∑ i ∈ Finset.range n, (p (f i)).toInt

theorem toInt_nonneg (b : Bool) : 0 ≤ b.toInt := by cases b <;> decide

theorem cnt_update {α : Type} {n : Nat} {f : Nat → α} {p : α → Bool} {i : Nat} (x : α) (hi : i < n) :
    cnt n (Function.update f i x) p = cnt n f p - (p (f i)).toInt + (p x).toInt := by
  unfold cnt
  rw [← Finset.sum_erase_add _ _ (Finset.mem_range.2 hi),
    ← Finset.sum_erase_add _ (fun j => (p (f j)).toInt) (Finset.mem_range.2 hi)]
  have : ∑ j ∈ (Finset.range n).erase i, (p (Function.update f i x j)).toInt =
      ∑ j ∈ (Finset.range n).erase i, (p (f j)).toInt := by
    refine Finset.sum_congr rfl fun j hj => ?_
    rw [Function.update_of_ne (Finset.ne_of_mem_erase hj)]
  rw [this, Function.update_self]
  ring

theorem cnt_nonneg {α : Type} (n : Nat) (f : Nat → α) (p : α → Bool) : 0 ≤ cnt n f p :=
  Finset.sum_nonneg fun i _ => toInt_nonneg _

theorem cnt_congr {α : Type} {n : Nat} {f g : Nat → α} {p : α → Bool} (h : ∀ i, p (f i) = p (g i)) :
    cnt n f p = cnt n g p :=
  Finset.sum_congr rfl fun i _ => by rw [h]

theorem cnt_pos_iff {α : Type} {n : Nat} {f : Nat → α} {p : α → Bool} :
    0 < cnt n f p ↔ ∃ i, i < n ∧ p (f i) = true := by
  constructor
  · intro h
    by_contra hc
    have : cnt n f p = 0 := Finset.sum_eq_zero fun i hi => by
      cases hp : p (f i)
      · rfl
      · exact absurd ⟨i, Finset.mem_range.1 hi, hp⟩ hc
    omega
  · rintro ⟨i, hi, hp⟩
    refine Finset.sum_pos' (fun j _ => toInt_nonneg _) ⟨i, Finset.mem_range.2 hi, ?_⟩
    rw [hp]; decide

theorem wakeClients_pending (f : Nat → CPc) (c : Nat) : (wakeClients f c).pending = (f c).pending := by
  unfold wakeClients; split
  · next h => rw [h]; rfl
  · rfl

theorem wakeWorkers_counted (f : Nat → WPc) (c : Nat) : (wakeWorkers f c).counted = (f c).counted := by
  unfold wakeWorkers; split
  · next h => rw [h]; rfl
  · rfl

theorem flight {N M : Nat} {s : State} (h : Reachable N M s) : s.inFlight = cnt N s.wpc WPc.counted := by
  induction h with
  | init =>
    refine (Finset.sum_eq_zero fun i hi => ?_).symm
    have : (init N).wpc i = .lockWait := if_pos (Finset.mem_range.1 hi)
    rw [this]
    rfl
  | @step s s' hr hs ih =>
    have hA := (invA hr).outside
    have hout : ∀ j, s.wpc j = .sleeping → j < N := by
      intro j hj
      by_contra hc
      rw [hA j (by omega)] at hj
      cases hj
    rcases hs with hs | hs <;> cases hs
    case inl.sNotify i hi t hpc j hj =>
      dsimp only
      rw [cnt_update _ (hout _ hj), cnt_update _ hi,
        Function.update_of_ne (by rintro rfl; rw [hpc] at hj; cases hj)]
      simp only [hpc, hj, WPc.counted, ih]; simp
    all_goals
      first
        | exact ih
        | (rw [show (_ : State).wpc = _ from rfl, cnt_update _ (by assumption)]; dsimp only
           simp only [*, WPc.counted]; simp; done)
        | (rw [show (_ : State).wpc = _ from rfl, cnt_update _ (hout _ (by assumption))]; dsimp only
           simp only [*, WPc.counted]; simp; done)
        | (dsimp only; rw [cnt_congr (wakeWorkers_counted s.wpc)]; exact ih)

theorem last {N M : Nat} (hN : 0 < N) {s : State} (h : Reachable N M s) :
    s.tasks ≠ [] → ∃ i, i < N ∧ s.wpc i ≠ .exited := by
  induction h with
  | init => intro h; exact absurd rfl h
  | @step s s' hr hs ih =>
    have hA := invA hr
    have hd := hA.dtor
    have hst := hA.stopI
    have hex := hA.exitI
    rcases hs with hs | hs <;> cases hs <;> intro htk <;> dsimp only [wakeWorkers] at htk ⊢
    case inl.ePush c hpc =>
      refine ⟨0, hN, fun h0 => ?_⟩
      have := hst.1 (hex 0 hN h0)
      have hnc : s.dpc ≠ .notCalled := by intro h; rw [h] at this; cases this
      have := hd hnc c
      rw [hpc] at this; cases this
    case inl.wExit i hi hpc hp => exact absurd hp.2 htk
    case inl.dNotify =>
      obtain ⟨j, hj, hj'⟩ := ih htk
      refine ⟨j, hj, ?_⟩
      split
      · simp
      · exact hj'
    all_goals first
      | exact ih htk
      | (refine ⟨_, by assumption, ?_⟩; rw [Function.update_self]; simp; done)
      | (obtain ⟨j, hj, hj'⟩ := ih htk
         refine ⟨j, hj, ?_⟩
         simp only [Function.update_apply]
         split
         · simp
         · first
            | exact hj'
            | (split
               · simp
               · exact hj'))

theorem util {N M : Nat} {s : State} (h : Reachable N M s) : (∃ i, s.wpc i = .sleeping) →
    (s.tasks.length : Int) ≤ cnt N s.wpc WPc.woken + cnt N s.wpc WPc.pending + cnt M s.cpc CPc.pending := by
  induction h with
  | init => 
    rintro ⟨i, hi⟩
    simp only [init] at hi
    split at hi <;> cases hi
  | @step s s' hr hs ih =>
    have hA := (invA hr).outside
    have hAC := (invA hr).outsideC
    have hout : ∀ j, s.wpc j = .sleeping → j < N := by
      intro j hj
      by_contra hc
      rw [hA j (by omega)] at hj
      cases hj
    have houtC : ∀ j, s.cpc j ≠ .idle → j < M := by
      intro j hj
      by_contra hc
      exact hj (hAC j (by omega))
    have n1 := cnt_nonneg N s.wpc WPc.woken
    have n2 := cnt_nonneg N s.wpc WPc.pending
    have n3 := cnt_nonneg M s.cpc CPc.pending
    rcases hs with hs | hs <;> cases hs <;> rintro ⟨j, hj⟩ <;> dsimp only at hj ⊢
    case inl.wNotifyAll i hi hpc ht =>
      simp only [ht, List.length_nil]
      have m1 := cnt_nonneg N (Function.update s.wpc i .notifyRelease) WPc.woken
      have m2 := cnt_nonneg N (Function.update s.wpc i .notifyRelease) WPc.pending
      have m3 := cnt_nonneg M (wakeClients s.cpc) CPc.pending
      simp; omega
    case inl.dNotify =>
      simp only [wakeWorkers] at hj
      split at hj
      · cases hj
      · contradiction
    case inl.sNotify i hi t hpc k hk =>
      have := ih ⟨k, hk⟩
      rw [cnt_update _ (hout _ hk), cnt_update _ hi, cnt_update _ (hout _ hk), cnt_update _ hi,
        Function.update_of_ne (by rintro rfl; rw [hpc] at hk; cases hk)]
      simp only [hpc, hk, WPc.woken, WPc.pending]; simp; omega
    case inl.wSleep i hi hpc hp =>
      have ht : s.tasks = [] := by
        by_contra hc; exact hp (.inr hc)
      have m1 := cnt_nonneg N (Function.update s.wpc i .sleeping) WPc.woken
      have m2 := cnt_nonneg N (Function.update s.wpc i .sleeping) WPc.pending
      rw [ht]; simp; omega
    case inl.wExit i hi hpc hp =>
      have m1 := cnt_nonneg N (Function.update s.wpc i .exited) WPc.woken
      have m2 := cnt_nonneg N (Function.update s.wpc i .exited) WPc.pending
      rw [hp.2]; simp; omega
    case inl.eNotify c hpc k hk =>
      have := ih ⟨k, hk⟩
      rw [cnt_update _ (hout _ hk), cnt_update _ (hout _ hk), cnt_update _ (houtC c (by rw [hpc]; decide))]
      simp only [hpc, hk, WPc.woken, WPc.pending, CPc.pending]; simp; omega
    case inl.wPop i hi hpc hp t rest ht =>
      have hold : ∃ k, s.wpc k = .sleeping := by
        refine ⟨j, ?_⟩
        simp only [Function.update_apply] at hj
        split at hj
        · cases hj
        · exact hj
      have := ih hold
      rw [cnt_update _ hi, cnt_update _ hi]
      rw [ht] at this
      simp only [hpc, WPc.woken, WPc.pending]; simp at this ⊢; omega
    case inl.sNotifyNone i hi t hpc hn =>
      simp only [Function.update_apply] at hj
      split at hj
      · cases hj
      · exact absurd hj (hn j)
    case inl.eNotifyNone c hpc hn => exact absurd hj (hn j)
    case inr.spuriousWorker i hpc =>
      have := ih ⟨i, hpc⟩
      rw [cnt_update _ (hout _ hpc), cnt_update _ (hout _ hpc)]
      simp only [hpc, WPc.woken, WPc.pending]; simp; omega
    case inl.sPush i hi t hpc =>
      have hold : ∃ k, s.wpc k = .sleeping := by
        refine ⟨j, ?_⟩
        simp only [Function.update_apply] at hj
        split at hj
        · cases hj
        · exact hj
      have := ih hold
      rw [cnt_update _ hi, cnt_update _ hi]
      simp only [hpc, WPc.woken, WPc.pending]; simp; omega
    all_goals first
      | exact ih ⟨j, hj⟩
      | (have := ih ⟨j, hj⟩
         rename_i hpc
         rw [cnt_update _ (houtC _ (by rw [hpc]; decide))]
         simp only [hpc, CPc.pending]; simp; omega)
      | (have := ih ⟨j, hj⟩
         rename_i hpc _
         rw [cnt_update _ (houtC _ (by rw [hpc]; decide))]
         simp only [hpc, CPc.pending]; simp; omega)
      | (have := ih ⟨j, hj⟩
         rw [cnt_update _ (by assumption)]
         simp only [*, CPc.pending]; simp; omega)
      | (have hold : ∃ k, s.wpc k = .sleeping := by
           refine ⟨j, ?_⟩
           simp only [Function.update_apply] at hj
           split at hj
           · cases hj
           · exact hj
         have := ih hold
         rw [cnt_update _ (by assumption), cnt_update _ (by assumption)]
         simp only [*, WPc.woken, WPc.pending]; simp; omega)

/-- A client sleeping in `wait_for_tasks` is going to be notified. -/
theorem waitI {N M : Nat} {s : State} (h : Reachable N M s) : ∀ c, s.cpc c = .waitSleep →
    s.tasks ≠ [] ∨ ∃ i, i < N ∧ (s.wpc i).active = true := by
  induction h with
  | init => intro c hc; cases hc
  | @step s s' hr hs ih =>
    have hf := flight hr
    have hact : ∀ p : WPc, p.counted = true → p.active = true := by
      intro p; cases p <;> simp [WPc.counted, WPc.active]
    rcases hs with hs | hs <;> cases hs <;> intro c hc <;> dsimp only at hc ⊢
    case inl.wNotifyAll i hi hpc ht =>
      simp only [wakeClients] at hc
      split at hc
      · cases hc
      · contradiction
    case inl.wNoNotify i hi hpc ht => exact .inl ht
    case inl.wDec i hi t hpc hne =>
      have hpos : 0 < cnt N (Function.update s.wpc i .lockWait) WPc.counted := by
        have h0 := cnt_nonneg N (Function.update s.wpc i .lockWait) WPc.counted
        rw [cnt_update _ hi] at h0 ⊢
        simp only [hpc, WPc.counted] at h0 ⊢
        simp at h0 ⊢; omega
      obtain ⟨k, hk, hk'⟩ := cnt_pos_iff.1 hpos
      exact .inr ⟨k, hk, hact _ hk'⟩
    case inl.cSleep c' hpc hp =>
      by_cases ht : s.tasks = []
      · have h0 := cnt_nonneg N s.wpc WPc.counted
        have : 0 < cnt N s.wpc WPc.counted := by
          rcases h0.lt_or_eq with h | h
          · exact h
          · exact absurd ⟨ht, by rw [hf, ← h]⟩ hp
        obtain ⟨k, hk, hk'⟩ := cnt_pos_iff.1 this
        exact .inr ⟨k, hk, hact _ hk'⟩
      · exact .inl ht
    case inl.wPop i hi hpc hp t rest ht =>
      exact .inr ⟨i, hi, by rw [Function.update_self]; rfl⟩
    case inl.dNotify hpc =>
      rcases ih c hc with h | ⟨k, hk, hk'⟩
      · exact .inl h
      · refine .inr ⟨k, hk, ?_⟩
        simp only [wakeWorkers]
        split
        · next h => rw [h] at hk'; cases hk'
        · exact hk'
    case inl.sNotify i hi t hpc k hk =>
      exact .inr ⟨i, hi, by
        rw [Function.update_of_ne (by rintro rfl; rw [hpc] at hk; cases hk), Function.update_self]; rfl⟩
    all_goals first
      | exact ih c hc
      | exact .inr ⟨_, by assumption, by rw [Function.update_self]; rfl⟩
      | exact .inl (List.append_ne_nil_of_right_ne_nil _ (List.cons_ne_nil _ _))
      | (have hc' : s.cpc c = .waitSleep := by
           simp only [Function.update_apply] at hc
           split at hc
           · cases hc
           · exact hc
         exact ih c hc')
      | skip
    all_goals
      have hc' : s.cpc c = .waitSleep := by
        first
          | exact hc
          | (simp only [Function.update_apply] at hc
             split at hc
             · cases hc
             · exact hc)
      rcases ih c hc' with h | ⟨k, hk, hk'⟩
      · exact .inl h
      · refine .inr ⟨k, hk, ?_⟩
        simp only [Function.update_apply]
        split
        · next h => subst h; simp_all [WPc.active]
        · exact hk'

end Verif.Pool
