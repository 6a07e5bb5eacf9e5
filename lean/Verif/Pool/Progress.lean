import Verif.Pool.InvD

set_option autoImplicit false

namespace Verif.Pool

def wsum {α : Type} (n : Nat) (f : Nat → α) (g : α → Nat) : Nat := ∑ i ∈ Finset.range n, g (f i)

theorem wsum_update {α : Type} {n : Nat} {f : Nat → α} {g : α → Nat} {i : Nat} (x : α) (hi : i < n) :
    wsum n (Function.update f i x) g + g (f i) = wsum n f g + g x := by
  unfold wsum
  rw [← Finset.sum_erase_add _ _ (Finset.mem_range.2 hi),
    ← Finset.sum_erase_add _ (fun j => g (f j)) (Finset.mem_range.2 hi)]
  have : ∑ j ∈ (Finset.range n).erase i, g (Function.update f i x j) =
      ∑ j ∈ (Finset.range n).erase i, g (f j) := by
    refine Finset.sum_congr rfl fun j hj => ?_
    rw [Function.update_of_ne (Finset.ne_of_mem_erase hj)]
  rw [this, Function.update_self]
  ring

theorem wsum_le {α : Type} {n : Nat} {f f' : Nat → α} {g : α → Nat} {k : Nat} (h : ∀ i, g (f' i) ≤ g (f i) + k) :
    wsum n f' g ≤ wsum n f g + n * k := by
  unfold wsum
  calc ∑ i ∈ Finset.range n, g (f' i) ≤ ∑ i ∈ Finset.range n, (g (f i) + k) := Finset.sum_le_sum fun i _ => h i
    _ = _ := by rw [Finset.sum_add_distrib]; simp

def taskWeight (M : Nat) : Nat := 13 + 2 * M

def WPc.weight (M : Nat) : WPc → Nat
  | .exited => 0
  | .sleeping => 1
  | .checked => 1
  | .evalPred => 2
  | .lockWait => 3
  | .notifyRelease => 4
  | .notifyHold => 5 + 2 * M
  | .notifyLock => 6 + 2 * M
  | .finishing _ => 7 + 2 * M
  | .callbackRun _ => 8 + 2 * M
  | .callbackCopy _ => 9 + 2 * M
  | .threw _ => 10 + 2 * M
  | .running _ => 11 + 2 * M
  | .inced _ => 12 + 2 * M
  | .popped _ => 13 + 2 * M
  | .spawnNotify _ => 14 + 2 * M
  | .spawnRelease _ => 15 + 2 * M
  | .spawnHold _ => 29 + 4 * M
  | .spawnLock _ => 30 + 4 * M

def CPc.weight (M : Nat) : CPc → Nat
  | .idle => 0
  | .waitRelease => 1
  | .waitSleep => 1
  | .waitEval => 2
  | .waitLock => 3
  | .enqNotify => 3
  | .enqRelease => 4
  | .enqHold => 18 + 2 * M
  | .enqLock => 19 + 2 * M

def DPc.weight (N : Nat) : DPc → Nat
  | .notCalled => 0
  | .done => 0
  | .join k => N + 1 - k
  | .notify => 3 * N + 2
  | .release => 3 * N + 3
  | .store => 3 * N + 4
  | .lock => 3 * N + 5

def State.weight (N M : Nat) (s : State) : Nat :=
  wsum N s.wpc (WPc.weight M) + wsum M s.cpc (CPc.weight M) + s.tasks.length * (13 + 2 * M) + s.dpc.weight N

theorem weight_lt {N M : Nat} {s s' : State} (hr : Reachable N M s) (hs : Internal N s s') :
    s'.weight N M < s.weight N M := by
  have hA := (invA hr).outside
  have hAC := (invA hr).outsideC
  have hout : ∀ j, s.wpc j = .sleeping → j < N := by
    intro j hj
    by_contra hc
    rw [hA j (by omega)] at hj
    cases hj
  have houtC : ∀ j, s.cpc j ≠ .idle → j < M := by
    intro j hj
    by_contra hc
    exact hj (hAC j (by omega))
  have key1 : ∀ (i : Nat) (x : WPc), i < N → x.weight M < (s.wpc i).weight M →
      wsum N (Function.update s.wpc i x) (WPc.weight M) < wsum N s.wpc (WPc.weight M) := by
    intro i x hi hx
    have := wsum_update (g := WPc.weight M) (f := s.wpc) x hi
    omega
  have key2 : ∀ (i : Nat) (x : CPc), s.cpc i ≠ .idle → x.weight M < (s.cpc i).weight M →
      wsum M (Function.update s.cpc i x) (CPc.weight M) < wsum M s.cpc (CPc.weight M) := by
    intro i x hi hx
    have := wsum_update (g := CPc.weight M) (f := s.cpc) x (houtC i hi)
    omega
  cases hs <;> simp only [State.weight]
  case wNotifyAll i hi hpc ht =>
    have h1 := wsum_update (g := WPc.weight M) (f := s.wpc) .notifyRelease hi
    have h2 : wsum M (wakeClients s.cpc) (CPc.weight M) ≤ wsum M s.cpc (CPc.weight M) + M * 2 := by
      refine wsum_le fun c => ?_
      simp only [wakeClients]
      split
      · next h => rw [h]; simp [CPc.weight]
      · omega
    rw [hpc] at h1
    simp only [WPc.weight] at h1
    omega
  case wPop i hi hpc hp t rest ht =>
    have h1 := wsum_update (g := WPc.weight M) (f := s.wpc) (.popped t) hi
    rw [hpc] at h1
    simp only [WPc.weight] at h1
    rw [ht, List.length_cons, Nat.add_mul]
    omega
  case sPush i hi t hpc =>
    have h1 := wsum_update (g := WPc.weight M) (f := s.wpc) (.spawnRelease t) hi
    rw [hpc] at h1
    simp only [WPc.weight] at h1
    rw [List.length_append, Nat.add_mul]
    simp only [List.length_cons, List.length_nil]
    omega
  case ePush c hpc =>
    have h1 := wsum_update (g := CPc.weight M) (f := s.cpc) .enqRelease (houtC c (by rw [hpc]; decide))
    rw [hpc] at h1
    simp only [CPc.weight] at h1
    rw [List.length_append, Nat.add_mul]
    simp only [List.length_cons, List.length_nil]
    omega
  case sNotify i hi t hpc j hj =>
    have h1 := wsum_update (g := WPc.weight M) (f := s.wpc) (.running t) hi
    have h2 := wsum_update (g := WPc.weight M) (f := Function.update s.wpc i (.running t)) .lockWait (hout j hj)
    rw [hpc] at h1
    rw [Function.update_of_ne (by rintro rfl; rw [hpc] at hj; cases hj), hj] at h2
    simp only [WPc.weight] at h1 h2
    omega
  case eNotify c hpc j hj =>
    have h1 := wsum_update (g := CPc.weight M) (f := s.cpc) .idle (houtC c (by rw [hpc]; decide))
    have h2 := wsum_update (g := WPc.weight M) (f := s.wpc) .lockWait (hout j hj)
    rw [hpc] at h1
    rw [hj] at h2
    simp only [WPc.weight, CPc.weight] at h1 h2
    omega
  case dNotify hpc =>
    have h2 : wsum N (wakeWorkers s.wpc) (WPc.weight M) ≤ wsum N s.wpc (WPc.weight M) + N * 2 := by
      refine wsum_le fun c => ?_
      simp only [wakeWorkers]
      split
      · next h => rw [h]; simp [WPc.weight]
      · omega
    rw [hpc]
    simp only [DPc.weight]
    omega
  case wLock i hi hpc hm =>
    exact Nat.add_lt_add_right (Nat.add_lt_add_right (Nat.add_lt_add_right (key1 _ _ hi (by rw [hpc]; simp only [WPc.weight]; omega)) _) _) _
  case wSleep i hi hpc hp =>
    exact Nat.add_lt_add_right (Nat.add_lt_add_right (Nat.add_lt_add_right (key1 _ _ hi (by rw [hpc]; simp only [WPc.weight]; omega)) _) _) _
  case wPass i hi hpc hp =>
    exact Nat.add_lt_add_right (Nat.add_lt_add_right (Nat.add_lt_add_right (key1 _ _ hi (by rw [hpc]; simp only [WPc.weight]; omega)) _) _) _
  case wExit i hi hpc hp =>
    exact Nat.add_lt_add_right (Nat.add_lt_add_right (Nat.add_lt_add_right (key1 _ _ hi (by rw [hpc]; simp only [WPc.weight]; omega)) _) _) _
  case wNotifyLock i hi hpc hm =>
    exact Nat.add_lt_add_right (Nat.add_lt_add_right (Nat.add_lt_add_right (key1 _ _ hi (by rw [hpc]; simp only [WPc.weight]; omega)) _) _) _
  case wNoNotify i hi hpc h =>
    exact Nat.add_lt_add_right (Nat.add_lt_add_right (Nat.add_lt_add_right (key1 _ _ hi (by rw [hpc]; simp only [WPc.weight]; omega)) _) _) _
  case wNotifyUnlock i hi hpc =>
    exact Nat.add_lt_add_right (Nat.add_lt_add_right (Nat.add_lt_add_right (key1 _ _ hi (by rw [hpc]; simp only [WPc.weight]; omega)) _) _) _
  case wInc i hi t hpc =>
    exact Nat.add_lt_add_right (Nat.add_lt_add_right (Nat.add_lt_add_right (key1 _ _ hi (by rw [hpc]; simp only [WPc.weight]; omega)) _) _) _
  case wUnlock i hi t hpc =>
    exact Nat.add_lt_add_right (Nat.add_lt_add_right (Nat.add_lt_add_right (key1 _ _ hi (by rw [hpc]; simp only [WPc.weight]; omega)) _) _) _
  case wReturn i hi t hpc =>
    exact Nat.add_lt_add_right (Nat.add_lt_add_right (Nat.add_lt_add_right (key1 _ _ hi (by rw [hpc]; simp only [WPc.weight]; omega)) _) _) _
  case wThrow i hi t hpc =>
    exact Nat.add_lt_add_right (Nat.add_lt_add_right (Nat.add_lt_add_right (key1 _ _ hi (by rw [hpc]; simp only [WPc.weight]; omega)) _) _) _
  case wRecord i hi t hpc =>
    exact Nat.add_lt_add_right (Nat.add_lt_add_right (Nat.add_lt_add_right (key1 _ _ hi (by rw [hpc]; simp only [WPc.weight]; omega)) _) _) _
  case wNoCallback i hi t hpc hc =>
    exact Nat.add_lt_add_right (Nat.add_lt_add_right (Nat.add_lt_add_right (key1 _ _ hi (by rw [hpc]; simp only [WPc.weight]; omega)) _) _) _
  case wCallback i hi t hpc hc =>
    exact Nat.add_lt_add_right (Nat.add_lt_add_right (Nat.add_lt_add_right (key1 _ _ hi (by rw [hpc]; simp only [WPc.weight]; omega)) _) _) _
  case wCallbackDone i hi t hpc =>
    exact Nat.add_lt_add_right (Nat.add_lt_add_right (Nat.add_lt_add_right (key1 _ _ hi (by rw [hpc]; simp only [WPc.weight]; omega)) _) _) _
  case wDecZero i hi t hpc h =>
    exact Nat.add_lt_add_right (Nat.add_lt_add_right (Nat.add_lt_add_right (key1 _ _ hi (by rw [hpc]; simp only [WPc.weight]; omega)) _) _) _
  case wDec i hi t hpc h =>
    exact Nat.add_lt_add_right (Nat.add_lt_add_right (Nat.add_lt_add_right (key1 _ _ hi (by rw [hpc]; simp only [WPc.weight]; omega)) _) _) _
  case sLock i hi t hpc hm =>
    exact Nat.add_lt_add_right (Nat.add_lt_add_right (Nat.add_lt_add_right (key1 _ _ hi (by rw [hpc]; simp only [WPc.weight]; omega)) _) _) _
  case sUnlock i hi t hpc =>
    exact Nat.add_lt_add_right (Nat.add_lt_add_right (Nat.add_lt_add_right (key1 _ _ hi (by rw [hpc]; simp only [WPc.weight]; omega)) _) _) _
  case sNotifyNone i hi t hpc hj =>
    exact Nat.add_lt_add_right (Nat.add_lt_add_right (Nat.add_lt_add_right (key1 _ _ hi (by rw [hpc]; simp only [WPc.weight]; omega)) _) _) _
  case eLock c hpc hm =>
    exact Nat.add_lt_add_right (Nat.add_lt_add_right (Nat.add_lt_add_left (key2 _ _ (by rw [hpc]; decide) (by rw [hpc]; simp only [CPc.weight]; omega)) _) _) _
  case eUnlock c hpc =>
    exact Nat.add_lt_add_right (Nat.add_lt_add_right (Nat.add_lt_add_left (key2 _ _ (by rw [hpc]; decide) (by rw [hpc]; simp only [CPc.weight]; omega)) _) _) _
  case eNotifyNone c hpc hj =>
    exact Nat.add_lt_add_right (Nat.add_lt_add_right (Nat.add_lt_add_left (key2 _ _ (by rw [hpc]; decide) (by rw [hpc]; simp only [CPc.weight]; omega)) _) _) _
  case cLock c hpc hm =>
    exact Nat.add_lt_add_right (Nat.add_lt_add_right (Nat.add_lt_add_left (key2 _ _ (by rw [hpc]; decide) (by rw [hpc]; simp only [CPc.weight]; omega)) _) _) _
  case cSleep c hpc hp =>
    exact Nat.add_lt_add_right (Nat.add_lt_add_right (Nat.add_lt_add_left (key2 _ _ (by rw [hpc]; decide) (by rw [hpc]; simp only [CPc.weight]; omega)) _) _) _
  case cPass c hpc hp =>
    exact Nat.add_lt_add_right (Nat.add_lt_add_right (Nat.add_lt_add_left (key2 _ _ (by rw [hpc]; decide) (by rw [hpc]; simp only [CPc.weight]; omega)) _) _) _
  case cReturn c hpc =>
    exact Nat.add_lt_add_right (Nat.add_lt_add_right (Nat.add_lt_add_left (key2 _ _ (by rw [hpc]; decide) (by rw [hpc]; simp only [CPc.weight]; omega)) _) _) _
  case dLock hpc hm =>
    refine Nat.add_lt_add_left ?_ _; rw [hpc]; simp only [DPc.weight]; omega
  case dStore hpc =>
    refine Nat.add_lt_add_left ?_ _; rw [hpc]; simp only [DPc.weight]; omega
  case dUnlock hpc =>
    refine Nat.add_lt_add_left ?_ _; rw [hpc]; simp only [DPc.weight]; omega
  case dDone hpc =>
    refine Nat.add_lt_add_left ?_ _; rw [hpc]; simp only [DPc.weight]; omega
  case dJoin k hpc hk hw =>
    refine Nat.add_lt_add_left ?_ _; rw [hpc]; simp only [DPc.weight]; omega

/-- After the predicate of line 132 was true and while the mutex is kept, it stays true. -/
theorem checkedI {N M : Nat} {s : State} (h : Reachable N M s) :
    ∀ i, s.wpc i = .checked → s.stop = true ∨ s.tasks ≠ [] := by
  induction h with
  | init => intro i hi; simp only [init] at hi; split at hi <;> cases hi
  | @step s s' hr hs ih =>
    have hA := invA hr
    have hmw := hA.mw
    rcases hs with hs | hs <;> cases hs <;> intro j hj <;> dsimp only at hj ⊢
    case inl.wPop i hi hpc hp t rest ht =>
      simp only [Function.update_apply] at hj
      split at hj
      · cases hj
      · next hne =>
        have h1 := (hmw i).1 (by rw [hpc]; rfl)
        have h2 := (hmw j).1 (by rw [hj]; rfl)
        rw [h1] at h2
        injection h2 with h2; injection h2 with h2
        exact absurd h2.symm hne
    case inl.wPass i hi hpc hp => exact hp
    case inl.dNotify =>
      simp only [wakeWorkers] at hj
      split at hj
      · cases hj
      · exact ih j hj
    case inl.sNotify i hi t hpc k hk =>
      simp only [Function.update_apply] at hj
      split at hj
      · cases hj
      · split at hj
        · cases hj
        · exact ih j hj
    all_goals first
      | exact ih j hj
      | exact .inl rfl
      | exact .inr (List.append_ne_nil_of_right_ne_nil _ (List.cons_ne_nil _ _))
      | (simp only [Function.update_apply] at hj
         split at hj
         · cases hj
         · exact ih j hj)

/-- Where a thread inside the pool cannot go on, nothing is left to do. -/
theorem quiet_of_stuck {N M : Nat} (hN : 0 < N) {s : State} (hr : Reachable N M s)
    (hstuck : ∀ s', ¬ Internal N s s') :
    (∀ c, s.cpc c = .idle) ∧ s.tasks = [] ∧ (∀ i, i < N → s.wpc i = .sleeping ∨ s.wpc i = .exited) ∧
      (s.dpc = .notCalled ∨ s.dpc = .done) := by
  have hA := invA hr
  have hm : s.mutex = none := by
    cases hm : s.mutex with
    | none => rfl
    | some h =>
      exfalso
      cases h with
      | worker i =>
        have hh := (hA.mw i).2 hm
        have hi : i < N := by
          by_contra hc
          rw [hA.outside i (by omega)] at hh; cases hh
        cases hp : s.wpc i <;> rw [hp] at hh <;> try (cases hh; done)
        · by_cases hx : s.stop = true ∨ s.tasks ≠ []
          · exact hstuck _ (.wPass i hi hp hx)
          · exact hstuck _ (.wSleep i hi hp hx)
        · by_cases hx : s.stop = true ∧ s.tasks = []
          · exact hstuck _ (.wExit i hi hp hx)
          · cases ht : s.tasks with
            | nil =>
              -- the predicate held and the mutex has been kept since
              exact absurd ht (by
                have := checkedI hr i hp
                rcases this with h | h
                · exact fun h' => hx ⟨h, h'⟩
                · exact h)
            | cons t rest => exact hstuck _ (.wPop i hi hp hx t rest ht)
        · exact hstuck _ (.wInc i hi _ hp)
        · exact hstuck _ (.wUnlock i hi _ hp)
        · exact hstuck _ (.sPush i hi _ hp)
        · exact hstuck _ (.sUnlock i hi _ hp)
        · by_cases hx : s.tasks = []
          · exact hstuck _ (.wNotifyAll i hi hp hx)
          · exact hstuck _ (.wNoNotify i hi hp hx)
        · exact hstuck _ (.wNotifyUnlock i hi hp)
      | client c =>
        have hh := (hA.mc c).2 hm
        cases hp : s.cpc c <;> rw [hp] at hh <;> try (cases hh; done)
        · exact hstuck _ (.ePush c hp)
        · exact hstuck _ (.eUnlock c hp)
        · by_cases hx : s.tasks = [] ∧ s.inFlight = 0
          · exact hstuck _ (.cPass c hp hx)
          · exact hstuck _ (.cSleep c hp hx)
        · exact hstuck _ (.cReturn c hp)
      | destructor =>
        have hh := hA.md.2 hm
        cases hp : s.dpc <;> rw [hp] at hh <;> try (cases hh; done)
        · exact hstuck _ (.dStore hp)
        · exact hstuck _ (.dUnlock hp)
  have hw : ∀ i, i < N → s.wpc i = .sleeping ∨ s.wpc i = .exited := by
    intro i hi
    have hnh : (s.wpc i).holds ≠ true := by
      intro hc
      have := (hA.mw i).1 hc
      rw [hm] at this; cases this
    cases hp : s.wpc i <;> rw [hp] at hnh <;> (first | (exact absurd rfl hnh) | skip)
    · exact absurd (.wLock i hi hp hm) (hstuck _)
    · exact .inl rfl
    · exact absurd (.wReturn i hi _ hp) (hstuck _)
    · exact absurd (.sLock i hi _ hp hm) (hstuck _)
    · by_cases hj : ∃ j, s.wpc j = .sleeping
      · obtain ⟨j, hj⟩ := hj
        exact absurd (.sNotify i hi _ hp j hj) (hstuck _)
      · exact absurd (.sNotifyNone i hi _ hp fun j h => hj ⟨j, h⟩) (hstuck _)
    · exact absurd (.wRecord i hi _ hp) (hstuck _)
    · cases hcb : s.hasCallback
      · exact absurd (.wNoCallback i hi _ hp hcb) (hstuck _)
      · exact absurd (.wCallback i hi _ hp hcb) (hstuck _)
    · exact absurd (.wCallbackDone i hi _ hp) (hstuck _)
    · by_cases hz : s.inFlight - 1 = 0
      · exact absurd (.wDecZero i hi _ hp hz) (hstuck _)
      · exact absurd (.wDec i hi _ hp hz) (hstuck _)
    · exact absurd (.wNotifyLock i hi hp hm) (hstuck _)
    · exact .inr rfl
  have hc0 : ∀ c, s.cpc c = .idle ∨ s.cpc c = .waitSleep := by
    intro c
    have hnh : (s.cpc c).holds ≠ true := by
      intro hc
      have := (hA.mc c).1 hc
      rw [hm] at this; cases this
    cases hp : s.cpc c <;> rw [hp] at hnh <;> (first | (exact absurd rfl hnh) | skip)
    · exact .inl rfl
    · exact absurd (.eLock c hp hm) (hstuck _)
    · by_cases hj : ∃ j, s.wpc j = .sleeping
      · obtain ⟨j, hj⟩ := hj
        exact absurd (.eNotify c hp j hj) (hstuck _)
      · exact absurd (.eNotifyNone c hp fun j h => hj ⟨j, h⟩) (hstuck _)
    · exact absurd (.cLock c hp hm) (hstuck _)
    · exact .inr rfl
  have ht : s.tasks = [] := by
    by_contra hne
    by_cases hj : ∃ j, s.wpc j = .sleeping
    · have hu := util hr hj
      have z1 : cnt N s.wpc WPc.woken = 0 := Finset.sum_eq_zero fun i hi => by
        rcases hw i (Finset.mem_range.1 hi) with h | h <;> rw [h] <;> rfl
      have z2 : cnt N s.wpc WPc.pending = 0 := Finset.sum_eq_zero fun i hi => by
        rcases hw i (Finset.mem_range.1 hi) with h | h <;> rw [h] <;> rfl
      have z3 : cnt M s.cpc CPc.pending = 0 := Finset.sum_eq_zero fun i hi => by
        rcases hc0 i with h | h <;> rw [h] <;> rfl
      have : 0 < s.tasks.length := List.length_pos_iff.2 hne
      omega
    · obtain ⟨i, hi, hx⟩ := last hN hr hne
      rcases hw i hi with h | h
      · exact hj ⟨i, h⟩
      · exact hx h
  have hc : ∀ c, s.cpc c = .idle := by
    intro c
    rcases hc0 c with h | h
    · exact h
    · exfalso
      rcases waitI hr c h with h' | ⟨i, hi, h'⟩
      · exact h' ht
      · rcases hw i hi with h2 | h2 <;> rw [h2] at h' <;> cases h'
  refine ⟨hc, ht, hw, ?_⟩
  have hnd : s.dpc.holds ≠ true := by
    intro hc
    have := hA.md.1 hc
    rw [hm] at this; cases this
  cases hp : s.dpc <;> rw [hp] at hnd <;> (first | (exact absurd rfl hnd) | skip)
  · exact .inl rfl
  · exact absurd (.dLock hp hm) (hstuck _)
  · exact absurd (.dNotify hp) (hstuck _)
  · next k =>
    have hk := ((joined hr).1 k hp).1
    rcases Nat.lt_or_ge k N with h | h
    · have hst : s.stop = true := hA.stopI.2 (by rw [hp]; rfl)
      rcases hw k h with h' | h'
      · have := hA.stopSleep hst k h'
        rw [hp] at this
        rcases this with h | h <;> cases h
      · exact absurd (.dJoin k hp h h') (hstuck _)
    · have : k = N := by omega
      subst this
      exact absurd (.dDone hp) (hstuck _)
  · exact .inr rfl

end Verif.Pool
