import Verif.Optim.Lemmas

/-! # Helper lemmas for Brent's method with derivatives -/

set_option autoImplicit false

namespace Verif.Optim

open Set

/-- The invariant. -/
structure DInv (f df : ℝ → ℝ) (br : Bracket) (m : ℝ) (s : DBrent) : Prop where
  value : s.fx = f s.x
  dx : s.dx = df s.x
  dw : s.dw = df s.w
  dv : s.dv = df s.v
  ax : s.a ≤ s.x
  xb : s.x ≤ s.b
  am : s.a ≤ m
  mb : m ≤ s.b
  left : f s.x ≤ f s.a
  right : f s.x ≤ f s.b
  better : f s.x ≤ f br.bx
  la : lo br ≤ s.a
  bh : s.b ≤ hi br

variable {f df : ℝ → ℝ} {m : ℝ}

/-- If the function is not smaller to the right, the minimum is not there, and so on. -/
theorem Sloped.lt (h : Sloped f df m) {p q : ℝ} (hpq : p < q) (hf : f q ≤ f p) : p < m := by
  by_contra hn
  have := h.rises (mem_Ici.2 (not_lt.1 hn)) (mem_Ici.2 ((not_lt.1 hn).trans hpq.le)) hpq
  linarith

theorem Sloped.gt (h : Sloped f df m) {p q : ℝ} (hpq : p < q) (hf : f p ≤ f q) : m < q := by
  by_contra hn
  have := h.falls (mem_Iic.2 (hpq.le.trans (not_lt.1 hn))) (mem_Iic.2 (not_lt.1 hn)) hpq
  linarith

theorem Sloped.le (h : Sloped f df m) {x : ℝ} (hx : 0 ≤ df x) : m ≤ x := by
  by_contra hn
  have := h.neg x (not_le.1 hn)
  linarith

theorem Sloped.ge (h : Sloped f df m) {x : ℝ} (hx : df x ≤ 0) : x ≤ m := by
  by_contra hn
  have := h.pos x (not_le.1 hn)
  linarith

theorem dbrentStart_inv {br : Bracket} (h : IsBracket f br) (hm : Sloped f df m) : DInv f df br m (dbrentStart f df br) := by
  rcases h.between with ⟨h1, h2⟩ | ⟨h1, h2⟩
  · have e : dbrentStart f df br =
        ⟨br.ax, br.cx, 0, 0, br.bx, br.bx, br.bx, f br.bx, f br.bx, f br.bx, df br.bx, df br.bx, df br.bx⟩ := by
      rw [dbrentStart, if_pos (by linarith), if_neg (by linarith)]
    rw [e]
    exact ⟨rfl, rfl, rfl, rfl, h1.le, h2.le, (hm.lt h1 h.left).le, (hm.gt h2 h.right).le, h.left, h.right, le_rfl, min_le_left _ _,
      le_max_right _ _⟩
  · have e : dbrentStart f df br =
        ⟨br.cx, br.ax, 0, 0, br.bx, br.bx, br.bx, f br.bx, f br.bx, f br.bx, df br.bx, df br.bx, df br.bx⟩ := by
      rw [dbrentStart, if_neg (by linarith), if_pos (by linarith)]
    rw [e]
    exact ⟨rfl, rfl, rfl, rfl, h1.le, h2.le, (hm.lt h1 h.right).le, (hm.gt h2 h.left).le, h.right, h.left, le_rfl, min_le_right _ _,
      le_max_left _ _⟩

/-- What is known of a step: a long one stays inside, a short one goes downhill. -/
def StepOk (m t1 : ℝ) (s : DBrent) (d : ℝ) : Prop :=
  (t1 ≤ |d| → s.a ≤ s.x + d ∧ s.x + d ≤ s.b) ∧ (|d| < t1 → (d < 0 → m ≤ s.x) ∧ (0 < d → s.x ≤ m) ∧ (d = 0 → m = s.x))

theorem bisect_ok (hm : Sloped f df m) {br : Bracket} {s : DBrent} (h : DInv f df br m s) (t1 : ℝ) :
    StepOk m t1 s (bisectStep s).2 := by
  have hax := h.ax
  have hxb := h.xb
  have ham := h.am
  have hmb := h.mb
  rw [bisectStep]
  split_ifs with hc
  · rw [h.dx] at hc
    have := hm.le hc
    dsimp only
    exact ⟨fun _ => ⟨by linarith, by linarith⟩, fun _ => ⟨fun _ => this, fun h => by linarith, fun h => by linarith⟩⟩
  · rw [h.dx] at hc
    have := hm.ge (not_le.1 hc).le
    dsimp only
    exact ⟨fun _ => ⟨by linarith, by linarith⟩, fun _ => ⟨fun h => by linarith, fun _ => this, fun h => by linarith⟩⟩

theorem secant_zero {s : DBrent} (hdx : s.dx = df s.x) {w dw : ℝ} (hw : dw = df w) (hok : secantOk s (secant s w dw))
    (hab : s.a ≤ s.x ∧ s.x ≤ s.b) (h0 : secant s w dw = 0) : s.dx = 0 := by
  rw [secant] at h0
  split_ifs at h0 with hne
  · rcases div_eq_zero_iff.1 h0 with h | h
    · rcases mul_eq_zero.1 h with h | h
      · have : w = s.x := by linarith
        subst this
        exact absurd (hw.trans hdx.symm) hne
      · exact h
    · exact absurd (by linarith) hne
  · have h1 := hok.1
    rw [secant, if_neg hne, h0, add_zero] at h1
    have e : s.a = s.b := by linarith
    rw [e] at h1
    nlinarith [mul_self_nonneg (s.b - s.x)]

theorem secant_ok (hm : Sloped f df m) {br : Bracket} {s : DBrent} (h : DInv f df br m s) {d : ℝ} (hs : secantChoose s = some d) (t1 : ℝ) :
    StepOk m t1 s d := by
  have key : ∀ w dw, dw = df w → secantOk s (secant s w dw) → StepOk m t1 s (secant s w dw) := by
    intro w dw hw hok
    have hz := secant_zero h.dx hw hok ⟨h.ax, h.xb⟩
    obtain ⟨k1, k2⟩ := hok
    have hax := h.ax
    have hxb := h.xb
    constructor
    · intro _
      rcases mul_pos_iff.1 k1 with ⟨g1, g2⟩ | ⟨g1, g2⟩
      · linarith
      · exact ⟨by linarith, by linarith⟩
    · intro _
      rw [h.dx] at k2 hz
      refine ⟨fun hn => hm.le ?_, fun hp => hm.ge ?_, fun h0 => le_antisymm (hm.le (hz h0).ge) (hm.ge (hz h0).le)⟩
      · by_contra hc
        have := mul_pos_of_neg_of_neg (not_le.1 hc) hn
        linarith
      · by_contra hc
        have := mul_pos (not_le.1 hc) hp
        linarith
  rw [secantChoose] at hs
  split_ifs at hs with c1 c2 c3 c4
  · rw [← Option.some.inj hs]; exact key _ _ h.dw c1
  · rw [← Option.some.inj hs]; exact key _ _ h.dv c2
  · rw [← Option.some.inj hs]; exact key _ _ h.dw c1
  · rw [← Option.some.inj hs]; exact key _ _ h.dv c4

theorem dbrentChoose_ok (hm : Sloped f df m) {br : Bracket} {s : DBrent} (h : DInv f df br m s) {t1 : ℝ} (ht : 0 < t1)
    (h1 : 1 / 2 * (s.a + s.b) ≤ s.x → 2 * t1 < s.x - s.a) (h2 : s.x ≤ 1 / 2 * (s.a + s.b) → 2 * t1 < s.b - s.x) :
    StepOk m t1 s (dbrentChoose t1 s).2 := by
  have hax := h.ax
  have hxb := h.xb
  rw [dbrentChoose]
  split_ifs with c1
  · cases hc : secantChoose s with
    | none => exact bisect_ok hm h t1
    | some d =>
      dsimp only
      split_ifs with c2 c3
      · dsimp only
        rw [copySign]
        split_ifs with c4
        · refine ⟨fun _ => ⟨?_, ?_⟩, fun hlt => ?_⟩
          · have := h1 (by linarith)
            linarith
          · linarith
          · rw [abs_neg, abs_of_pos ht] at hlt
            exact absurd hlt (lt_irrefl _)
        · refine ⟨fun _ => ⟨?_, ?_⟩, fun hlt => ?_⟩
          · linarith
          · have := h2 (by linarith)
            linarith
          · rw [abs_of_pos ht] at hlt
            exact absurd hlt (lt_irrefl _)
      · exact secant_ok hm h hc t1
      · exact bisect_ok hm h t1
  · exact bisect_ok hm h t1

theorem dbrentUpdate_eq (s : DBrent) (u fu du : ℝ) :
    (fu ≤ s.fx → s.x ≤ u → (dbrentUpdate s u fu du).a = s.x ∧ (dbrentUpdate s u fu du).b = s.b ∧ (dbrentUpdate s u fu du).x = u ∧
      (dbrentUpdate s u fu du).fx = fu ∧ (dbrentUpdate s u fu du).dx = du) ∧
    (fu ≤ s.fx → u < s.x → (dbrentUpdate s u fu du).a = s.a ∧ (dbrentUpdate s u fu du).b = s.x ∧ (dbrentUpdate s u fu du).x = u ∧
      (dbrentUpdate s u fu du).fx = fu ∧ (dbrentUpdate s u fu du).dx = du) ∧
    (s.fx < fu → u < s.x → (dbrentUpdate s u fu du).a = u ∧ (dbrentUpdate s u fu du).b = s.b ∧ (dbrentUpdate s u fu du).x = s.x ∧
      (dbrentUpdate s u fu du).fx = s.fx ∧ (dbrentUpdate s u fu du).dx = s.dx) ∧
    (s.fx < fu → s.x ≤ u → (dbrentUpdate s u fu du).a = s.a ∧ (dbrentUpdate s u fu du).b = u ∧ (dbrentUpdate s u fu du).x = s.x ∧
      (dbrentUpdate s u fu du).fx = s.fx ∧ (dbrentUpdate s u fu du).dx = s.dx) := by
  refine ⟨fun h1 h2 => ?_, fun h1 h2 => ?_, fun h1 h2 => ?_, fun h1 h2 => ?_⟩
  · rw [dbrentUpdate, if_pos h1]
    exact ⟨if_pos h2, if_pos h2, rfl, rfl, rfl⟩
  · rw [dbrentUpdate, if_pos h1]
    exact ⟨if_neg (not_le.2 h2), if_neg (not_le.2 h2), rfl, rfl, rfl⟩
  · rw [dbrentUpdate, if_neg (not_le.2 h1)]
    dsimp only
    split_ifs <;> exact ⟨rfl, rfl, rfl, rfl, rfl⟩
  · rw [dbrentUpdate, if_neg (not_le.2 h1)]
    have h3 := not_lt.2 h2
    dsimp only
    split_ifs <;> exact ⟨rfl, rfl, rfl, rfl, rfl⟩

theorem dbrentUpdate_wv {df : ℝ → ℝ} {s : DBrent} (h1 : s.dx = df s.x) (h2 : s.dw = df s.w) (h3 : s.dv = df s.v) (u fu : ℝ) :
    (dbrentUpdate s u fu (df u)).dw = df (dbrentUpdate s u fu (df u)).w ∧
    (dbrentUpdate s u fu (df u)).dv = df (dbrentUpdate s u fu (df u)).v := by
  rw [dbrentUpdate]
  dsimp only
  split_ifs <;> first | exact ⟨h1, h2⟩ | exact ⟨rfl, h2⟩ | exact ⟨h2, rfl⟩ | exact ⟨h2, h3⟩

theorem brentPoint_ne {t1 : ℝ} (ht : 0 < t1) (x d : ℝ) : brentPoint t1 x d ≠ x := by
  rw [brentPoint, copySign]
  intro h
  split_ifs at h with h1 h2
  · have : d = 0 := by linarith
    rw [this, abs_zero] at h1
    linarith
  · linarith
  · linarith

theorem dbrentUpdate_inv (hm : Sloped f df m) {br : Bracket} {s : DBrent} (h : DInv f df br m s) {u : ℝ} (hne : u ≠ s.x)
    (hin : s.fx < f u → s.a ≤ u ∧ u ≤ s.b) : DInv f df br m (dbrentUpdate s u (f u) (df u)) := by
  obtain ⟨U1, U2, U3, U4⟩ := dbrentUpdate_eq s u (f u) (df u)
  obtain ⟨W, V⟩ := dbrentUpdate_wv h.dx h.dw h.dv u (f u)
  have hax := h.ax
  have hxb := h.xb
  have ham := h.am
  have hmb := h.mb
  rcases le_or_gt (f u) s.fx with c | c
  · rcases lt_or_gt_of_ne hne with c' | c'
    · obtain ⟨e1, e2, e3, e4, e5⟩ := U2 c c'
      rw [h.value] at c
      have hau : s.a ≤ u := by
        by_contra hn
        have := hm.falls (mem_Iic.2 ((not_le.1 hn).le.trans ham)) (mem_Iic.2 ham) (not_le.1 hn)
        linarith [h.left]
      exact ⟨by rw [e4, e3], by rw [e5, e3], W, V, by rw [e1, e3]; exact hau, by rw [e2, e3]; exact c'.le, by rw [e1]; exact ham,
        by rw [e2]; exact (hm.gt c' c).le, by rw [e1, e3]; exact c.trans h.left, by rw [e2, e3]; exact c, by rw [e3]; exact c.trans h.better,
        by rw [e1]; exact h.la, by rw [e2]; exact hxb.trans h.bh⟩
    · obtain ⟨e1, e2, e3, e4, e5⟩ := U1 c c'.le
      rw [h.value] at c
      have hau : u ≤ s.b := by
        by_contra hn
        have := hm.rises (mem_Ici.2 hmb) (mem_Ici.2 (hmb.trans (not_le.1 hn).le)) (not_le.1 hn)
        linarith [h.right]
      exact ⟨by rw [e4, e3], by rw [e5, e3], W, V, by rw [e1, e3]; exact c'.le, by rw [e2, e3]; exact hau,
        by rw [e1]; exact (hm.lt c' c).le, by rw [e2]; exact hmb, by rw [e1, e3]; exact c, by rw [e2, e3]; exact c.trans h.right,
        by rw [e3]; exact c.trans h.better, by rw [e1]; exact h.la.trans hax, by rw [e2]; exact h.bh⟩
  · obtain ⟨hi1, hi2⟩ := hin c
    have hla := h.la
    have hbh := h.bh
    rcases lt_or_gt_of_ne hne with c' | c'
    · obtain ⟨e1, e2, e3, e4, e5⟩ := U3 c c'
      rw [h.value] at c
      exact ⟨by rw [e4, e3, h.value], by rw [e5, e3, h.dx], W, V, by rw [e1, e3]; exact c'.le, by rw [e2, e3]; exact hxb,
        by rw [e1]; exact (hm.lt c' c.le).le, by rw [e2]; exact hmb, by rw [e1, e3]; exact c.le, by rw [e2, e3]; exact h.right,
        by rw [e3]; exact h.better, by rw [e1]; linarith, by rw [e2]; exact hbh⟩
    · obtain ⟨e1, e2, e3, e4, e5⟩ := U4 c c'.le
      rw [h.value] at c
      exact ⟨by rw [e4, e3, h.value], by rw [e5, e3, h.dx], W, V, by rw [e1, e3]; exact hax, by rw [e2, e3]; exact c'.le,
        by rw [e1]; exact ham, by rw [e2]; exact (hm.gt c' c.le).le, by rw [e1, e3]; exact h.left, by rw [e2, e3]; exact c.le,
        by rw [e3]; exact h.better, by rw [e1]; exact hla, by rw [e2]; linarith⟩

theorem dbrentLoop_spec (hm : Sloped f df m) {tol zeps : ℝ} (htol : 0 < tol) (hz : 0 < zeps) {br : Bracket} (k iter : ℕ) {s : DBrent}
    (h : DInv f df br m s) :
    dbrentLoop f df tol zeps k iter s = .exn (.mml "OptimizationError") ∨ ∃ r, dbrentLoop f df tol zeps k iter s = .ret r ∧
      r.converged = true ∧ iter + 1 ≤ r.iterations ∧ r.iterations ≤ iter + k ∧ r.fmin = f r.xmin ∧ f r.xmin ≤ f br.bx ∧
      lo br ≤ r.xmin ∧ r.xmin ≤ hi br ∧ |r.xmin - m| ≤ 2 * (tol * |r.xmin| + zeps) := by
  induction k generalizing iter s with
  | zero => exact Or.inl rfl
  | succ k ih =>
    have ht : 0 < tol1 tol zeps s.x := by
      have := mul_nonneg htol.le (abs_nonneg s.x)
      rw [tol1]; linarith
    have hax := h.ax
    have hxb := h.xb
    have ham := h.am
    have hmb := h.mb
    have hin : lo br ≤ s.x ∧ s.x ≤ hi br := ⟨h.la.trans hax, hxb.trans h.bh⟩
    rw [dbrentLoop]
    by_cases hd : brentDone tol zeps s.a s.b s.x
    · rw [if_pos hd]
      refine Or.inr ⟨_, rfl, rfl, le_rfl, by show iter + 1 ≤ _; omega, h.value, h.better, hin.1, hin.2, ?_⟩
      rw [brentDone, tol1, abs_le] at hd
      show |s.x - m| ≤ 2 * (tol * |s.x| + zeps)
      rw [abs_le]
      constructor <;> linarith [hd.1, hd.2]
    · rw [if_neg hd]
      obtain ⟨g1, g2⟩ := not_done hd
      have hok := dbrentChoose_ok hm h ht g1 g2
      have hne := brentPoint_ne ht s.x (dbrentChoose (tol1 tol zeps s.x) s).2
      dsimp only
      generalize dbrentChoose (tol1 tol zeps s.x) s = ed at hok hne
      by_cases hc : |ed.2| < tol1 tol zeps s.x ∧ f (brentPoint (tol1 tol zeps s.x) s.x ed.2) > s.fx
      · rw [if_pos hc]
        refine Or.inr ⟨_, rfl, rfl, le_rfl, by show iter + 1 ≤ _; omega, h.value, h.better, hin.1, hin.2, ?_⟩
        show |s.x - m| ≤ 2 * (tol * |s.x| + zeps)
        have e : tol * |s.x| + zeps = tol1 tol zeps s.x := rfl
        rw [e]
        obtain ⟨hlt, hfu⟩ := hc
        obtain ⟨o1, o2, o3⟩ := hok.2 hlt
        rw [brentPoint, if_neg (not_le.2 hlt), copySign, h.value] at hfu
        rcases lt_trichotomy ed.2 0 with hs | hs | hs
        · rw [if_pos hs] at hfu
          have a1 := o1 hs
          have a2 := hm.lt (show s.x + -tol1 tol zeps s.x < s.x by linarith) hfu.le
          rw [abs_le]
          constructor <;> linarith
        · rw [o3 hs, sub_self, abs_zero]
          linarith
        · rw [if_neg (by linarith)] at hfu
          have a1 := o2 hs
          have a2 := hm.gt (show s.x < s.x + tol1 tol zeps s.x by linarith) hfu.le
          rw [abs_le]
          constructor <;> linarith
      · rw [if_neg hc]
        have h' : DInv f df br m { s with e := ed.1, d := ed.2 } :=
          ⟨h.value, h.dx, h.dw, h.dv, h.ax, h.xb, h.am, h.mb, h.left, h.right, h.better, h.la, h.bh⟩
        have := dbrentUpdate_inv hm h' hne (fun hlt => by
          have hge : tol1 tol zeps s.x ≤ |ed.2| := by
            by_contra hn
            exact hc ⟨not_le.1 hn, hlt⟩
          rw [brentPoint, if_pos hge]
          exact hok.1 hge)
        rcases ih (iter + 1) this with i | ⟨r, r1, r2, r3, r4, r5⟩
        · exact Or.inl i
        · exact Or.inr ⟨r, r1, r2, by omega, by omega, r5⟩

end Verif.Optim
