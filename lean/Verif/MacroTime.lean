import Verif.Macro
import Mathlib.Tactic.Linarith
import Mathlib.Tactic.Ring
import Mathlib.Tactic.NormNum
import Mathlib.Data.Int.Order.Basic

/-! # Facts about the macro MAC's time rounding and which fields its functions leave alone -/

namespace Thz.Macro

open Thz
open Thz.Nano (Body Kind bcast)

/-! ## Rounding -/

theorem roundOffNs_pos {S t : ℤ} (hS : 0 < S) (ht : 0 ≤ t) :
    roundOffNs S t = some (if t % S ≥ S / 2 then S * (t / S + 1) else S * (t / S)) := by
  unfold roundOffNs
  rw [if_neg (by omega)]
  have h1 : t.tmod S = t % S := Int.tmod_eq_emod_of_nonneg ht
  have h2 : S.tdiv 2 = S / 2 := Int.tdiv_eq_ediv_of_nonneg hS.le
  have h3 : t.tdiv S = t / S := Int.tdiv_eq_ediv_of_nonneg ht
  rw [h1, h2, h3]
  split <;> rfl

/-- The slot in whole nanoseconds, as `GetSlotTime ().GetNanoSeconds ()` sees it. -/
def Cfg.slotNs (c : Cfg) : ℤ := toNs c c.slot

theorem toNs_nonneg {c : Cfg} (hp : 0 < c.tpn) {t : ℤ} (ht : 0 ≤ t) : toNs c t = t / c.tpn := by
  unfold toNs; exact Int.tdiv_eq_ediv_of_nonneg ht

theorem roundOff_eq {c : Cfg} (hp : 0 < c.tpn) (hS : 0 < c.slotNs) {t : ℤ} (ht : 0 ≤ t) :
    roundOff c t =
      (if (t / c.tpn) % c.slotNs ≥ c.slotNs / 2 then c.slotNs * (t / c.tpn / c.slotNs + 1)
        else c.slotNs * (t / c.tpn / c.slotNs)) * c.tpn := by
  unfold roundOff ofNs
  rw [toNs_nonneg hp ht]
  have h := roundOffNs_pos hS (Int.ediv_nonneg ht hp.le)
  unfold Cfg.slotNs at h ⊢
  rw [h]; rfl

theorem roundOff_dvd {c : Cfg} (hp : 0 < c.tpn) (hS : 0 < c.slotNs) {t : ℤ} (ht : 0 ≤ t) :
    c.slotNs * c.tpn ∣ roundOff c t := by
  rw [roundOff_eq hp hS ht]
  split
  · exact Int.mul_dvd_mul (Dvd.intro _ rfl) (dvd_refl _)
  · exact Int.mul_dvd_mul (Dvd.intro _ rfl) (dvd_refl _)

theorem divmod (n S : ℤ) (hS : 0 < S) :
    ∃ q r w, n / S = q ∧ n % S = r ∧ S * q = w ∧ S * (q + 1) = w + S ∧ n = w + r ∧ 0 ≤ r ∧ r < S :=
  ⟨n / S, n % S, S * (n / S), rfl, rfl, rfl, by ring, (Int.mul_ediv_add_emod n S).symm,
    Int.emod_nonneg _ hS.ne', Int.emod_lt_of_pos _ hS⟩

theorem roundOff_lower {c : Cfg} (hp : 0 < c.tpn) (hS : 0 < c.slotNs) {t : ℤ} (ht : 0 ≤ t) :
    t - (c.slotNs / 2) * c.tpn < roundOff c t := by
  rw [roundOff_eq hp hS ht]
  have hnt2 : t < (t / c.tpn + 1) * c.tpn := Int.lt_ediv_add_one_mul_self t hp
  obtain ⟨q, r, w, h1, h2, h3, h4, h5, h6, h7⟩ := divmod (t / c.tpn) c.slotNs hS
  rw [h1, h2, h4, h3]
  rw [h5] at hnt2
  split
  · rename_i hr
    have h8 : (w + r + 1) * c.tpn ≤ (w + c.slotNs) * c.tpn :=
      Int.mul_le_mul_of_nonneg_right (by omega) hp.le
    have h9 : 0 ≤ c.slotNs / 2 * c.tpn := mul_nonneg (by omega) hp.le
    linarith
  · rename_i hr
    have h8 : (w + r + 1 - c.slotNs / 2) * c.tpn ≤ w * c.tpn :=
      Int.mul_le_mul_of_nonneg_right (by omega) hp.le
    have h9 : (w + r + 1 - c.slotNs / 2) * c.tpn = (w + r + 1) * c.tpn - c.slotNs / 2 * c.tpn := by ring
    linarith

theorem roundOff_upper {c : Cfg} (hp : 0 < c.tpn) (hS : 0 < c.slotNs) {t : ℤ} (ht : 0 ≤ t) :
    roundOff c t ≤ t + (c.slotNs - c.slotNs / 2) * c.tpn := by
  rw [roundOff_eq hp hS ht]
  have hnt : (t / c.tpn) * c.tpn ≤ t := Int.ediv_mul_le t hp.ne'
  obtain ⟨q, r, w, h1, h2, h3, h4, h5, h6, h7⟩ := divmod (t / c.tpn) c.slotNs hS
  rw [h1, h2, h4, h3]
  rw [h5] at hnt
  split
  · rename_i hr
    have h8 : (w + c.slotNs) * c.tpn ≤ (w + r + (c.slotNs - c.slotNs / 2)) * c.tpn :=
      Int.mul_le_mul_of_nonneg_right (by omega) hp.le
    have h9 : (w + r + (c.slotNs - c.slotNs / 2)) * c.tpn
      = (w + r) * c.tpn + (c.slotNs - c.slotNs / 2) * c.tpn := by ring
    linarith
  · have h8 : w * c.tpn ≤ (w + r) * c.tpn := Int.mul_le_mul_of_nonneg_right (by omega) hp.le
    have h9 : 0 ≤ (c.slotNs - c.slotNs / 2) * c.tpn := mul_nonneg (by omega) hp.le
    linarith

theorem roundOff_fixed {c : Cfg} (hp : 0 < c.tpn) (hS : 2 ≤ c.slotNs) {t : ℤ} (ht : 0 ≤ t)
    (hd : c.slotNs * c.tpn ∣ t) : roundOff c t = t := by
  rw [roundOff_eq hp (by omega) ht]
  obtain ⟨k, rfl⟩ := hd
  have h1 : c.slotNs * c.tpn * k / c.tpn = c.slotNs * k := by
    rw [show c.slotNs * c.tpn * k = c.slotNs * k * c.tpn by ring, Int.mul_ediv_cancel _ hp.ne']
  have h2 : ¬ (0 ≥ c.slotNs / 2) := by omega
  have h3 : c.slotNs ≠ 0 := by omega
  rw [h1, Int.mul_emod_right, Int.mul_ediv_cancel_left _ h3, if_neg h2]
  ring

theorem roundOff_mono {c : Cfg} (hp : 0 < c.tpn) (hS : 0 < c.slotNs) {t u : ℤ} (ht : 0 ≤ t)
    (htu : t ≤ u) : roundOff c t ≤ roundOff c u := by
  rw [roundOff_eq hp hS ht, roundOff_eq hp hS (ht.trans htu)]
  apply Int.mul_le_mul_of_nonneg_right _ hp.le
  have hnm : t / c.tpn ≤ u / c.tpn := Int.ediv_le_ediv hp htu
  have hq : t / c.tpn / c.slotNs ≤ u / c.tpn / c.slotNs := Int.ediv_le_ediv hS hnm
  obtain ⟨q, r, w, h1, h2, h3, h4, h5, h6, h7⟩ := divmod (t / c.tpn) c.slotNs hS
  obtain ⟨q', r', w', k1, k2, k3, k4, k5, k6, k7⟩ := divmod (u / c.tpn) c.slotNs hS
  rw [h1, k1] at hq
  rw [h1, h2, h4, h3, k1, k2, k4, k3]
  rw [h5, k5] at hnm
  rcases hq.eq_or_lt with he | hl
  · subst he
    have : w = w' := by rw [← h3, ← k3]
    split <;> split <;> omega
  · have : w + c.slotNs ≤ w' := by
      rw [← h4, ← k3]; exact Int.mul_le_mul_of_nonneg_left (by omega) hS.le
    split <;> split <;> omega

theorem roundOff_nonneg {c : Cfg} (hp : 0 < c.tpn) (hS : 0 < c.slotNs) {t : ℤ} (ht : 0 ≤ t) :
    0 ≤ roundOff c t := by
  rw [roundOff_eq hp hS ht]
  have : 0 ≤ t / c.tpn / c.slotNs := Int.ediv_nonneg (Int.ediv_nonneg ht hp.le) hS.le
  split
  · exact mul_nonneg (mul_nonneg hS.le (by linarith)) hp.le
  · exact mul_nonneg (mul_nonneg hS.le this) hp.le

/-- Rounding a remainder never exceeds a multiple of the slot that bounds it. -/
theorem roundOff_le_of_dvd {c : Cfg} (hp : 0 < c.tpn) (hS : 2 ≤ c.slotNs) {t u : ℤ} (ht : 0 ≤ t)
    (htu : t ≤ u) (hd : c.slotNs * c.tpn ∣ u) : roundOff c t ≤ u := by
  have := roundOff_mono hp (by omega) ht htu
  rwa [roundOff_fixed hp hS (ht.trans htu) hd] at this

/-! ## Timing fields -/

/-- The fields that concern time and back-off. -/
structure TimeView where
  now : ℤ
  nav : ℤ
  boStart : ℤ
  boRemain : ℤ
  retry : UInt16

/-- The timing fields of a state. -/
def St.tv (s : St) : TimeView := ⟨s.now, s.nav, s.boStart, s.boRemain, s.retry⟩

@[simp] theorem tv_emit (s : St) (o : Obs) : (s.emit o).tv = s.tv := rfl
@[simp] theorem tv_sched (s : St) (d : ℤ) (e : Ev) : (s.sched d e).tv = s.tv := rfl
@[simp] theorem tv_schedCca (s : St) (d : ℤ) (e : Ev) : (s.schedCca d e).tv = s.tv := rfl
@[simp] theorem tv_cancel (s : St) (t : Nat) : (s.cancel t).tv = s.tv := rfl
@[simp] theorem tv_localNav (c : Cfg) (d : ℤ) (s : St) : (updateLocalNav c d s).tv = s.tv := rfl

@[simp] theorem tv_cca (c : Cfg) (s : St) : (cca c s).tv = s.tv := by
  unfold cca; split
  · rfl
  · split
    · rfl
    · split <;> rfl

/-- What a function may do to the timing fields: time and reservation stay, a back-off is kept or cleared,
the retry exponent stays. -/
def Calm (s s' : St) : Prop :=
  s'.now = s.now ∧ s'.nav = s.nav ∧ (s'.boRemain = s.boRemain ∨ s'.boRemain = 0) ∧ s'.retry = s.retry

theorem Calm.refl (s : St) : Calm s s := ⟨rfl, rfl, .inl rfl, rfl⟩

theorem Calm.of_tv {s s' : St} (h : s'.tv = s.tv) : Calm s s' := by
  have h1 := congrArg TimeView.now h
  have h2 := congrArg TimeView.nav h
  have h3 := congrArg TimeView.boRemain h
  have h4 := congrArg TimeView.retry h
  exact ⟨h1, h2, .inl h3, h4⟩

theorem Calm.trans {a b d : St} (h : Calm a b) (h' : Calm b d) : Calm a d := by
  obtain ⟨h1, h2, h3, h4⟩ := h
  obtain ⟨k1, k2, k3, k4⟩ := h'
  refine ⟨k1.trans h1, k2.trans h2, ?_, k4.trans h4⟩
  rcases k3 with k | k
  · rw [k]; exact h3
  · exact .inr k

theorem calm_cca (c : Cfg) (s : St) : Calm s (cca c s) := .of_tv (tv_cca c s)

theorem calm_startOver (c : Cfg) (s : St) : Calm s (startOver c s) := by
  unfold startOver
  have h : Calm s { s with boStart := 0, boRemain := 0 } := ⟨rfl, rfl, .inr rfl, rfl⟩
  exact h.trans (calm_cca c _)

theorem tv_sendPacket (c : Cfg) (f : Frame) (s : St) : (sendPacket c f s).2.tv = s.tv := by
  unfold sendPacket; split
  · split <;> rfl
  · rfl

theorem calm_sendRts (c : Cfg) (me : Mac48) (p : Pkt) (s : St) : Calm s (sendRts c me p s) := by
  unfold sendRts
  have h := tv_sendPacket c (rtsFrame me p) s
  split
  · rename_i s' e; rw [e] at h
    exact .of_tv h
  · rename_i s' e; rw [e] at h
    exact (Calm.of_tv h).trans (calm_startOver c _)

theorem calm_sendData (c : Cfg) (me : Mac48) (p : Pkt) (s : St) : Calm s (sendData c me p s) := by
  unfold sendData
  split
  · exact .refl s
  · have h := tv_sendPacket c (dataFrame me p) { s with pktData := some p }
    have h0 : Calm s { s with pktData := some p } := ⟨rfl, rfl, .inl rfl, rfl⟩
    split
    · rename_i s' e; rw [e] at h
      split
      · exact h0.trans (.of_tv h)
      · exact h0.trans (.of_tv h)
    · rename_i s' e; rw [e] at h
      exact (h0.trans (Calm.of_tv h)).trans (calm_startOver c _)

theorem calm_granted (c : Cfg) (me : Mac48) (s : St) : Calm s (granted c me s) := by
  unfold granted
  split
  · exact .refl s
  · rename_i p _ _
    have h0 : Calm s { s with boStart := 0, boRemain := 0, pktData := some p, state := .waitTx } :=
      ⟨rfl, rfl, .inr rfl, rfl⟩
    dsimp only
    split
    · exact h0.trans (calm_sendRts c me p _)
    · exact h0.trans (calm_sendData c me p _)

theorem calm_settle (ok : Bool) (r : Rec) (s : St) : Calm s (settle ok r s) := by
  unfold settle
  dsimp only
  split <;> exact ⟨rfl, rfl, .inr rfl, rfl⟩

theorem calm_doneLoop (ok : Bool) (q : UInt16) (pre rest : List Rec) (s : St) :
    Calm s (doneLoop ok q pre rest s) := by
  induction pre, rest, s using doneLoop.induct (ok := ok) (seq := q) with
  | case1 pre s => unfold doneLoop; exact ⟨rfl, rfl, .inl rfl, rfl⟩
  | case2 pre r rest s h h2 => unfold doneLoop; rw [if_pos h, if_pos h2]; exact ⟨rfl, rfl, .inl rfl, rfl⟩
  | case3 pre r s h h2 =>
    unfold doneLoop; rw [if_pos h, if_neg h2]
    exact (calm_settle ok r s).trans ⟨rfl, rfl, .inl rfl, rfl⟩
  | case4 pre r s h h2 r' rest' ih =>
    unfold doneLoop; rw [if_pos h, if_neg h2]
    exact (calm_settle ok r s).trans ih
  | case5 pre r rest s h ih => unfold doneLoop; rw [if_neg h]; exact ih

theorem calm_sendDataDone (ok : Bool) (q : UInt16) (s : St) : Calm s (sendDataDone ok q s) :=
  calm_doneLoop ok q [] s.recs s

theorem calm_results (s : St) : Calm s (resultsRecord s) := by
  unfold resultsRecord; split <;> exact ⟨rfl, rfl, .inl rfl, rfl⟩

theorem calm_sendPacketDone (c : Cfg) (f : Frame) (s : St) : Calm s (sendPacketDone c f s) := by
  unfold sendPacketDone
  dsimp only
  split
  · exact ⟨rfl, rfl, .inl rfl, rfl⟩
  · have h0 : Calm s { ({ s with phyTx := none }.emit (.txEnd f)) with state := .idle } := ⟨rfl, rfl, .inl rfl, rfl⟩
    split
    · exact h0
    · exact h0
    · split
      · exact (h0.trans (calm_sendDataDone true f.seq _)).trans (calm_cca c _)
      · exact h0
    · exact h0.trans (calm_cca c _)

theorem calm_sendCts (c : Cfg) (me d : Mac48) (t : ℤ) (q : UInt16) (s : St) :
    Calm s (sendCts c me d t q s) := by
  unfold sendCts
  have h := tv_sendPacket c (ctsFrame c me d t q) s
  split
  · rename_i s' e; rw [e] at h; exact .of_tv h
  · rename_i s' e; rw [e] at h; exact .of_tv h

theorem calm_sendAck (c : Cfg) (me d : Mac48) (q : UInt16) (s : St) : Calm s (sendAck c me d q s) := by
  unfold sendAck
  exact .of_tv (tv_sendPacket c _ _)

theorem calm_forward (f : Frame) (s : St) : Calm s (forwardIfNew f s) := by
  unfold forwardIfNew
  dsimp only
  split <;> exact ⟨rfl, rfl, .inl rfl, rfl⟩

theorem calm_receiveAck (c : Cfg) (me : Mac48) (f : Frame) (s : St) : Calm s (receiveAck c me f s) := by
  unfold receiveAck
  dsimp only
  have h0 : Calm s { s with state := .idle } := ⟨rfl, rfl, .inl rfl, rfl⟩
  split
  · split
    · exact ⟨rfl, rfl, .inl rfl, rfl⟩
    · exact h0.trans (calm_cca c _)
  · exact h0.trans (calm_cca c _)

theorem calm_enqueue (c : Cfg) (b : Body) (d : Mac48) (g : UInt16) (s : St) :
    Calm s (enqueue c b d g s).2 := by
  unfold enqueue
  split <;> exact ⟨rfl, rfl, .inl rfl, rfl⟩

/-- What holds of the timing fields in every reachable state. -/
structure TInv (c : Cfg) (s : St) : Prop where
  now : 0 ≤ s.now
  retry : s.retry ≤ 4
  rem : 0 ≤ s.boRemain
  dvd : c.slotNs ∣ tDataNs → c.slotNs * c.tpn ∣ s.boRemain

/-- Time and the reservation never go back, and the timing invariant is kept. -/
structure Mono (c : Cfg) (s s' : St) : Prop where
  now : s.now ≤ s'.now
  nav : s.nav ≤ s'.nav
  inv : TInv c s → TInv c s'

theorem Mono.refl (c : Cfg) (s : St) : Mono c s s := ⟨le_refl _, le_refl _, id⟩

theorem Mono.trans {c : Cfg} {a b d : St} (h : Mono c a b) (h' : Mono c b d) : Mono c a d :=
  ⟨h.now.trans h'.now, h.nav.trans h'.nav, fun x => h'.inv (h.inv x)⟩

theorem Calm.mono {c : Cfg} {s s' : St} (h : Calm s s') : Mono c s s' := by
  obtain ⟨h1, h2, h3, h4⟩ := h
  refine ⟨h1.ge, h2.ge, fun x => ⟨?_, ?_, ?_, ?_⟩⟩
  · rw [h1]; exact x.now
  · rw [h4]; exact x.retry
  · rcases h3 with h | h <;> rw [h]
    exact x.rem
  · intro hd
    rcases h3 with h | h <;> rw [h]
    · exact x.dvd hd
    · exact dvd_zero _

theorem mono_updateNav (c : Cfg) (d : ℤ) (s : St) : Mono c s (updateNav c d s) := by
  unfold updateNav
  split
  · rename_i h
    exact ⟨le_refl _, le_of_lt h, fun x => ⟨x.now, x.retry, x.rem, x.dvd⟩⟩
  · exact .refl c s

theorem boTime_nonneg {c : Cfg} (hp : 0 < c.tpn) (b : Nat) : 0 ≤ boTime c b := by
  unfold boTime ofNs
  exact mul_nonneg (mul_nonneg (by positivity) (by unfold tDataNs; norm_num)) hp.le

theorem mono_drawBackoff {c : Cfg} (hp : 0 < c.tpn) (s : St) : Mono c s (drawBackoff c s) := by
  unfold drawBackoff
  split
  · refine ⟨le_refl _, le_refl _, fun x => ⟨x.now, x.retry, boTime_nonneg hp _, fun hd => ?_⟩⟩
    show c.slotNs * c.tpn ∣ boTime c _
    unfold boTime ofNs
    exact Int.mul_dvd_mul (Dvd.dvd.mul_left hd _) (dvd_refl _)
  · exact Calm.mono ⟨rfl, rfl, .inl rfl, rfl⟩

theorem mono_backoffStart {c : Cfg} (hp : 0 < c.tpn) (s : St) : Mono c s (backoffStart c s) := by
  unfold backoffStart
  dsimp only
  have h := mono_drawBackoff hp s
  split
  · exact h.trans (Calm.mono (.of_tv rfl))
  · exact h.trans (Calm.mono (.of_tv rfl))

theorem residual_nonneg {c : Cfg} (hp : 0 < c.tpn) (hS : 0 < c.slotNs) {s : St} (h : 0 ≤ s.boRemain) :
    0 ≤ residual c s := by
  unfold residual
  dsimp only
  split <;> split
  · exact roundOff_nonneg hp hS (by omega)
  · exact h
  · exact roundOff_nonneg hp hS (by omega)
  · exact h

theorem residual_dvd {c : Cfg} (hp : 0 < c.tpn) (hS : 0 < c.slotNs) {s : St}
    (h : c.slotNs * c.tpn ∣ s.boRemain) : c.slotNs * c.tpn ∣ residual c s := by
  unfold residual
  dsimp only
  split <;> split
  · exact roundOff_dvd hp hS (by omega)
  · exact h
  · exact roundOff_dvd hp hS (by omega)
  · exact h

theorem mono_busy {c : Cfg} (hp : 0 < c.tpn) (hS : 0 < c.slotNs) (s : St) :
    Mono c s (channelBecomesBusy c s) := by
  unfold channelBecomesBusy
  split
  · have h : Mono c s { s with
        pend := s.pend.filter (fun e => some e.1 ≠ s.boEv), boRemain := residual c s } :=
      ⟨le_refl _, le_refl _, fun x => ⟨x.now, x.retry, residual_nonneg hp hS x.rem,
        fun hd => residual_dvd hp hS (x.dvd hd)⟩⟩
    exact h.trans (calm_cca c _).mono
  · exact (calm_cca c s).mono

theorem mono_charge (c : Cfg) (r : Rec) (s : St) : Mono c s (charge c r s) := by
  unfold charge
  dsimp only
  split
  · exact Calm.mono (.of_tv rfl)
  · rename_i h
    refine ⟨le_refl _, le_refl _, fun x => ⟨x.now, ?_, x.rem, x.dvd⟩⟩
    show r.retry ≤ 4
    rw [ge_iff_le, UInt16.le_iff_toNat_le] at h
    rw [UInt16.le_iff_toNat_le]
    have : (5 : UInt16).toNat = 5 := rfl
    have : (4 : UInt16).toNat = 4 := rfl
    omega

theorem mono_foldl_charge (c : Cfg) (l : List Rec) (s : St) :
    Mono c s (l.foldl (fun s r => charge c r s) s) := by
  induction l generalizing s with
  | nil => exact .refl c s
  | cons r l ih => exact (mono_charge c r s).trans (ih _)

theorem mono_timeoutLoop (c : Cfg) (q : UInt16) (s : St) : Mono c s (timeoutLoop c q s) := by
  unfold timeoutLoop
  have h0 : Calm s { s with state := .idle, recs := s.recs.map (Rec.bump q) } := ⟨rfl, rfl, .inl rfl, rfl⟩
  exact h0.mono.trans (mono_foldl_charge c _ _)

theorem mono_receiveRts (c : Cfg) (me : Mac48) (f : Frame) (g : UInt16) (s : St) :
    Mono c s (receiveRts c me f g s) := by
  unfold receiveRts
  split
  · have h := mono_updateNav c (durOf c g) s
    have h1 : Calm (updateNav c (durOf c g) s) { updateNav c (durOf c g) s with state := .idle } :=
      ⟨rfl, rfl, .inl rfl, rfl⟩
    exact (h.trans h1.mono).trans (calm_cca c _).mono
  · split
    · exact (calm_cca c _).mono
    · exact Calm.mono ⟨rfl, rfl, .inl rfl, rfl⟩

theorem mono_receiveCts (c : Cfg) (me : Mac48) (f : Frame) (s : St) :
    Mono c s (receiveCts c me f s) := by
  unfold receiveCts
  split
  · have h := mono_updateNav c (durOf c f.dur) s
    have h1 : Calm (updateNav c (durOf c f.dur) s) { updateNav c (durOf c f.dur) s with state := .idle } :=
      ⟨rfl, rfl, .inl rfl, rfl⟩
    exact (h.trans h1.mono).trans (calm_cca c _).mono
  · dsimp only
    split
    · exact Calm.mono ⟨rfl, rfl, .inl rfl, rfl⟩
    · exact Calm.mono ⟨rfl, rfl, .inl rfl, rfl⟩

theorem mono_receiveData (c : Cfg) (me : Mac48) (f : Frame) (s : St) :
    Mono c s (receiveData c me f s) := by
  unfold receiveData
  split
  · have h1 : Calm s { s with state := .idle } := ⟨rfl, rfl, .inl rfl, rfl⟩
    exact ((h1.trans (calm_forward f _)).trans (calm_cca c _)).mono
  · split
    · have h := mono_updateNav c (durOf c f.dur) s
      have h1 : Calm (updateNav c (durOf c f.dur) s) { updateNav c (durOf c f.dur) s with state := .idle } :=
        ⟨rfl, rfl, .inl rfl, rfl⟩
      exact (h.trans h1.mono).trans (calm_cca c _).mono
    · have h1 : Calm s (({ updateLocalNav c (durOf c f.dur) s with state := .waitTx }).sched c.sifs
          (.sendAck f.src f.seq)) := ⟨rfl, rfl, .inl rfl, rfl⟩
      exact (h1.trans (calm_forward f _)).mono

theorem mono_receivePacket {c : Cfg} (hp : 0 < c.tpn) (hS : 0 < c.slotNs) (s : St) :
    Mono c s (receivePacket c s) := by
  unfold receivePacket
  have h := mono_busy hp hS s
  dsimp only
  split
  · exact h
  · exact h.trans (Calm.mono ⟨rfl, rfl, .inl rfl, rfl⟩)

theorem mono_receivePacketDone (c : Cfg) (me : Mac48) (f : Frame) (ok : Bool) (g : UInt16) (s : St) :
    Mono c s (receivePacketDone c me f ok g s) := by
  unfold receivePacketDone
  have h0 : Mono c s { s with state := .idle } := Calm.mono ⟨rfl, rfl, .inl rfl, rfl⟩
  dsimp only
  split
  · exact h0
  · have h1 : Mono c s ({ s with state := .idle }.emit (.rx f)) := Calm.mono ⟨rfl, rfl, .inl rfl, rfl⟩
    split
    · exact h1.trans (mono_receiveRts c me f g _)
    · exact h1.trans (mono_receiveCts c me f _)
    · exact h1.trans (mono_receiveData c me f _)
    · exact h1.trans (calm_receiveAck c me f _).mono
    · exact h1.trans (calm_cca c _).mono

theorem mono_runEv {c : Cfg} (hp : 0 < c.tpn) (me : Mac48) (e : Ev) (s : St) :
    Mono c s (runEv c me e s) := by
  cases e with
  | cca => exact (calm_cca c s).mono
  | backoffStart => exact mono_backoffStart hp s
  | granted => exact (calm_granted c me s).mono
  | ctsTimeout q =>
    have h : Calm s { s with ctsTO := s.ctsTO.eraseP (fun t => t.seq = q) } := ⟨rfl, rfl, .inl rfl, rfl⟩
    exact h.mono.trans (mono_timeoutLoop c q _)
  | ackTimeout q =>
    have h : Calm s { s with ackTO := s.ackTO.eraseP (fun t => t.seq = q) } := ⟨rfl, rfl, .inl rfl, rfl⟩
    exact h.mono.trans (mono_timeoutLoop c q _)
  | sendCts d t q => exact (calm_sendCts c me d t q s).mono
  | sendData p => exact (calm_sendData c me p s).mono
  | sendAck d q => exact (calm_sendAck c me d q s).mono
  | sendDataDone ok q => exact (calm_sendDataDone ok q s).mono
  | results => exact (calm_results s).mono
  | phyDone f => exact (calm_sendPacketDone c f s).mono

theorem mono_step {c : Cfg} (hp : 0 < c.tpn) (hS : 0 < c.slotNs) (me : Mac48) (s : St) (o : Op) :
    Mono c s (step c me s o) := by
  cases o with
  | enqueue b d g => exact (calm_enqueue c b d g s).mono
  | fire tid =>
    show Mono c s (fire c me tid s)
    unfold fire
    split
    · exact .refl c s
    · rename_i due e _
      have h : Mono c s { s with pend := s.pend.filter (fun e => e.1 ≠ tid), now := max s.now due } :=
        ⟨le_max_left _ _, le_refl _, fun x => ⟨x.now.trans (le_max_left _ _), x.retry, x.rem, x.dvd⟩⟩
      exact h.trans (mono_runEv hp me e _)
  | rxStart => exact mono_receivePacket hp hS s
  | rxDone f ok g => exact mono_receivePacketDone c me f ok g s
  | sense b => exact Calm.mono ⟨rfl, rfl, .inl rfl, rfl⟩
  | advance d =>
    exact ⟨by show s.now ≤ s.now + d; omega, le_refl _,
      fun x => ⟨by have := x.now; show 0 ≤ s.now + d; omega, x.retry, x.rem, x.dvd⟩⟩

theorem mono_run {c : Cfg} (hp : 0 < c.tpn) (hS : 0 < c.slotNs) (me : Mac48) (s : St) (ops : List Op) :
    Mono c s (run c me s ops) := by
  induction ops generalizing s with
  | nil => exact .refl c s
  | cons o ops ih => exact (mono_step hp hS me s o).trans (ih _)

theorem TInv.init (c : Cfg) (seq0 : UInt16) : TInv c (init seq0) :=
  ⟨le_refl _, by show (0 : UInt16) ≤ 4; decide, le_refl _, fun _ => dvd_zero _⟩

theorem TInv.after {c : Cfg} (hp : 0 < c.tpn) (hS : 0 < c.slotNs) (me : Mac48) (seq0 : UInt16)
    (ops : List Op) : TInv c (after c me seq0 ops) :=
  (mono_run hp hS me _ ops).inv (.init c seq0)

end Thz.Macro
