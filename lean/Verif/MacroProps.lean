import Verif.MacroTime
import Verif.MacroInv

/-!
# C26–C33, C69–C72: the macro MAC, one node

Specifications are written over the log of observations (oldest first) that a history leaves, and over
times.  The counterexamples are runs that respect simulated time (`timelyRun`), with the attribute defaults
of the code, the picosecond resolution of examples/thz-macro-central.cc, 15000-byte packets and 148 Gbit/s.
-/

namespace Thz.Macro

open Thz
open Thz.Nano (Body Kind bcast)

/-! ## Parameters for the examples -/

def exA : Mac48 := ⟨0, 0, 0, 0, 0, 1⟩
def exB : Mac48 := ⟨0, 0, 0, 0, 0, 2⟩
def exC : Mac48 := ⟨0, 0, 0, 0, 0, 3⟩
def exBody : Body := ⟨7, 15000⟩

/-- Defaults of model/thz-mac-macro.cc:113-150 and model/thz-phy-macro.cc:80-125, in picoseconds; RTS and
the slot (in ns) are parameters.  The random stream always draws the smallest number. -/
def exCfg (rts : Bool) (slotNs : ℤ) : Cfg :=
  { tpn := 1000, rts := rts, slot := slotNs * 1000, sifs := 0, difs := 0, queueLimit := 10000
    rtsRetryLimit := 7, dataRetryLimit := 5
    ctrlDur := fun k => match k with | .cts => 1189 | _ => 1081
    dataDur := fun n => (n + 5) * 8 * 100000 / 14801
    rng := fun _ => 0 }

/-- The first and second packet of the examples. -/
def exP1 : Pkt := ⟨0, 1, exB, 0, exBody⟩
def exP2 : Pkt := ⟨1, 2, exB, 0, exBody⟩

/-- Run these events in this order. -/
def fires (l : List Nat) : List Op := l.map .fire

def exAck (q : UInt16) : Frame := ⟨.ack, exB, exA, q, 0, ⟨0, 0⟩⟩
def exCts (q : UInt16) : Frame := ⟨.cts, exB, exA, q, 0, ⟨0, 0⟩⟩

/-- One packet, sent and acknowledged. -/
def runOk : List Op :=
  [.enqueue exBody exB 0] ++ fires [0, 1, 2, 3] ++
    [.advance 3054, .rxStart, .rxDone (exAck 1) true 0] ++ fires [6, 7, 5]

/-- One packet, never acknowledged. -/
def runLost : List Op := [.enqueue exBody exB 0] ++ fires (List.range 27)

/-! ## C26: rounding to slots -/

/-- Rounding, for slots of at least 2 ns: the result is a whole number of slots, less than a slot below and
at most half a slot (half a slot rounded up to nanoseconds if the slot is an odd number of nanoseconds)
above; multiples stay; order is preserved. -/
theorem C26_round_partial (c : Cfg) (S : ℤ) (hp : 0 < c.tpn) (hS : 2 ≤ S) (hslot : c.slot = S * c.tpn) (t : ℤ)
    (ht : 0 ≤ t) :
    c.slot ∣ roundOff c t ∧
    (2 * (roundOff c t - t) ≤ c.slot + c.tpn ∧ 2 * (t - roundOff c t) < c.slot) ∧
    (Even S → 2 * (roundOff c t - t) ≤ c.slot) ∧
    (c.slot ∣ t → roundOff c t = t) ∧
    (∀ u, t ≤ u → roundOff c t ≤ roundOff c u) := by
  have hs : c.slotNs = S := by
    unfold Cfg.slotNs toNs
    rw [hslot]
    exact Int.mul_tdiv_cancel _ hp.ne'
  have h0 : 0 < c.slotNs := by rw [hs]; omega
  have hlo := roundOff_lower hp h0 ht
  have hup := roundOff_upper hp h0 ht
  rw [hs] at hlo hup
  refine ⟨?_, ⟨?_, ?_⟩, ?_, ?_, ?_⟩
  · have := roundOff_dvd hp h0 ht
    rw [hs] at this
    rw [hslot]; exact this
  · have h1 : 2 * (S - S / 2) ≤ S + 1 := by omega
    have h2 : 2 * (S - S / 2) * c.tpn ≤ (S + 1) * c.tpn := by nlinarith
    rw [hslot]
    nlinarith
  · have h1 : 2 * (S / 2) ≤ S := by omega
    have h2 : 2 * (S / 2) * c.tpn ≤ S * c.tpn := by nlinarith
    rw [hslot]
    nlinarith
  · rintro ⟨k, hk⟩
    have h1 : S - S / 2 = k := by omega
    rw [h1] at hup
    rw [hslot]
    have h2 : S * c.tpn = 2 * (k * c.tpn) := by rw [hk]; ring
    linarith
  · intro hd
    have := roundOff_fixed hp (by rw [hs]; exact hS) ht (by rw [hs, ← hslot]; exact hd)
    exact this
  · intro u hu
    exact roundOff_mono hp h0 ht hu

example : (0 : ℤ) < (exCfg false 5).tpn ∧ (2 : ℤ) ≤ 5 ∧ (exCfg false 5).slot = 5 * (exCfg false 5).tpn ∧
    roundOff (exCfg false 5) 8000 = 10000 ∧ roundOff (exCfg false 5) 6000 = 5000 := by decide +kernel

/-- With the default slot of 5 ns, 2 ns is rounded to 5 ns: three nanoseconds away, more than half a slot. -/
theorem C26_half_slot_violated :
    roundOff (exCfg false 5) 2000 = 5000 ∧ 2 * (roundOff (exCfg false 5) 2000 - 2000) > (exCfg false 5).slot := by
  decide +kernel

/-- With a slot of 1 ns every time, being a multiple of the slot, is moved to the next one. -/
theorem C26_one_ns_violated (t : ℤ) : roundOffNs 1 t = some (t + 1) := by
  simp [roundOffNs]

/-- With a slot below 1 ns the operation divides by zero. -/
theorem C26_division_by_zero_violated :
    (∀ t, roundOffNs 0 t = none) ∧ toNs (exCfg false 0) ({ exCfg false 0 with slot := 500 } : Cfg).slot = 0 := by
  refine ⟨fun t => by simp [roundOffNs], by decide +kernel⟩

/-! ## C27: reservations -/

/-- The time until which the MAC considers the medium reserved: the larger of the two values that
`CcaForDifs` looks at (model/thz-mac-macro.cc:325-326). -/
def reservedUntil (s : St) : ℤ := max s.nav s.localNav

/-- The duration that `GetDuration` returns for a received frame; an RTS does not carry one, `g` is what the
uninitialised field holds. -/
def announced (c : Cfg) (f : Frame) (g : UInt16) : ℤ :=
  (if f.kind = .rts then g.toNat else f.dur.toNat) * c.tpn

theorem localNav_cca (c : Cfg) (s : St) : (cca c s).localNav = s.localNav := by
  unfold cca; split
  · rfl
  · split
    · rfl
    · split <;> rfl

theorem nav_cca (c : Cfg) (s : St) : (cca c s).nav = s.nav := by
  unfold cca; split
  · rfl
  · split
    · rfl
    · split <;> rfl

theorem reserved_cca (c : Cfg) (s : St) : reservedUntil (cca c s) = reservedUntil s := by
  unfold reservedUntil; rw [localNav_cca, nav_cca]

theorem nav_le_updateNav (c : Cfg) (d : ℤ) (s : St) : s.nav ≤ (updateNav c d s).nav := by
  unfold updateNav; split
  · rename_i h; exact le_of_lt h
  · exact le_refl _

theorem round_le_updateNav (c : Cfg) (d : ℤ) (s : St) : roundOff c (s.now + d) ≤ (updateNav c d s).nav := by
  unfold updateNav; split
  · exact le_refl _
  · rename_i h; exact not_lt.1 h

theorem localNav_updateNav (c : Cfg) (d : ℤ) (s : St) : (updateNav c d s).localNav = s.localNav := by
  unfold updateNav; split <;> rfl

theorem reserved_updateNav (c : Cfg) (d : ℤ) (s : St) : reservedUntil s ≤ reservedUntil (updateNav c d s) := by
  unfold reservedUntil
  rw [localNav_updateNav]
  exact max_le_max (nav_le_updateNav c d s) (le_refl _)

/-- A reception meant for another node never shortens the reservation, in any state. -/
theorem C27_never_shorter (c : Cfg) (me : Mac48) (s : St) (f : Frame) (ok : Bool) (g : UInt16)
    (h : f.dst ≠ me) : reservedUntil s ≤ reservedUntil (step c me s (.rxDone f ok g)) := by
  show _ ≤ reservedUntil (receivePacketDone c me f ok g s)
  unfold receivePacketDone
  dsimp only
  split
  · exact le_refl _
  · set s1 : St := ({ s with state := .idle } : St).emit (.rx f) with hs1
    have h1 : reservedUntil s = reservedUntil s1 := rfl
    rw [h1]
    split
    · unfold receiveRts
      rw [if_pos h, reserved_cca]
      exact reserved_updateNav c _ s1
    · unfold receiveCts
      rw [if_pos h, reserved_cca]
      exact reserved_updateNav c _ s1
    · unfold receiveData
      split
      · rw [reserved_cca]
        unfold forwardIfNew
        dsimp only
        split <;> exact le_refl _
      · rw [reserved_cca]; exact reserved_updateNav c _ s1
    · unfold receiveAck
      rw [if_neg h, reserved_cca]
      exact le_refl _
    · rw [reserved_cca]

/-- After overhearing an RTS, CTS or DATA frame that announces `d`, the medium is considered reserved until
at least now + d minus half a slot, whatever happens later. -/
theorem C27_covers (c : Cfg) (hp : 0 < c.tpn) (S : ℤ) (hS : 1 ≤ S) (hslot : c.slot = S * c.tpn) (me : Mac48)
    (seq0 : UInt16) (ops later : List Op) (f : Frame) (g : UInt16) (hd : f.dst ≠ me) (hb : f.dst ≠ bcast)
    (hk : f.kind = .rts ∨ f.kind = .cts ∨ f.kind = .data) :
    2 * ((after c me seq0 ops).now + announced c f g) - c.slot <
      2 * reservedUntil (after c me seq0 (ops ++ [.rxDone f true g] ++ later)) := by
  have hs : c.slotNs = S := by
    unfold Cfg.slotNs toNs
    rw [hslot]
    exact Int.mul_tdiv_cancel _ hp.ne'
  have h0 : 0 < c.slotNs := by rw [hs]; omega
  set s := after c me seq0 ops with hsdef
  have hnow : 0 ≤ s.now := (TInv.after hp h0 me seq0 ops).now
  have hann : 0 ≤ announced c f g := by
    unfold announced
    split <;> positivity
  have e1 : after c me seq0 (ops ++ [.rxDone f true g] ++ later)
      = run c me (receivePacketDone c me f true g s) later := by
    rw [hsdef]; unfold after run
    rw [List.foldl_append, List.foldl_append]; rfl
  have h1 := (mono_run hp h0 me (receivePacketDone c me f true g s) later).nav
  have h2 : roundOff c (s.now + announced c f g) ≤ (receivePacketDone c me f true g s).nav := by
    unfold receivePacketDone
    dsimp only
    rw [if_neg (by simp)]
    set s1 : St := ({ s with state := .idle } : St).emit (.rx f) with hs1
    have hn : s.now = s1.now := rfl
    rcases hk with h | h | h
    · rw [h]
      show _ ≤ (receiveRts c me f g s1).nav
      unfold receiveRts
      rw [if_pos hd, nav_cca]
      have : announced c f g = durOf c g := by simp [announced, h, durOf, ofNs]
      rw [this, hn]; exact round_le_updateNav c _ s1
    · rw [h]
      show _ ≤ (receiveCts c me f s1).nav
      unfold receiveCts
      rw [if_pos hd, nav_cca]
      have : announced c f g = durOf c f.dur := by simp [announced, h, durOf, ofNs]
      rw [this, hn]; exact round_le_updateNav c _ s1
    · rw [h]
      show _ ≤ (receiveData c me f s1).nav
      unfold receiveData
      rw [if_neg hb, if_pos hd, nav_cca]
      have : announced c f g = durOf c f.dur := by simp [announced, h, durOf, ofNs]
      rw [this, hn]; exact round_le_updateNav c _ s1
  have h3 := roundOff_lower hp h0 (add_nonneg hnow hann)
  rw [hs] at h3
  have h4 : (run c me (receivePacketDone c me f true g s) later).nav ≤
      reservedUntil (after c me seq0 (ops ++ [.rxDone f true g] ++ later)) := by
    rw [e1]; exact le_max_left _ _
  have h5 : 2 * (S / 2) * c.tpn ≤ S * c.tpn := by
    have : 2 * (S / 2) ≤ S := by omega
    nlinarith
  rw [hslot]
  nlinarith

example : reservedUntil (after (exCfg false 5) exA 0
    [.advance 1000, .rxStart, .rxDone ⟨.cts, exB, exC, 9, 800, ⟨0, 0⟩⟩ true 0]) = 800000 := by decide +kernel

/-! ## C28: back-off -/

/-- The back-off is kept or cleared. -/
def BoSame (s s' : St) : Prop := s'.boRemain = s.boRemain ∨ s'.boRemain = 0

theorem Calm.bo {s s' : St} (h : Calm s s') : BoSame s s' := h.2.2.1

theorem BoSame.trans {a b d : St} (h : BoSame a b) (h' : BoSame b d) : BoSame a d := by
  unfold BoSame at *
  rcases h' with h' | h'
  · rw [h']; exact h
  · exact .inr h'

theorem bo_cca (c : Cfg) (s : St) : (cca c s).boRemain = s.boRemain :=
  congrArg TimeView.boRemain (tv_cca c s)

theorem bo_updateNav (c : Cfg) (d : ℤ) (s : St) : (updateNav c d s).boRemain = s.boRemain := by
  unfold updateNav; split <;> rfl

theorem bo_charge (c : Cfg) (r : Rec) (s : St) : (charge c r s).boRemain = s.boRemain := by
  unfold charge; dsimp only; split <;> rfl

theorem bo_foldl (c : Cfg) (l : List Rec) (s : St) :
    (l.foldl (fun s r => charge c r s) s).boRemain = s.boRemain := by
  induction l generalizing s with
  | nil => rfl
  | cons r l ih => rw [List.foldl_cons, ih, bo_charge]

theorem bo_receive (c : Cfg) (me : Mac48) (f : Frame) (ok : Bool) (g : UInt16) (s : St) :
    BoSame s (receivePacketDone c me f ok g s) := by
  unfold receivePacketDone
  dsimp only
  split
  · exact .inl rfl
  · split
    · unfold receiveRts
      split
      · left; rw [bo_cca]; exact bo_updateNav c _ _
      · split
        · left; rw [bo_cca]; rfl
        · exact .inl rfl
    · unfold receiveCts
      split
      · left; rw [bo_cca]; exact bo_updateNav c _ _
      · dsimp only
        split <;> exact .inl rfl
    · unfold receiveData
      split
      · left; rw [bo_cca]; unfold forwardIfNew; dsimp only; split <;> rfl
      · split
        · left; rw [bo_cca]; exact bo_updateNav c _ _
        · left; unfold forwardIfNew; dsimp only; split <;> rfl
    · exact (calm_receiveAck c me f _).bo
    · left; rw [bo_cca]; rfl

theorem bo_backoffStart (c : Cfg) (s : St) :
    (backoffStart c s).boRemain = (drawBackoff c s).boRemain := by
  unfold backoffStart; dsimp only; split <;> rfl

/-- What one step does to the remaining back-off. -/
theorem bo_step (c : Cfg) (me : Mac48) (s : St) (o : Op) :
    BoSame s (step c me s o) ∨
    (o = .rxStart ∧ (step c me s o).boRemain = residual c s) ∨
    (s.boRemain = 0 ∧ ∃ i, (step c me s o).boRemain = boTime c (drawBo c i s.retry)) := by
  cases o with
  | enqueue b d g => exact .inl (calm_enqueue c b d g s).bo
  | rxStart =>
    show BoSame s (receivePacket c s) ∨ (_ ∧ (receivePacket c s).boRemain = _) ∨ _
    have h : (receivePacket c s).boRemain = (channelBecomesBusy c s).boRemain := by
      unfold receivePacket; dsimp only; split <;> rfl
    unfold BoSame
    rw [h]
    unfold channelBecomesBusy
    split
    · right; left; rw [bo_cca]; exact ⟨rfl, rfl⟩
    · left; left; rw [bo_cca]
  | rxDone f ok g => exact .inl (bo_receive c me f ok g s)
  | sense b => exact .inl (.inl rfl)
  | advance d => exact .inl (.inl rfl)
  | fire tid =>
    show BoSame s (fire c me tid s) ∨ _ ∨ (_ ∧ ∃ i, (fire c me tid s).boRemain = _)
    unfold fire
    split
    · exact .inl (.inl rfl)
    · rename_i t due e _
      set s1 : St := { s with pend := s.pend.filter (fun e => e.1 ≠ tid), now := max s.now due } with hs1
      have e1 : s1.boRemain = s.boRemain := rfl
      have e2 : s1.retry = s.retry := rfl
      have key : ∀ s2, BoSame s1 s2 → BoSame s s2 := fun s2 h => by unfold BoSame at *; rwa [e1] at h
      cases e with
      | cca => exact .inl (.inl (bo_cca c s1))
      | backoffStart =>
        show BoSame s (backoffStart c s1) ∨ _ ∨ (_ ∧ ∃ i, (backoffStart c s1).boRemain = _)
        unfold BoSame
        rw [bo_backoffStart]
        unfold drawBackoff
        split
        · rename_i h0
          right; right
          exact ⟨h0, s1.rngIdx, rfl⟩
        · exact .inl (.inl rfl)
      | granted => exact .inl (key _ (calm_granted c me s1).bo)
      | ctsTimeout q => exact .inl (.inl (bo_foldl c _ _))
      | ackTimeout q => exact .inl (.inl (bo_foldl c _ _))
      | sendCts d t q => exact .inl (key _ (calm_sendCts c me d t q s1).bo)
      | sendData p => exact .inl (key _ (calm_sendData c me p s1).bo)
      | sendAck d q => exact .inl (key _ (calm_sendAck c me d q s1).bo)
      | sendDataDone ok q => exact .inl (key _ (calm_sendDataDone ok q s1).bo)
      | results => exact .inl (key _ (calm_results s1).bo)
      | phyDone f => exact .inl (key _ (calm_sendPacketDone c f s1).bo)

/-- If the slot divides 810 ns (as the default of 5 ns does) and is at least 2 ns: in every reachable state,
whatever happens next either does not increase the remaining back-off, or draws a fresh one, which happens
only when none is left and gives between one and 2^retry (at most 16) units of 810 ns. -/
theorem C28_backoff_partial (c : Cfg) (hp : 0 < c.tpn) (S : ℤ) (hS : 2 ≤ S) (hslot : c.slot = S * c.tpn)
    (hdvd : S ∣ 810) (me : Mac48) (seq0 : UInt16) (ops : List Op) (o : Op) :
    (after c me seq0 (ops ++ [o])).boRemain ≤ (after c me seq0 ops).boRemain ∨
    ((after c me seq0 ops).boRemain = 0 ∧ ∃ bo : ℕ, 1 ≤ bo ∧ bo ≤ 2 ^ (after c me seq0 ops).retry.toNat ∧ bo ≤ 16 ∧
      (after c me seq0 (ops ++ [o])).boRemain = bo * (810 * c.tpn)) := by
  have hs : c.slotNs = S := by
    unfold Cfg.slotNs toNs
    rw [hslot]
    exact Int.mul_tdiv_cancel _ hp.ne'
  have h0 : 0 < c.slotNs := by rw [hs]; omega
  set s := after c me seq0 ops with hsdef
  have e : after c me seq0 (ops ++ [o]) = step c me s o := by
    rw [hsdef]; unfold after run; rw [List.foldl_append]; rfl
  have ti : TInv c s := TInv.after hp h0 me seq0 ops
  rw [e]
  rcases bo_step c me s o with h | ⟨_, h⟩ | ⟨h, i, hi⟩
  · left
    rcases h with h | h <;> rw [h]
    exact ti.rem
  · left
    rw [h]
    unfold residual
    dsimp only
    have hd : c.slotNs * c.tpn ∣ s.boRemain := ti.dvd (by rw [hs]; exact hdvd)
    have hel : 0 ≤ (if s.now > s.boStart then s.now - s.boStart else 0) := by split <;> omega
    generalize (if s.now > s.boStart then s.now - s.boStart else 0) = el at hel ⊢
    split
    · exact roundOff_le_of_dvd hp (by rw [hs]; exact hS) (by omega) (by omega) hd
    · exact le_refl _
  · right
    refine ⟨h, drawBo c i s.retry, ?_, ?_, ?_, ?_⟩
    · unfold drawBo; omega
    · unfold drawBo
      have := Nat.mod_lt (c.rng i) (Nat.two_pow_pos s.retry.toNat)
      omega
    · unfold drawBo
      have h1 := Nat.mod_lt (c.rng i) (Nat.two_pow_pos s.retry.toNat)
      have h2 : s.retry.toNat ≤ 4 := ti.retry
      have h3 : 2 ^ s.retry.toNat ≤ 2 ^ 4 := Nat.pow_le_pow_right (by norm_num) h2
      omega
    · rw [hi]; unfold boTime ofNs tDataNs; ring

/-- The hypotheses hold for the defaults, and a busy medium shortens a running back-off: from 810 ns to
510 ns after 300 ns. -/
example : (exCfg false 5).slot = 5 * (exCfg false 5).tpn ∧ (5 : ℤ) ∣ 810 ∧
    (after (exCfg false 5) exA 0
      ([.enqueue exBody exB 0] ++ fires [0, 1] ++ [.advance 299999])).boRemain = 810000 ∧
    (after (exCfg false 5) exA 0
      ([.enqueue exBody exB 0] ++ fires [0, 1] ++ [.advance 299999, .rxStart])).boRemain = 510000 := by
  decide +kernel

/-- With a slot of 20 ns a back-off interrupted at once grows from 810 ns to 820 ns. -/
theorem C28_grows_violated :
    timelyRun (exCfg false 20) exA (init 0) ([.enqueue exBody exB 0] ++ fires [0, 1] ++ [.rxStart]) = true ∧
    (after (exCfg false 20) exA 0 ([.enqueue exBody exB 0] ++ fires [0, 1])).boRemain = 810000 ∧
    (after (exCfg false 20) exA 0 ([.enqueue exBody exB 0] ++ fires [0, 1] ++ [.rxStart])).boRemain = 820000 := by
  decide +kernel

/-! ## C29: retry limit -/

/-- The configured limits have no influence at all. -/
theorem C29_limits_ignored_violated (c : Cfg) (r d : Nat) (me : Mac48) (seq0 : UInt16) (ops : List Op) :
    after { c with rtsRetryLimit := r, dataRetryLimit := d } me seq0 ops = after c me seq0 ops := rfl

/-- For instance with a limit of one attempt: the packet is tried and timed out five times before it is
discarded. -/
theorem C29_limit_one_violated :
    let c := { exCfg false 5 with rtsRetryLimit := 1, dataRetryLimit := 1 }
    timelyRun c exA (init 0) runLost = true ∧
    numTO 0 (after c exA 0 runLost).log = 5 ∧
    ((after c exA 0 runLost).log.countP (fun o => o = .handed (dataFrame exA exP1))) = 5 ∧
    Obs.done false exP1 ∈ (after c exA 0 runLost).log := by
  decide +kernel

/-- What does hold, for up to 65536 packets: a packet is discarded only after at least five of its attempts
timed out, and after its fifth timeout it is no longer queued. -/
theorem C29_five_partial (c : Cfg) (me : Mac48) (seq0 : UInt16) (ops : List Op)
    (hn : numAccepted (after c me seq0 ops).log ≤ 65536) (p : Pkt) :
    (Obs.done false p ∈ (after c me seq0 ops).log → 5 ≤ numTO p.uid (after c me seq0 ops).log) ∧
    (p ∈ (after c me seq0 ops).queue → numTO p.uid (after c me seq0 ops).log < 5) := by
  have k : PkInv seq0 (after c me seq0 ops).sv := PkInv.after c me seq0 ops
  have o : OutInv me (after c me seq0 ops).sv := OutInv.after c me seq0 ops
  have b : Basic c me (after c me seq0 ops).sv := Basic.after c me seq0 ops
  rw [numAccepted_after] at hn
  constructor
  · intro hd
    obtain ⟨p', n, h1, h2, h3⟩ := o.reason false p hd
    have h4 := k.tout p' n h1
    have h5 : p' = p := k.seq_inj hn h4.1 (k.doneGone false p hd).1 h2
    rw [h5] at h4
    exact le_trans (show (5 : Nat) ≤ n.toNat from h3) h4.2
  · intro hq
    by_contra h
    exact k.gone p 5 (o.fifth p (b.queue p hq) (not_lt.1 h)) (by decide) p hq rfl

example : Obs.done false exP1 ∈ (after (exCfg false 5) exA 0 runLost).log ∧
    exP1 ∈ (after (exCfg false 5) exA 0 (runLost.take 20)).queue := by decide +kernel

/-! ## C30: Enqueue -/

/-- Enqueue always answers false, although it accepts the packet. -/
theorem C30_answer_violated :
    (∀ c b dst g s, (enqueue c b dst g s).1 = false) ∧
    (enqueue (exCfg false 5) exBody exB 0 (init 0)).2.queue = [exP1] := by
  refine ⟨fun c b dst g s => ?_, by decide +kernel⟩
  unfold enqueue; split <;> rfl

theorem queue_after_enqueues (c : Cfg) (me : Mac48) (n : Nat) (s : St) :
    (run c me s (List.replicate n (.enqueue exBody exB 0))).queue.length = s.queue.length + n := by
  induction n generalizing s with
  | zero => rfl
  | succ n ih =>
    rw [List.replicate_succ]
    show (run c me (enqueue c exBody exB 0 s).2 _).queue.length = _
    rw [ih]
    have : (enqueue c exBody exB 0 s).2.queue.length = s.queue.length + 1 := by
      unfold enqueue
      rw [if_neg (by decide)]
      simp [St.sched, St.emit]
    omega

/-- Whatever the queue limit, any number of packets can be queued. -/
theorem C30_limit_violated (c : Cfg) (me : Mac48) (seq0 : UInt16) (n : Nat) :
    ∃ ops, (after c me seq0 ops).queue.length = n :=
  ⟨List.replicate n (.enqueue exBody exB 0), by
    unfold after; rw [queue_after_enqueues]; simp [init]⟩

/-- A 66000-byte packet is dropped because its size is compared modulo 65536. -/
theorem C30_size_wraps_violated :
    (enqueue (exCfg false 5) ⟨7, 66000⟩ exB 0 (init 0)).2.log = [.dropped ⟨7, 66000⟩] := by decide +kernel

/-- What does hold: exactly the packets whose size modulo 65536 is below 15000 bytes are dropped, without
any other effect, and the answer is false for them; all others are put at the end of the queue. -/
theorem C30_enqueue_partial (c : Cfg) (b : Body) (dst : Mac48) (g : UInt16) (s : St) :
    (b.size % 65536 < 15000 → (enqueue c b dst g s).1 = false ∧
      (enqueue c b dst g s).2 = { s with log := s.log ++ [.dropped b] }) ∧
    (15000 ≤ b.size % 65536 → ∃ p : Pkt, p.body = b ∧ p.dst = dst ∧ p.seq = s.seq + 1 ∧
      (enqueue c b dst g s).2.queue = s.queue ++ [p] ∧
      (enqueue c b dst g s).2.log = s.log ++ [.accepted p]) := by
  have hsz : (UInt16.ofNat b.size).toNat = b.size % 65536 := UInt16.toNat_ofNat'
  constructor
  · intro h
    unfold enqueue
    rw [if_pos (by rw [hsz]; exact h)]
    exact ⟨rfl, rfl⟩
  · intro h
    unfold enqueue
    rw [if_neg (by rw [hsz]; unfold minEnqueue; omega)]
    exact ⟨_, rfl, rfl, rfl, rfl, rfl⟩

/-! ## C31: completion -/

theorem doneLoop_none (ok : Bool) (q : UInt16) (pre rest : List Rec) (s : St) (h : ∀ r ∈ rest, r.seq ≠ q) :
    doneLoop ok q pre rest s = { s with recs := pre ++ rest } := by
  induction rest generalizing pre with
  | nil => rw [doneLoop, List.append_nil]
  | cons r rest ih =>
    rw [doneLoop.eq_def]
    dsimp only
    rw [if_neg (h r List.mem_cons_self), ih _ (fun x hx => h x (List.mem_cons_of_mem _ hx))]
    simp

theorem doneLoop_hit (ok : Bool) (q : UInt16) (pre a : List Rec) (r : Rec) (b : List Rec) (s : St)
    (ha : ∀ x ∈ a, x.seq ≠ q) (hr : r.seq = q) (hb : ∀ x ∈ b, x.seq ≠ q) (hq : ok = false ∨ s.queue ≠ []) :
    doneLoop ok q pre (a ++ r :: b) s =
      { settle ok r s with recs := pre ++ a ++ b, ub := (settle ok r s).ub || b.isEmpty } := by
  induction a generalizing pre with
  | nil =>
    rw [List.nil_append, doneLoop.eq_def]
    dsimp only
    rw [if_pos hr, if_neg (by rintro ⟨h1, h2⟩; rcases hq with h | h <;> simp_all)]
    cases b with
    | nil => simp
    | cons x b =>
      have h := doneLoop_none ok q (pre ++ [x]) b (settle ok r s) (fun y hy => hb y (List.mem_cons_of_mem _ hy))
      show doneLoop ok q (pre ++ [x]) b (settle ok r s) = _
      rw [h]
      simp
  | cons x a ih =>
    rw [List.cons_append, doneLoop.eq_def]
    dsimp only
    rw [if_neg (ha x List.mem_cons_self), ih _ (fun y hy => ha y (List.mem_cons_of_mem _ hy))]
    simp

/-- In a reachable state (up to 65536 packets), reporting the outcome of a recorded packet, unless it is a
success while the queue is empty: exactly that packet's record goes; exactly one outcome is reported, for
that packet; exactly one row is prepared and one writing of a row scheduled; and the iterator stays valid
exactly if the record is not the last one. -/
theorem C31_completion_partial (c : Cfg) (me : Mac48) (seq0 : UInt16) (ops : List Op)
    (hn : numAccepted (after c me seq0 ops).log ≤ 65536) (ok : Bool) (r : Rec)
    (hr : r ∈ (after c me seq0 ops).recs) (hq : ok = false ∨ (after c me seq0 ops).queue ≠ []) :
    let s := after c me seq0 ops
    let s' := sendDataDone ok r.seq s
    s'.recs = s.recs.filter (fun x => x.pkt.uid ≠ r.pkt.uid) ∧
    s'.log = s.log ++ [.done ok r.pkt] ∧
    (∃ row, s'.result = [row] ∧ row.pkt = r.pkt ∧ row.success = ok ∧ row.discard = !ok) ∧
    s'.pend = s.pend ++ [(s.nextTid, s.now, .results)] ∧
    (s'.ub = true ↔ s.ub = true ∨ s.recs.getLast? = some r) := by
  intro s s'
  have k : PkInv seq0 s.sv := PkInv.after c me seq0 ops
  have bs : Basic c me s.sv := Basic.after c me seq0 ops
  rw [numAccepted_after] at hn
  obtain ⟨a, b, hab⟩ := List.append_of_mem hr
  have hab' : s.recs = a ++ r :: b := hab
  have hpw : (a ++ r :: b).Pairwise (fun x y => x.pkt.uid < y.pkt.uid) := hab' ▸ k.recSorted
  have hne : ∀ x ∈ a ++ b, x.pkt.uid ≠ r.pkt.uid := by
    intro x hx
    rw [List.pairwise_append, List.pairwise_cons] at hpw
    rcases List.mem_append.1 hx with h | h
    · exact (hpw.2.2 x h r List.mem_cons_self).ne
    · exact (hpw.2.1.1 x h).ne'
  have hseq : ∀ x ∈ a ++ b, x.seq ≠ r.seq := by
    intro x hx he
    have hx' : x ∈ s.recs := by
      rw [hab']
      rcases List.mem_append.1 hx with h | h
      · exact List.mem_append_left _ h
      · exact List.mem_append_right _ (List.mem_cons_of_mem _ h)
    have h1 := bs.recs x hx'
    have h2 := bs.recs r hr
    have := k.seq_inj hn h1.1 h2.1 (by rw [← h1.2, ← h2.2, he])
    exact hne x hx (by rw [this])
  have hmain : s' = { settle ok r s with recs := a ++ b, ub := (settle ok r s).ub || b.isEmpty } := by
    show doneLoop ok r.seq [] s.recs s = _
    rw [hab', doneLoop_hit ok r.seq [] a r b s (fun x hx => hseq x (List.mem_append_left _ hx)) rfl
      (fun x hx => hseq x (List.mem_append_right _ hx)) hq]
    simp
  have hset : (settle ok r s).log = s.log ++ [.done ok r.pkt] ∧ (settle ok r s).ub = s.ub ∧
      (settle ok r s).pend = s.pend ++ [(s.nextTid, s.now, .results)] ∧
      ∃ row, (settle ok r s).result = [row] ∧ row.pkt = r.pkt ∧ row.success = ok ∧ row.discard = !ok := by
    unfold settle
    cases ok
    · exact ⟨rfl, rfl, by simp [St.sched, St.emit], _, rfl, rfl, rfl, rfl⟩
    · exact ⟨rfl, rfl, by simp [St.sched, St.emit], _, rfl, rfl, rfl, rfl⟩
  obtain ⟨e1, e2, e3, e4⟩ := hset
  refine ⟨?_, ?_, ?_, ?_, ?_⟩
  · rw [hmain]
    show a ++ b = s.recs.filter _
    rw [hab', List.filter_append, List.filter_cons_of_neg (by simp)]
    rw [List.filter_eq_self.2 (fun x hx => by simpa using hne x (List.mem_append_left _ hx)),
      List.filter_eq_self.2 (fun x hx => by simpa using hne x (List.mem_append_right _ hx))]
  · rw [hmain]; exact e1
  · rw [hmain]; exact e4
  · rw [hmain]; exact e3
  · rw [hmain]
    show ((settle ok r s).ub || b.isEmpty) = true ↔ _
    rw [e2, Bool.or_eq_true, hab']
    refine or_congr_right ?_
    cases b with
    | nil => simp
    | cons y b =>
      simp only [List.isEmpty_cons, Bool.false_eq_true, false_iff]
      intro h
      have h1 : (a ++ r :: y :: b).getLast? = (y :: b).getLast? := by
        rw [List.getLast?_append, List.getLast?_cons_cons]
        cases hy : (y :: b).getLast? with
        | none => simp at hy
        | some z => rfl
      rw [h1] at h
      exact hseq r (List.mem_append_right _ (List.mem_of_getLast? h)) rfl

/-- Two recorded packets, the first one completes. -/
example : (after (exCfg false 5) exA 0 [.enqueue exBody exB 0, .enqueue exBody exB 0]).recs.map (·.pkt) = [exP1, exP2] ∧
    (after (exCfg false 5) exA 0 [.enqueue exBody exB 0, .enqueue exBody exB 0]).queue ≠ [] := by decide +kernel

/-- One packet, sent and acknowledged with the default parameters: erasing its record, the last one, and
advancing the iterator runs into undefined behaviour. -/
theorem C31_iterator_violated :
    timelyRun (exCfg false 5) exA (init 0) runOk = true ∧
    Obs.done true exP1 ∈ (after (exCfg false 5) exA 0 runOk).log ∧
    (after (exCfg false 5) exA 0 runOk).ub = true := by decide +kernel

/-- Reporting a success while the queue is empty removes no record, and the row that is then written does not
exist. -/
theorem C31_empty_queue_violated (s : St) (r : Rec) (rest : List Rec) (hr : s.recs = r :: rest)
    (hq : s.queue = []) :
    (sendDataDone true r.seq s).recs = s.recs ∧ (sendDataDone true r.seq s).log = s.log ∧
    (resultsRecord (sendDataDone true r.seq s)).ub = true := by
  have : sendDataDone true r.seq s = { s.sched 0 .results with state := .idle, result := [], recs := r :: rest } := by
    unfold sendDataDone
    rw [hr, doneLoop.eq_def]
    simp [hq]
  rw [this]
  refine ⟨hr.symm, rfl, rfl⟩

/-! ## C32: one transmission at a time -/

/-- Two packets enqueued 400 ns apart lead to two grants; the second one calls the PHY while the first DATA
frame is on the air. -/
theorem C32_second_grant_violated :
    let ops := [.enqueue exBody exB 0] ++ fires [0, 1] ++ [.advance 399999, .enqueue exBody exB 0] ++
      fires [3, 4, 2, 5]
    timelyRun (exCfg false 5) exA (init 0) ops = true ∧
    (after (exCfg false 5) exA 0 ops).log =
      [.accepted exP1, .accepted exP2, .handed (dataFrame exA exP1), .refused (dataFrame exA exP1)] := by
  decide +kernel

/-- What does hold: the PHY refuses such frames, so between two frames that the PHY takes, the transmission
of the first one ends. -/
theorem C32_no_overlap_partial (c : Cfg) (me : Mac48) (seq0 : UInt16) (ops : List Op) (l1 l2 l3 : List Obs)
    (f g : Frame)
    (h : (after c me seq0 ops).log = l1 ++ Obs.handed f :: (l2 ++ Obs.handed g :: l3)) : Obs.txEnd f ∈ l2 := by
  have i : PhyInv (after c me seq0 ops).sv := PhyInv.after c me seq0 ops
  exact i.apart l1 f l2 g l3 h

example : ∃ l1 l2 l3 f g, (after (exCfg false 5) exA 0 runLost).log = l1 ++ Obs.handed f :: (l2 ++ Obs.handed g :: l3) := by
  refine ⟨[.accepted exP1], [.txEnd (dataFrame exA exP1), .timedOut exP1 1],
    (after (exCfg false 5) exA 0 runLost).log.drop 5, dataFrame exA exP1, dataFrame exA exP1, ?_⟩
  decide +kernel

/-! ## C33: CTS -/

/-- An awaited CTS goes back to an RTS that was transmitted. -/
theorem ctsTO_after (c : Cfg) (me : Mac48) (seq0 : UInt16) (ops : List Op) :
    ∀ t ∈ (after c me seq0 ops).ctsTO, ∃ f, Obs.handed f ∈ (after c me seq0 ops).log ∧ f.kind = .rts ∧ f.seq = t.seq := by
  refine inv_after (I := fun v => ∀ t ∈ v.ctsTO, ∃ f, Obs.handed f ∈ v.log ∧ f.kind = .rts ∧ f.seq = t.seq)
    c me seq0 (by simp [init, St.sv]) ?_ ops
  intro v w _ i h t ht
  have hl := h.log_mem
  cases h
  case handRts p _ _ _ _ =>
    rcases List.mem_append.1 ht with h | h
    · obtain ⟨f, h1, h2⟩ := i t h
      exact ⟨f, hl _ h1, h2⟩
    · rw [List.mem_singleton.1 h]
      exact ⟨rtsFrame me p, List.mem_append_right _ (List.mem_singleton.2 rfl), rfl, rfl⟩
  case fwd f _ _ _ =>
    have e : (v.fwd f).ctsTO = v.ctsTO := by unfold SV.fwd; dsimp only; split <;> rfl
    rw [e] at ht
    obtain ⟨f, h1, h2⟩ := i t ht
    exact ⟨f, hl _ h1, h2⟩
  case eraseCts q =>
    obtain ⟨f, h1, h2⟩ := i t (List.mem_of_mem_eraseP ht)
    exact ⟨f, hl _ h1, h2⟩
  case ctsIn t' p q _ _ =>
    obtain ⟨f, h1, h2⟩ := i t (List.mem_of_mem_eraseP ht)
    exact ⟨f, hl _ h1, h2⟩
  all_goals
    obtain ⟨f, h1, h2⟩ := i t ht
    exact ⟨f, hl _ h1, h2⟩

theorem findPkt_spec (q : UInt16) (l : List Rec) (cur : Option Pkt) (h : ∃ r ∈ l, r.pkt.seq = q) :
    ∃ r ∈ l, findPkt q l cur = some r.pkt ∧ r.pkt.seq = q := by
  induction l generalizing cur with
  | nil => simp at h
  | cons r l ih =>
    rw [findPkt]
    split
    · rename_i hr
      exact ⟨r, List.mem_cons_self, rfl, hr⟩
    · rename_i hr
      have h' : ∃ x ∈ l, x.pkt.seq = q := by
        obtain ⟨x, hx, hxq⟩ := h
        rcases List.mem_cons.1 hx with rfl | hx
        · exact absurd hxq hr
        · exact ⟨x, hx, hxq⟩
      obtain ⟨x, hx, h1, h2⟩ := ih (some r.pkt) h'
      exact ⟨x, List.mem_cons_of_mem _ hx, h1, h2⟩

/-- A CTS for this node whose sequence number belongs to an accepted packet without outcome: any DATA frame
scheduled by it carries that sequence number, at most one is scheduled, and none if no RTS with that number
was ever transmitted. -/
theorem C33_cts_partial (c : Cfg) (me : Mac48) (seq0 : UInt16) (ops : List Op) (f : Frame) (g : UInt16) (p : Pkt)
    (hk : f.kind = .cts) (hd : f.dst = me) (hp : Obs.accepted p ∈ (after c me seq0 ops).log)
    (hu : ∀ ok, Obs.done ok p ∉ (after c me seq0 ops).log) (hs : p.seq = f.seq) :
    let s := after c me seq0 ops
    let s' := step c me s (.rxDone f true g)
    (∀ t d x, (t, d, Ev.sendData x) ∈ s'.pend → (t, d, Ev.sendData x) ∉ s.pend → x.seq = f.seq) ∧
    s'.pend.length ≤ s.pend.length + 1 ∧
    ((∀ h, Obs.handed h ∈ s.log → h.kind = .rts → h.seq ≠ f.seq) → s'.pend = s.pend) := by
  intro s s'
  have k : PkInv seq0 s.sv := PkInv.after c me seq0 ops
  have hrec : ∃ r ∈ s.recs, r.pkt.seq = f.seq := by
    rcases k.kept p hp with ⟨r, h1, h2⟩ | ⟨ok, h1⟩
    · exact ⟨r, h1, by rw [h2, hs]⟩
    · exact absurd h1 (hu ok)
  obtain ⟨r, hr, hfind, hseq⟩ := findPkt_spec f.seq s.recs s.pktData hrec
  have hcts := ctsTO_after c me seq0 ops
  have e : s' = receiveCts c me f (({ s with state := .idle } : St).emit (.rx f)) := by
    show receivePacketDone c me f true g s = _
    unfold receivePacketDone
    simp [hk]
  have hpend : s'.pend = s.pend ∨ (∃ t ∈ s.ctsTO, t.seq = f.seq ∧
      s'.pend = s.pend.filter (fun e => e.1 ≠ t.tid) ++ [(s.nextTid, s.now + c.ps 1, .sendData r.pkt)]) := by
    rw [e]
    unfold receiveCts
    rw [if_neg (not_not.2 hd)]
    dsimp only
    split
    · rename_i t p' h1 h2
      right
      have hm : t ∈ s.ctsTO := List.mem_of_find?_eq_some h1
      have ht : t.seq = f.seq := by simpa using List.find?_some h1
      have hp' : p' = r.pkt := by
        have : findPkt f.seq s.recs s.pktData = some p' := h2
        rw [hfind] at this
        exact (Option.some.inj this).symm
      exact ⟨t, hm, ht, by rw [hp']; rfl⟩
    · exact .inl rfl
  refine ⟨?_, ?_, ?_⟩
  · intro t d x hx hnx
    rcases hpend with h | ⟨to', _, _, h⟩
    · rw [h] at hx; exact absurd hx hnx
    · rw [h] at hx
      rcases List.mem_append.1 hx with h1 | h1
      · exact absurd (List.mem_filter.1 h1).1 hnx
      · have := List.mem_singleton.1 h1
        injection this with _ h2
        injection h2 with _ h3
        injection h3 with h4
        rw [h4]; exact hseq
  · rcases hpend with h | ⟨to', _, _, h⟩
    · rw [h]; omega
    · rw [h, List.length_append]
      have := List.length_filter_le (fun e => decide (e.1 ≠ to'.tid)) s.pend
      simp only [List.length_singleton]
      omega
  · intro hno
    rcases hpend with h | ⟨to', h1, h2, _⟩
    · exact h
    · obtain ⟨h, h3, h4, h5⟩ := hcts to' h1
      exact absurd (h5.trans h2) (hno h h3 h4)

/-- A CTS arrives for the packet that was requested. -/
def runCts : List Op := [.enqueue exBody exB 0] ++ fires [0, 1, 2, 3]

example : Obs.accepted exP1 ∈ (after (exCfg true 5) exA 0 runCts).log ∧
    (∀ ok, Obs.done ok exP1 ∉ (after (exCfg true 5) exA 0 runCts).log) ∧ exP1.seq = (exCts 1).seq ∧
    (∃ t d, (t, d, Ev.sendData exP1) ∈ (step (exCfg true 5) exA (after (exCfg true 5) exA 0 runCts)
      (.rxDone (exCts 1) true 0)).pend) := by
  refine ⟨by decide +kernel, by decide +kernel, by decide +kernel, 5, 811083, by decide +kernel⟩

/-- One packet whose RTSs stay unanswered; a second packet is enqueued so that its grant repeats the RTS 10 ns
after the fifth one; the CTS for the repeated RTS arrives 2 ns after the first packet was discarded, and the
DATA frame it releases is the second packet's. -/
def runWrong : List Op :=
  [.enqueue exBody exB 0] ++ fires (List.range 22) ++ [.advance 10000, .enqueue exBody exB 0] ++
    fires [23, 24, 22, 26, 25, 28, 27, 30, 31] ++ [.advance 3099, .rxStart, .advance 1189, .rxDone (exCts 1) true 0] ++
    fires [33]

theorem C33_wrong_packet_violated :
    timelyRun (exCfg true 5) exA (init 0) runWrong = true ∧
    (after (exCfg true 5) exA 0 runWrong).log.drop 19 =
      [.done false exP1, .row ⟨14964, 0, false, true, exP1⟩, .rx (exCts 1), .handed (dataFrame exA exP2)] ∧
    (after (exCfg true 5) exA 0 runWrong).ub = false ∧
    (after (exCfg true 5) exA 0 runWrong).log.filter (fun o => match o with
      | .handed f => f.kind = .rts | _ => false) = List.replicate 6 (.handed (rtsFrame exA exP1)) := by
  refine ⟨by decide +kernel, by decide +kernel, by decide +kernel, by decide +kernel⟩

/-! ## C69: one outcome per packet -/

/-- Number of outcomes reported for a packet. -/
def numOutcomes (p : Pkt) (l : List Obs) : Nat :=
  l.countP (fun o => match o with | .done _ x => x = p | _ => false)

theorem numOutcomes_le (p : Pkt) (l : List Obs) : numOutcomes p l ≤ (doneUids l).count p.uid := by
  induction l with
  | nil => exact le_refl _
  | cons o l ih =>
    unfold numOutcomes doneUids at *
    rw [List.countP_cons, List.filterMap_cons]
    cases o with
    | done ok x =>
      simp only [Obs.doneUid]
      rw [List.count_cons]
      by_cases h : x = p
      · simp only [h, decide_true, if_true, beq_self_eq_true]; omega
      · simp only [h, decide_false, Bool.false_eq_true, if_false]; omega
    | _ => simpa [Obs.doneUid] using ih

/-- In every history: each packet gets at most one outcome; outcomes are reported for accepted packets only;
and an accepted packet without outcome is still held, and queued unless it was timed out for the fifth time. -/
theorem C69_one_outcome (c : Cfg) (me : Mac48) (seq0 : UInt16) (ops : List Op) (p : Pkt) :
    numOutcomes p (after c me seq0 ops).log ≤ 1 ∧
    (∀ ok, Obs.done ok p ∈ (after c me seq0 ops).log → Obs.accepted p ∈ (after c me seq0 ops).log) ∧
    (Obs.accepted p ∈ (after c me seq0 ops).log → (∀ ok, Obs.done ok p ∉ (after c me seq0 ops).log) →
      p ∈ (after c me seq0 ops).recs.map (·.pkt) ∧
      (numTO p.uid (after c me seq0 ops).log < 5 → p ∈ (after c me seq0 ops).queue)) := by
  have k : PkInv seq0 (after c me seq0 ops).sv := PkInv.after c me seq0 ops
  refine ⟨?_, fun ok h => (k.doneGone ok p h).1, fun h hn => ⟨?_, ?_⟩⟩
  · exact (numOutcomes_le p _).trans (List.nodup_iff_count.1 k.doneNodup p.uid)
  · rcases k.kept p h with ⟨r, h1, h2⟩ | ⟨ok, h1⟩
    · exact List.mem_map.2 ⟨r, h1, h2⟩
    · exact absurd h1 (hn ok)
  · intro h5
    rcases k.loc p h with h1 | ⟨ok, h1⟩ | ⟨n, h1, h2⟩
    · exact h1
    · exact absurd h1 (hn ok)
    · have := (k.tout p n h1).2
      have h3 : (5 : Nat) ≤ n.toNat := h2
      have h4 : numTO p.uid (after c me seq0 ops).log < 5 := h5
      have h6 : n.toNat ≤ numTO p.uid (after c me seq0 ops).log := this
      omega

example : numOutcomes exP1 (after (exCfg false 5) exA 0 runOk).log = 1 ∧
    Obs.accepted exP1 ∈ (after (exCfg false 5) exA 0 (runOk.take 4)).log ∧
    (∀ ok, Obs.done ok exP1 ∉ (after (exCfg false 5) exA 0 (runOk.take 4)).log) := by decide +kernel

/-! ## C70: success means acknowledged -/

/-- For up to 65536 packets: a packet reported as delivered was a transmitted broadcast, or an
acknowledgement for its sequence number was received after its DATA frame was transmitted. -/
theorem C70_success_acknowledged (c : Cfg) (me : Mac48) (seq0 : UInt16) (ops : List Op)
    (hn : numAccepted (after c me seq0 ops).log ≤ 65536) (p : Pkt)
    (h : Obs.done true p ∈ (after c me seq0 ops).log) :
    (p.dst = bcast ∧ Obs.handed (dataFrame me p) ∈ (after c me seq0 ops).log) ∨
    ∃ l1 f l2, (after c me seq0 ops).log = l1 ++ Obs.rx f :: l2 ∧ f.kind = .ack ∧ f.dst = me ∧ f.seq = p.seq ∧
      Obs.handed (dataFrame me p) ∈ l1 := by
  have k : PkInv seq0 (after c me seq0 ops).sv := PkInv.after c me seq0 ops
  have o : OutInv me (after c me seq0 ops).sv := OutInv.after c me seq0 ops
  rw [numAccepted_after] at hn
  have hacc := (k.doneGone true p h).1
  have hr := o.reason true p h
  unfold DoneOK at hr
  rw [if_pos rfl] at hr
  have huse : ∀ g, Obs.handed g ∈ (after c me seq0 ops).log → g.kind = .data → g.seq = p.seq → g = dataFrame me p := by
    intro g h1 h2 h3
    obtain ⟨p', h4, h5⟩ := o.data g h1 h2
    have : p' = p := k.seq_inj hn h4 hacc (by rw [h5] at h3; exact h3)
    rw [h5, this]
  rcases hr with ⟨l1, f, l2, h1, h2, h3, h4, g, h5, h6, h7⟩ | ⟨f, h1, h2, h3, h4⟩
  · right
    have h1' : (after c me seq0 ops).log = l1 ++ Obs.rx f :: l2 := h1
    have := huse g (by rw [h1']; exact List.mem_append_left _ h5) h6 h7
    exact ⟨l1, f, l2, h1', h2, h3, h4, this ▸ h5⟩
  · left
    have := huse f h1 h2 h4
    refine ⟨?_, this ▸ h1⟩
    rw [this] at h3; exact h3

example : Obs.done true exP1 ∈ (after (exCfg false 5) exA 0 runOk).log := by decide +kernel

/-! ## C71: progress -/

/-- Two packets enqueued together, the first one never acknowledged: when it is discarded nothing is left
pending, and the second one stays queued, never tried. -/
theorem C71_stall_violated :
    let ops := [.enqueue exBody exB 0, .enqueue exBody exB 0] ++ fires (List.range 28)
    timelyRun (exCfg false 5) exA (init 0) ops = true ∧
    (after (exCfg false 5) exA 0 ops).queue = [exP2] ∧
    (after (exCfg false 5) exA 0 ops).pend = [] ∧
    (after (exCfg false 5) exA 0 ops).ub = false ∧
    Obs.handed (dataFrame exA exP2) ∉ (after (exCfg false 5) exA 0 ops).log := by
  decide +kernel

/-! ## C72: reservations on the air -/

/-- The RTS of a packet announces nothing, and its DATA frame announces whatever the uninitialised header
field held when the packet was enqueued: here 0 ns and 65535 ns for the same packet, whose exchange lasts
about 885 ns. -/
theorem C72_announcement_violated :
    (∀ me p, (rtsFrame me p).dur = 0) ∧
    (dataFrame exA ⟨0, 1, exB, 0, exBody⟩).dur = 0 ∧
    Obs.handed (dataFrame exA ⟨0, 1, exB, 0, exBody⟩) ∈
      (after (exCfg false 5) exA 0 ([.enqueue exBody exB 0] ++ fires [0, 1, 2])).log ∧
    (dataFrame exA ⟨0, 1, exB, 65535, exBody⟩).dur = 65535 ∧
    Obs.handed (dataFrame exA ⟨0, 1, exB, 65535, exBody⟩) ∈
      (after (exCfg false 5) exA 0 ([.enqueue exBody exB 65535] ++ fires [0, 1, 2])).log ∧
    ackTimeoutDur (exCfg false 5) exP1 = 884738 :=
  ⟨fun _ _ => rfl, rfl, by decide +kernel, rfl, by decide +kernel, by decide +kernel⟩

/-- An overhearing node that was idle before is not silenced by the first of these DATA frames: right after
overhearing it, with the acknowledgement still to come, the medium is not considered reserved for more than
a slot, which `CcaForDifs` takes for free (model/thz-mac-macro.cc:326). -/
theorem C72_not_silenced_violated :
    let s := after (exCfg false 5) exC 0 [.rxStart, .advance 812000,
      .rxDone (dataFrame exA ⟨0, 1, exB, 0, exBody⟩) true 0]
    reservedUntil s ≤ s.now + (exCfg false 5).slot ∧ s.state = .idle := by decide +kernel

end Thz.Macro
