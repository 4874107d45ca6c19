import Verif.NanoStackLive

/-!
# C119: an undisturbed exchange of complete nano devices

All theorems are about all histories of `num` complete nano devices (MAC with energy, PHY, one shared channel, one clock), `NStack.after`.
-/

namespace Thz.NStack

open Thz
open Thz.Nano (Body bcast Frame Pkt Kind dataFrame NoWrap numAccepted exA exB exBody)

variable {P : Type} [AddCommMonoid P]

/-- When the frame of packet `p`, transmitted by `a` from `t` on, has arrived at `b`. -/
def arrivedAt (w : World P) (t : ℤ) (a b : Nat) (p : Pkt) : ℤ := t + w.delay t a b + w.airtime a p.size

/-- The DATA frame of packet `p`, handed over by the MAC of `a` at `t0` and transmitted as number `n` from `t` on, and its answer by `b` are
not disturbed: the pulses of DATA meet no others at `b`, there is room and energy for the answer, and the pulses of the answer, whenever in the
following symbol it starts, meet no others at `a`. -/
structure CleanExchange (w : World P) (s : St P) (t : ℤ) (n a b : Nat) (p : Pkt) : Prop where
  data : Free w s.air t n a (dataFrame (w.addr a) p) b
  room : Room w s.air (arrivedAt w t a b p) b (dataFrame (w.addr a) p)
  energy : Nano.Obs.book false 18 p.body.size ∉ (s.mac (w.addr b)).log
  ack : ∀ t' n', AObs.tx t' n' b (ackOf w b (dataFrame (w.addr a) p)) ∈ s.air → arrivedAt w t a b p ≤ t' →
    t' < arrivedAt w t a b p + (w.pcfg b).ts → Free w s.air t' n' b (ackOf w b (dataFrame (w.addr a) p)) a

/-- The links between `a` and `b` are strong, and short: the time between handing over and transmission at both ends and the two propagation delays
together are below what the sender allows for (676 ps, model/thz-mac-nano.cc:436). -/
structure ShortLink (w : World P) (t0 t : ℤ) (a b : Nat) (p : Pkt) : Prop where
  there : (w.pcfg b).bad (w.power t a b) 0 = false
  back : ∀ t', arrivedAt w t a b p ≤ t' → t' < arrivedAt w t a b p + (w.pcfg b).ts → (w.pcfg a).bad (w.power t' b a) 0 = false
  near : ∀ t', arrivedAt w t a b p ≤ t' → t' < arrivedAt w t a b p + (w.pcfg b).ts →
    (t - t0) + w.delay t a b + (t' - arrivedAt w t a b p) + w.delay t' b a < 676 * w.ps

/-- **C119, the part that holds.**  Device `a`, which does not use RTS, hands over the DATA frame of an accepted packet for `b` at `t0`; its pulses start at `t`.
If the exchange is not disturbed and the link is strong and short, then `a` reports the packet as sent.  (The interference field that the
code reads before it writes it contains zero; `a` has accepted at most 65535 packets, handed over no other DATA frame with this number
within a timeout before `t0` and had not given the packet up before; an acknowledgement from `b` is not longer than `a` assumes.) -/
theorem C119_clean_exchange_partial (w : World P) (hw : w.Wf) (ops : List (Op P)) (hm : ∀ o ∈ ops, cleanMemory o) (t0 t : ℤ) (n a b : Nat) (p : Pkt)
    (hb : b < w.num) (hba : b ≠ a) (hrts : (w.mcfg (w.addr a)).rts = false)
    (hp : Nano.Obs.accepted p ∈ ((after w ops).mac (w.addr a)).log) (hdst : p.dst = w.addr b)
    (hnum : numAccepted ((after w ops).mac (w.addr a)).log ≤ 65535)
    (hacc : AObs.accepted t0 a (dataFrame (w.addr a) p) t ∈ (after w ops).air)
    (htx : AObs.tx t n a (dataFrame (w.addr a) p) ∈ (after w ops).air)
    (hwin : ∀ t' f', AObs.handed t' a f' ∈ (after w ops).air → f'.kind = .data → f'.seq = p.seq → t' + ackWait w a p.size < t0 ∨ t0 ≤ t')
    (hng : ∀ pre post, ops = pre ++ post → Nano.Obs.done false p ∈ ((after w pre).mac (w.addr a)).log →
      AObs.handed t0 a (dataFrame (w.addr a) p) ∈ (after w pre).air)
    (hclean : CleanExchange w (after w ops) t n a b p) (hlink : ShortLink w t0 t a b p)
    (hlong : 0 < w.airtime a p.size) (hsame : w.airtime b 17 ≤ w.airtime a 17)
    (hnow : ∀ t', arrivedAt w t a b p ≤ t' → t' < arrivedAt w t a b p + (w.pcfg b).ts →
      t' + w.delay t' b a + w.airtime b 17 < (after w ops).now) :
    Nano.Obs.done true p ∈ ((after w ops).mac (w.addr a)).log := by
  have hi := (inv_after hw ops).1
  obtain ⟨-, ha, -, -⟩ := hi.txAir _ _ _ _ htx
  obtain ⟨hhand, hst⟩ := hi.accHand _ _ _ _ hacc
  have hpa := hw.pulse a
  have hsb := hw.symbol b
  have ht : t0 ≤ t := by rcases hst with h | ⟨h, -⟩ <;> omega
  have hsz := dataFrame_size (w.addr a) p
  have eT : t + w.delay t a b + w.airtime a (dataFrame (w.addr a) p).size = arrivedAt w t a b p := by rw [hsz]; rfl
  have hT : arrivedAt w t a b p = t + w.delay t a b + w.airtime a p.size := rfl
  have hTn := hnow _ (le_refl _) (by omega)
  -- DATA arrives
  have h1 := received_after hw ops hm htx hba hb hlink.there hclean.data (by rw [eT]; omega)
  rw [eT] at h1
  -- it is answered
  rcases answers_after hw ops h1 rfl hdst hclean.room with ⟨st, h2, h3, h4⟩ | h2
  swap
  · exact absurd h2 hclean.energy
  have hn' := hnow st h3 h4
  obtain ⟨n', h5⟩ := launched_after hw ops h2 (by omega)
  -- the answer arrives
  have h6 := received_after hw ops hm h5 hba.symm ha (hlink.back st h3 h4) (hclean.ack st n' h5 h3 h4) hn'
  -- in time
  have hnear := hlink.near st h3 h4
  have hsize : (ackOf w b (dataFrame (w.addr a) p)).size = 17 := rfl
  rw [hsize] at h6
  refine answered_in_time hw ops ha hrts (by rw [hdst]; exact hw.uni b hb) hnum hp hwin hng hhand h6 rfl rfl rfl (by omega) ?_
  unfold ackWait
  push_cast
  omega

/-- **C119, the part that holds, with the delivery.**  If no counter has wrapped, the packet was also passed up by `b` exactly once. -/
theorem C119_clean_exchange_delivered_partial (w : World P) (hw : w.Wf) (ops : List (Op P)) (hm : ∀ o ∈ ops, cleanMemory o) (t0 t : ℤ) (n a b : Nat)
    (p : Pkt) (hb : b < w.num) (hba : b ≠ a) (hrts : (w.mcfg (w.addr a)).rts = false)
    (hp : Nano.Obs.accepted p ∈ ((after w ops).mac (w.addr a)).log) (hdst : p.dst = w.addr b) (hnw : NoWrap (after w ops).mac)
    (hacc : AObs.accepted t0 a (dataFrame (w.addr a) p) t ∈ (after w ops).air)
    (htx : AObs.tx t n a (dataFrame (w.addr a) p) ∈ (after w ops).air)
    (hwin : ∀ t' f', AObs.handed t' a f' ∈ (after w ops).air → f'.kind = .data → f'.seq = p.seq → t' + ackWait w a p.size < t0 ∨ t0 ≤ t')
    (hng : ∀ pre post, ops = pre ++ post → Nano.Obs.done false p ∈ ((after w pre).mac (w.addr a)).log →
      AObs.handed t0 a (dataFrame (w.addr a) p) ∈ (after w pre).air)
    (hclean : CleanExchange w (after w ops) t n a b p) (hlink : ShortLink w t0 t a b p)
    (hlong : 0 < w.airtime a p.size) (hsame : w.airtime b 17 ≤ w.airtime a 17)
    (hnow : ∀ t', arrivedAt w t a b p ≤ t' → t' < arrivedAt w t a b p + (w.pcfg b).ts →
      t' + w.delay t' b a + w.airtime b 17 < (after w ops).now) :
    Nano.Obs.done true p ∈ ((after w ops).mac (w.addr a)).log ∧
    ((after w ops).mac (w.addr b)).log.count (.up p.body (w.addr a) (w.addr b) p.seq) = 1 := by
  have h := C119_clean_exchange_partial w hw ops hm t0 t n a b p hb hba hrts hp hdst (hnw _) hacc htx hwin hng hclean hlink hlong hsame hnow
  refine ⟨h, ?_⟩
  have := (C23_complete_devices w hw ops hnw a p h).2.1
  rw [hdst] at this
  exact this

/-! ## Examples -/

/-- The exchange of the examples over 3 cm, and a little later. -/
def exNear : List (Op ℕ) := exOps (exW false 100000) 0 20 ++ [.tick 100000]

theorem exNear_after : after (exW false 100000) exNear = step (exW false 100000) (after (exW false 100000) (exOps (exW false 100000) 0 20)) (.tick 100000) :=
  after_snoc _ _ _

theorem exNear_air : (after (exW false 100000) exNear).air =
    [.handed 0 0 exData, .accepted 0 0 exData 0, .tx 0 0 0 exData, .rx 9460000 0 1 exData, .handed 9460000 1 exAck,
     .accepted 9460000 1 exAck 9460100, .tx 9460100 1 1 exAck, .rx 10920100 1 0 exAck] := by
  rw [exNear_after, exOps_after]
  decide +kernel

/-- A pulse train every 10 ps: the position one pulse after another one is free. -/
theorem no_overlap {x u : ℤ} (h : (u - x) % 10000 = 100) : ¬ PhyNano.Overlap 100 10000 x u := by
  rintro ⟨k, h1, h2⟩
  omega

/-- The exchange of the example is not disturbed. -/
theorem exNear_clean : CleanExchange (exW false 100000) (after (exW false 100000) exNear) 0 0 0 1 exPkt where
  data := by
    rw [exNear_air, ← ex_air]
    exact ex_free
  room := by
    rw [exNear_air]
    refine ⟨9460100, by decide, by decide, ?_, ?_⟩
    · intro t' f' st hm h1 h2
      simp only [List.mem_cons, AObs.accepted.injEq, reduceCtorEq, List.not_mem_nil, false_or, or_false] at hm
      rcases hm with ⟨-, h, -⟩ | ⟨rfl, -, rfl, -⟩
      · exact absurd h (by decide)
      · exact .inr ⟨by decide, by decide⟩
    · intro t' n' a' f' hm ha h1 h2
      simp only [List.mem_cons, AObs.tx.injEq, reduceCtorEq, List.not_mem_nil, false_or, or_false] at hm
      rcases hm with ⟨rfl, -, rfl, -⟩ | ⟨-, -, rfl, -⟩
      · exact no_overlap (by decide)
      · exact absurd rfl ha
  energy := by
    rw [exNear_after, exOps_after]
    decide +kernel
  ack := by
    rw [exNear_air]
    intro t' n' hm _ _
    simp only [List.mem_cons, AObs.tx.injEq, reduceCtorEq, List.not_mem_nil, false_or, or_false] at hm
    rcases hm with ⟨-, -, h, -⟩ | ⟨rfl, rfl, -, -⟩
    · exact absurd h (by decide)
    constructor
    · intro t'' f' st hm
      simp only [List.mem_cons, AObs.accepted.injEq, reduceCtorEq, List.not_mem_nil, false_or, or_false] at hm
      rcases hm with ⟨rfl, -, rfl, rfl⟩ | ⟨-, h, -⟩
      · exact .inl (by decide)
      · exact absurd h (by decide)
    · intro t'' n'' a' f' hm ha hn
      simp only [List.mem_cons, AObs.tx.injEq, reduceCtorEq, List.not_mem_nil, false_or, or_false] at hm
      rcases hm with ⟨-, -, rfl, -⟩ | ⟨-, rfl, -⟩
      · exact absurd rfl ha
      · exact absurd rfl hn

/-- The link of the example is strong and short. -/
theorem exNear_short : ShortLink (exW false 100000) 0 0 0 1 exPkt where
  there := by decide
  back := fun _ _ _ => rfl
  near := by
    intro t' h1 h2
    have h2 : t' < arrivedAt (exW false 100000) 0 0 1 exPkt + 10000 := h2
    show (0 : ℤ) - 0 + 100000 + (t' - _) + 100000 < 676 * (1000 : ℕ)
    omega

theorem exNear_memory : ∀ o ∈ exNear, cleanMemory o := by
  have h : exNear.all (fun o => match o with | .land _ _ k => decide (k = 0) | _ => true) = true := by
    decide +kernel
  intro o ho
  have h2 := List.all_eq_true.1 h o ho
  cases o with
  | land n j k => exact (decide_eq_true_iff.1 h2 : k = 0)
  | _ => trivial

theorem exNear_mac : ((after (exW false 100000) exNear).mac exA).log =
    [.done true exPkt, .tx exData, .book true 117 17, .accepted exPkt] := by
  rw [exNear_after, exOps_after]
  decide +kernel

/-- The hypotheses of `C119_clean_exchange_partial` are met: in the example it shows that the packet is reported as sent. -/
example : Nano.Obs.done true exPkt ∈ ((after (exW false 100000) exNear).mac exA).log := by
  refine C119_clean_exchange_partial (exW false 100000) (exW_wf _ _) exNear exNear_memory 0 0 0 0 1 exPkt (by decide) (by decide) rfl ?_ rfl ?_ ?_ ?_
    ?_ ?_ exNear_clean exNear_short (by decide) (le_refl _) ?_
  · show _ ∈ ((after (exW false 100000) exNear).mac exA).log
    rw [exNear_mac]
    decide
  · show numAccepted ((after (exW false 100000) exNear).mac exA).log ≤ _
    rw [exNear_mac]
    decide
  · rw [exNear_air]
    decide
  · rw [exNear_air]
    decide
  · intro t' f' hm hk _
    rw [exNear_air] at hm
    simp only [List.mem_cons, AObs.handed.injEq, reduceCtorEq, List.not_mem_nil, false_or, or_false] at hm
    rcases hm with ⟨rfl, -, rfl⟩ | ⟨-, h, -⟩
    · exact .inr (le_refl _)
    · exact absurd h (by decide)
  · intro pre post e hd
    exfalso
    obtain ⟨l, el⟩ := log_suffix (exW_wf false 100000) pre post exA
    have : Nano.Obs.done false exPkt ∈ ((after (exW false 100000) exNear).mac exA).log := by
      rw [e, el]
      exact List.mem_append_right _ hd
    rw [exNear_mac] at this
    exact absurd this (by decide)
  · intro t' h1 h2
    have h2 : t' < arrivedAt (exW false 100000) 0 0 1 exPkt + 10000 := h2
    have e : (after (exW false 100000) exNear).now = 11020100 := by
      rw [exNear_after, exOps_after]
      decide +kernel
    rw [e]
    have e2 : arrivedAt (exW false 100000) 0 0 1 exPkt = 9460000 := by decide
    show t' + 100000 + (17 * 80000 : ℕ) < 11020100
    push_cast
    omega

/-- Every transmission is received without error by the other one of two devices. -/
def allReceived (w : World ℕ) (air : List AObs) : Bool := air.all (fun o => match o with
  | .tx t n a f => air.contains (.rx (t + w.delay t a (1 - a) + w.airtime a f.size) n (1 - a) f)
  | _ => true)

/-- **C119, violated.**  Two devices 15 cm apart (a propagation delay of 500 ps) with the default attributes and enough energy.  Device A sends one packet to B.
Every transmission - DATA or acknowledgement - is received without error, B passes the packet up and acknowledges every copy, and yet A reports
the packet as not sent: the acknowledgement timeout allows for 676 ps of propagation in both directions together. -/
theorem C119_clean_exchange_violated :
    ∃ (w : World ℕ) (ops : List (Op ℕ)) (p : Pkt), w.Wf ∧ w.num = 2 ∧ (∀ a, (w.mcfg a).rts = false) ∧ (∀ o ∈ ops, cleanMemory o) ∧
      Nano.Obs.accepted p ∈ ((after w ops).mac (w.addr 0)).log ∧ p.dst = w.addr 1 ∧
      (∀ t n f, AObs.tx t n 0 f ∈ (after w ops).air → AObs.rx (t + w.delay t 0 1 + w.airtime 0 f.size) n 1 f ∈ (after w ops).air) ∧
      (∀ t n f, AObs.tx t n 1 f ∈ (after w ops).air → AObs.rx (t + w.delay t 1 0 + w.airtime 1 f.size) n 0 f ∈ (after w ops).air) ∧
      (after w ops).air.countP (isReceptionOf 1 0) = 1 ∧
      .up p.body (w.addr 0) (w.addr 1) p.seq ∈ ((after w ops).mac (w.addr 1)).log ∧
      Nano.Obs.done false p ∈ ((after w ops).mac (w.addr 0)).log ∧ Nano.Obs.done true p ∉ ((after w ops).mac (w.addr 0)).log := by
  have e := exOps_after (exW false 500000) 8000000000 110
  have hall : allReceived (exW false 500000) (after (exW false 500000) (exOps (exW false 500000) 8000000000 110)).air = true := by
    rw [e]; decide +kernel
  have hmem : (exOps (exW false 500000) 8000000000 110).all (fun o => match o with | .land _ _ k => decide (k = 0) | _ => true) = true := by
    decide +kernel
  refine ⟨exW false 500000, exOps (exW false 500000) 8000000000 110, exPkt, exW_wf _ _, rfl, fun _ => rfl, ?_, ?_, rfl, ?_, ?_, ?_, ?_, ?_, ?_⟩
  · intro o ho
    have h2 := List.all_eq_true.1 hmem o ho
    cases o with
    | land n j k => exact (decide_eq_true_iff.1 h2 : k = 0)
    | _ => trivial
  · rw [e]; decide +kernel
  · intro t n f hm
    have := List.all_eq_true.1 hall _ hm
    simpa using this
  · intro t n f hm
    have := List.all_eq_true.1 hall _ hm
    simpa using this
  · rw [e]; decide +kernel
  · rw [e]; decide +kernel
  · rw [e]; decide +kernel
  · rw [e]; decide +kernel

end Thz.NStack
