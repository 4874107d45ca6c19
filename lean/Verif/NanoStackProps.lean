import Verif.NanoStackRx
import Verif.NanoStackRuns
import Mathlib.Tactic.IntervalCases

/-!
# C117 and C118; C23 and C24 for complete nano devices

All theorems are about all histories of `num` complete nano devices (MAC with energy, PHY, one shared channel, one clock), `NStack.after`.
-/

namespace Thz.NStack

open Thz List
open Thz.Nano (Body bcast Frame Pkt Kind NoWrap deliveries acceptedFor exA exB exBody)

variable {P : Type} [AddCommMonoid P]

/-! ## C117: what is received was sent -/

/-- **C117, sound.**  Every frame a device receives without error is, unaltered, one that another device transmitted; the result
comes exactly the propagation delay and the duration of the frame after the start of that transmission. -/
theorem C117_received_was_sent (w : World P) (hw : w.Wf) (ops : List (Op P)) (t : ℤ) (n j : Nat) (f : Frame)
    (h : AObs.rx t n j f ∈ (after w ops).air) :
    ∃ t0 a, AObs.tx t0 n a f ∈ (after w ops).air ∧ a ≠ j ∧ a < w.num ∧ j < w.num ∧
      t = t0 + w.delay t0 a j + w.airtime a f.size := by
  have hi := (inv_after hw ops).1
  obtain ⟨-, t0, a, h1, h2, h3, h4, -⟩ := hi.rxAir t n j f h
  exact ⟨t0, a, h1, h2, (hi.txAir _ _ _ _ h1).2.1, h3, h4⟩

omit [AddCommMonoid P] in
/-- The receptions of a transmission by a device. -/
def isReceptionOf (n j : Nat) : AObs → Bool
  | .rx _ n' j' _ => n' = n ∧ j' = j
  | _ => false

/-- **C117, at most once.**  No device receives a transmission twice. -/
theorem C117_received_once (w : World P) (hw : w.Wf) (ops : List (Op P)) (n j : Nat) :
    (after w ops).air.countP (isReceptionOf n j) ≤ 1 := by
  have h := (inv_after hw ops).1.rxOnce n j
  have e : (after w ops).air.countP (isReceptionOf n j) = (after w ops).air.countP (isRx n j) := by
    congr 1
  omega

/-- **C117, numbers.**  A number stands for one transmission: its time, its sender and its frame. -/
theorem C117_one_transmission (w : World P) (hw : w.Wf) (ops : List (Op P)) (t t' : ℤ) (n a a' : Nat) (f f' : Frame)
    (h1 : AObs.tx t n a f ∈ (after w ops).air) (h2 : AObs.tx t' n a' f' ∈ (after w ops).air) : t = t' ∧ a = a' ∧ f = f' :=
  tx_unique (inv_after hw ops).1 h1 h2

/-- **C117, layers.**  What a device transmits is a frame its MAC handed over less than one symbol earlier, and that the MAC has recorded
as sent. -/
theorem C117_transmitted_was_handed (w : World P) (hw : w.Wf) (ops : List (Op P)) (t : ℤ) (n a : Nat) (f : Frame)
    (h : AObs.tx t n a f ∈ (after w ops).air) :
    ∃ t0, AObs.handed t0 a f ∈ (after w ops).air ∧ t0 ≤ t ∧ t < t0 + (w.pcfg a).ts ∧
      Nano.Obs.tx f ∈ ((after w ops).mac (w.addr a)).log := by
  have hi := (inv_after hw ops).1
  obtain ⟨-, -, -, t0, h1⟩ := hi.txAir _ _ _ _ h
  obtain ⟨h2, h3⟩ := hi.accHand _ _ _ _ h1
  have hp := hw.pulse a
  refine ⟨t0, h2, ?_, ?_, (hi.handed _ _ _ h2).1⟩
  · rcases h3 with rfl | ⟨h3, -⟩
    · exact le_refl _
    · omega
  · have hs := hw.symbol a
    rcases h3 with rfl | ⟨-, h3⟩ <;> omega

/-! ## C118: a frame whose pulses meet no others is received -/

/-- **C118** (partial: it is needed that the interference field, which the code reads before it writes it, contains zero, and that no train of
pulses of the receiver that is still to start lies ahead, see `C118_undisturbed_received_violated`).
A frame whose pulses meet no others at a device (`Free`) and that arrives there with a power that suffices without interference is
received there without error, exactly the delay and its duration after its start. -/
theorem C118_undisturbed_received_partial (w : World P) (hw : w.Wf) (ops : List (Op P)) (hm : ∀ o ∈ ops, cleanMemory o) (t : ℤ) (n a j : Nat)
    (f : Frame) (ht : AObs.tx t n a f ∈ (after w ops).air) (hja : j ≠ a) (hj : j < w.num)
    (hstrong : (w.pcfg j).bad (w.power t a j) 0 = false) (hfree : Free w (after w ops).air t n a f j)
    (hnow : t + w.delay t a j + w.airtime a f.size < (after w ops).now) :
    AObs.rx (t + w.delay t a j + w.airtime a f.size) n j f ∈ (after w ops).air :=
  received_after hw ops hm ht hja hj hstrong hfree hnow

/-- The two devices of the examples are well formed. -/
theorem exW_wf (rts : Bool) (d : Nat) : (exW rts d).Wf where
  inj := by
    intro i hi j hj h
    have hi : i < 2 := hi
    have hj : j < 2 := hj
    interval_cases i <;> interval_cases j
    · rfl
    · exact absurd (show exA = exB from h) (by decide)
    · exact absurd (show exB = exA from h) (by decide)
    · rfl
  uni := by
    intro i hi
    have hi : i < 2 := hi
    interval_cases i
    · exact (by decide : exA ≠ bcast)
    · exact (by decide : exB ≠ bcast)
  pulse := fun _ => show 0 < 100 by decide
  symbol := fun _ => show 0 < 10000 by decide

/-- The DATA frame of the examples. -/
def exData : Frame := ⟨.data, exA, exB, 1, exBody⟩

/-- Its acknowledgement. -/
def exAck : Frame := ⟨.ack, exB, exA, 1, ⟨0, 0⟩⟩

/-- What passes in the example with a delay of 100 ps (3 cm): DATA arrives, is acknowledged one pulse later, and the
acknowledgement arrives. -/
theorem ex_air : (after (exW false 100000) (exOps (exW false 100000) 0 20)).air =
    [.handed 0 0 exData, .accepted 0 0 exData 0, .tx 0 0 0 exData, .rx 9460000 0 1 exData, .handed 9460000 1 exAck,
     .accepted 9460000 1 exAck 9460100, .tx 9460100 1 1 exAck, .rx 10920100 1 0 exAck] := by
  rw [exOps_after]
  decide +kernel

/-- The hypotheses of the theorems of C117 are met: something is received. -/
example : ∃ t n j f, AObs.rx t n j f ∈ (after (exW false 100000) (exOps (exW false 100000) 0 20)).air :=
  ⟨9460000, 0, 1, exData, by rw [ex_air]; decide⟩

/-- The DATA frame of the example meets no other pulses at device 1. -/
theorem ex_free : Free (exW false 100000) (after (exW false 100000) (exOps (exW false 100000) 0 20)).air 0 0 0 exData 1 := by
  rw [ex_air]
  constructor
  · intro t' f' st hm
    simp only [List.mem_cons, AObs.accepted.injEq, reduceCtorEq, List.not_mem_nil, false_or, or_false] at hm
    rcases hm with ⟨-, h, -⟩ | ⟨rfl, -⟩
    · exact absurd h (by decide)
    · exact Or.inr (Or.inl (by decide))
  · intro t' n' a' f' hm ha hn
    simp only [List.mem_cons, AObs.tx.injEq, reduceCtorEq, List.not_mem_nil, false_or, or_false] at hm
    rcases hm with ⟨-, rfl, -⟩ | ⟨-, -, rfl, -⟩
    · exact absurd rfl hn
    · exact absurd rfl ha

/-- The hypotheses of `C118_undisturbed_received_partial` are met. -/
example : (∀ o ∈ exOps (exW false 100000) 0 20, cleanMemory o) ∧
    AObs.tx 0 0 0 exData ∈ (after (exW false 100000) (exOps (exW false 100000) 0 20)).air ∧
    ((exW false 100000).pcfg 1).bad ((exW false 100000).power 0 0 1) 0 = false ∧
    (0 : ℤ) + (exW false 100000).delay 0 0 1 + (exW false 100000).airtime 0 exData.size <
      (after (exW false 100000) (exOps (exW false 100000) 0 20)).now := by
  refine ⟨?_, by rw [ex_air]; decide, by decide, by rw [exOps_after]; decide +kernel⟩
  have h : (exOps (exW false 100000) 0 20).all (fun o => match o with | .land _ _ k => decide (k = 0) | _ => true) = true := by
    decide +kernel
  intro o ho
  have h2 := List.all_eq_true.1 h o ho
  cases o with
  | land n j k => exact (decide_eq_true_iff.1 h2 : k = 0)
  | _ => trivial

/-- The same operations, but memory that is not zero in the interference field of every arriving signal. -/
def dirty (junk : ℕ) (l : List (Op ℕ)) : List (Op ℕ) := l.map (fun o => match o with
  | .land n j _ => .land n j junk
  | o => o)

/-- **C118, violated.**  Two devices 3 cm apart; device 0 sends one frame, nothing else is ever on the air, and the signal is strong.  If the memory of
the record of the arriving signal held a large value before, device 1 does not receive the frame. -/
theorem C118_undisturbed_received_violated :
    ∃ (w : World ℕ) (ops : List (Op ℕ)) (t : ℤ) (n a j : Nat) (f : Frame), w.Wf ∧ AObs.tx t n a f ∈ (after w ops).air ∧ j ≠ a ∧ j < w.num ∧
      (w.pcfg j).bad (w.power t a j) 0 = false ∧
      (∀ t' n' a' f', AObs.tx t' n' a' f' ∈ (after w ops).air → n' = n) ∧
      (∀ t' f' st, AObs.accepted t' j f' st ∉ (after w ops).air) ∧
      t + w.delay t a j + w.airtime a f.size < (after w ops).now ∧
      ∀ t' f', AObs.rx t' n j f' ∉ (after w ops).air := by
  have e : (after (exW false 100000) (dirty 5000 (exOps (exW false 100000) 0 20))).air =
      [.handed 0 0 exData, .accepted 0 0 exData 0, .tx 0 0 0 exData] := by decide +kernel
  refine ⟨exW false 100000, dirty 5000 (exOps (exW false 100000) 0 20), 0, 0, 0, 1, exData, exW_wf _ _, ?_, by decide, by decide, by decide,
    ?_, ?_, by decide +kernel, ?_⟩
  · rw [e]; decide
  · intro t' n' a' f' hm
    rw [e] at hm
    simp only [List.mem_cons, AObs.tx.injEq, reduceCtorEq, List.not_mem_nil, false_or, or_false] at hm
    exact hm.2.1
  · intro t' f' st hm
    rw [e] at hm
    simp only [List.mem_cons, AObs.accepted.injEq, reduceCtorEq, List.not_mem_nil, false_or, or_false] at hm
    exact absurd hm.2.1 (by decide)
  · intro t' f' hm
    rw [e] at hm
    simp at hm

/-! ## C23 and C24 for complete devices -/

/-- **C23, complete devices.**  A packet reported as sent successfully was passed up by its destination exactly once, unaltered. -/
theorem C23_complete_devices (w : World P) (hw : w.Wf) (ops : List (Op P)) (hn : NoWrap (after w ops).mac) (a : Nat) (p : Pkt)
    (hp : Nano.Obs.done true p ∈ ((after w ops).mac (w.addr a)).log) :
    p.dst ≠ bcast ∧ ((after w ops).mac p.dst).log.count (.up p.body (w.addr a) p.dst p.seq) = 1 ∧
    ∀ x d, .up x (w.addr a) d p.seq ∈ ((after w ops).mac p.dst).log → x = p.body ∧ d = p.dst :=
  Nano.C23_success_means_delivered_once w.mcfg w.e0 _ (inv_after hw ops).1.reach hn (w.addr a) p hp

/-- **C24, complete devices.**  What a device passes up from another is part of what was accepted there for it, in that order, nothing
twice. -/
theorem C24_complete_devices (w : World P) (hw : w.Wf) (ops : List (Op P)) (hn : NoWrap (after w ops).mac) (a b : Nat) :
    deliveries (w.addr a) ((after w ops).mac (w.addr b)).log <+ acceptedFor (w.addr b) ((after w ops).mac (w.addr a)).log ∧
    (deliveries (w.addr a) ((after w ops).mac (w.addr b)).log).Nodup :=
  let h := Nano.C24_deliveries_in_order w.mcfg w.e0 _ (inv_after hw ops).1.reach hn (w.addr a) (w.addr b)
  ⟨h.1, h.2.1⟩

/-- The packet of the examples. -/
def exPkt : Pkt := ⟨0, 1, exB, exBody⟩

/-- In the example a packet is reported as sent. -/
theorem ex_done : Nano.Obs.done true exPkt ∈ ((after (exW false 100000) (exOps (exW false 100000) 0 20)).mac exA).log := by
  rw [exOps_after]
  decide +kernel

end Thz.NStack
