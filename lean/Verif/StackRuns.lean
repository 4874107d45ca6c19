import Verif.StackProps

/-!
# Runs of complete macro devices: cases of C104 and C105, and C106

Two devices, of which one sends one packet; the events run in time order until nothing is left to do.  The simulator's order is
produced by `nextOp`; every operation it chooses is one of `Stack.step`.
-/

namespace Thz.Stack

open Thz
open Thz.Nano (Body bcast)
open Thz.Macro (Frame Pkt NoWrap exA exB exBody)

/-- The next thing the simulator does: an event that is due now (those of the MACs first), or time passes until the next event. -/
def nextOp (w : World ℕ) (s : St ℕ) : Option Op :=
  let macs := (List.range w.num).filterMap (fun i =>
    ((s.mac (w.addr i)).pend.find? (fun e => own e.2.2 && decide (e.2.1 ≤ s.ch.now))).map (fun e => Op.mac i e.1))
  match macs with
  | o :: _ => some o
  | [] =>
    match s.ch.pend.find? (fun e => decide (e.2.1 ≤ s.ch.now)) with
    | some e => some (.chan e.1 0)
    | none =>
      let dues := s.ch.pend.map (·.2.1) ++
        ((List.range w.num).map (fun i => ((s.mac (w.addr i)).pend.filter (fun e => own e.2.2)).map (·.2.1))).flatten
      match dues with
      | [] => none
      | d :: ds => some (.tick ((ds.foldl min d) - s.ch.now).toNat)

/-- The first operations of a simulation that starts in a state. -/
def auto (w : World ℕ) : Nat → St ℕ → List Op
  | 0, _ => []
  | n + 1, s => match nextOp w s with
    | none => []
    | some o => o :: auto w n (step w s o)

/-- The same, and the state they lead to. -/
def autoRun (w : World ℕ) : Nat → St ℕ → St ℕ
  | 0, s => s
  | n + 1, s => match nextOp w s with
    | none => s
    | some o => autoRun w n (step w s o)

theorem autoRun_eq (w : World ℕ) (n : Nat) (s : St ℕ) : autoRun w n s = (auto w n s).foldl (step w) s := by
  induction n generalizing s with
  | zero => rfl
  | succ n ih =>
    unfold autoRun auto
    cases nextOp w s with
    | none => rfl
    | some o => exact ih _

/-- Two devices; a signal takes `d` ticks (picoseconds) from one to the other, in both directions, and is strong. -/
def exW (rts : Bool) (d : Nat) : World ℕ :=
  { num := 2, addr := fun i => if i = 0 then exA else exB, mcfg := fun _ => Macro.exCfg rts 5, seq0 := fun _ => 0
    pcfg := fun _ => PhyMacro.exCfg, delay := fun _ _ _ => d, power := fun _ _ _ => 1000 }

theorem exW_wf (rts : Bool) (d : Nat) : (exW rts d).Wf where
  inj := by
    show ∀ i < 2, ∀ j < 2, (if i = 0 then exA else exB) = (if j = 0 then exA else exB) → i = j
    decide
  uni := by
    show ∀ i < 2, (if i = 0 then exA else exB) ≠ bcast
    decide
  dur := by
    intro i _ f
    show 0 ≤ (Macro.exCfg rts 5).frameDur f
    unfold Macro.Cfg.frameDur Macro.exCfg
    cases f.kind with
    | data =>
      dsimp only
      exact Int.ediv_nonneg (by positivity) (by norm_num)
    | _ => dsimp only; norm_num
  ns := fun _ _ => by show (0 : ℤ) ≤ 1000; decide

/-- Device 0 is given one packet for device 1. -/
def exStart : Op := .enqueue 0 exBody exB 0

/-- The operations of the simulation. -/
def exOps (w : World ℕ) (n : Nat) : List Op := exStart :: auto w n (step w (init w) (exStart))

theorem exOps_after (w : World ℕ) (n : Nat) : after w (exOps w n) = autoRun w n (step w (init w) (exStart)) :=
  (autoRun_eq _ _ _).symm

/-! ## Cases of C104 and C105: a packet over 5 m -/

/-- The state after the whole exchange without RTS over 5 m. -/
def exNear : St ℕ := after (exW false 16678) (exOps (exW false 16678) 300)

/-- The DATA and ACK frames of the exchange. -/
def exData : Frame := ⟨.data, exA, exB, 1, 0, exBody⟩
def exAckF : Frame := ⟨.ack, exB, exA, 1, 0, ⟨0, 0⟩⟩

theorem exNear_air : exNear.air = [.tx 810001 0 0 exData, .rx 1638624 0 1 exData, .tx 1638624 1 1 exAckF, .rx 1656383 1 0 exAckF] ∧
    exNear.ch.now = 1695000 := by
  unfold exNear
  rw [exOps_after]
  decide +kernel

-- the hypotheses of the C104 theorems hold, and the layers saw frames
example : (exW false 16678).Wf ∧ AObs.rx 1638624 0 1 exData ∈ exNear.air ∧ AObs.tx 1638624 1 1 exAckF ∈ exNear.air :=
  ⟨exW_wf _ _, by rw [exNear_air.1]; decide, by rw [exNear_air.1]; decide⟩

example : sentBy 1 exNear.air = [exAckF] ∧ receivedBy 1 exNear.air = [exData] := by
  rw [exNear_air.1]; decide

-- the hypotheses of C105 hold for the DATA frame
example : AObs.tx 810001 0 0 exData ∈ exNear.air ∧ 1 < (exW false 16678).num ∧
    0 < ((exW false 16678).mcfg ((exW false 16678).addr 0)).frameDur exData ∧
    ((exW false 16678).pcfg 1).loud ((exW false 16678).power 810001 0 1) = true ∧
    ((exW false 16678).pcfg 1).sinr ((exW false 16678).power 810001 0 1) [] = true ∧
    810001 + (exW false 16678).delay 810001 0 1 + ((exW false 16678).mcfg ((exW false 16678).addr 0)).frameDur exData < exNear.ch.now := by
  rw [exNear_air.1, exNear_air.2]; decide +kernel

example : Undisturbed (exW false 16678) exNear.air 810001 0 0 exData 1 where
  quiet := by
    rw [exNear_air.1]
    intro x z t n f h
    right; right
    match x, h with
    | [], h => simp at h
    | [_], h => simp at h
    | [_, _], h =>
      simp only [List.cons_append, List.nil_append, List.cons.injEq, AObs.tx.injEq] at h
      obtain ⟨rfl, rfl, ⟨rfl, -⟩, -⟩ := h
      exact ⟨by decide +kernel, by simp⟩
    | [_, _, _], h => simp at h
    | _ :: _ :: _ :: _ :: _, h => simp at h
  alone := by
    rw [exNear_air.1]
    intro t n a f h h1 h2
    simp only [List.mem_cons, List.not_mem_nil, or_false, reduceCtorEq, false_or, AObs.tx.injEq] at h
    omega

/-! ## C106 -/

/-- Everything transmitted between two devices was received by the other without error. -/
def allReceived (l : List AObs) : Bool := l.all (fun o => match o with
  | .tx _ n a _ => l.any (isReceptionOf n (1 - a))
  | _ => true)

/-- Was a DATA frame transmitted? -/
def dataSent (l : List AObs) : Bool := l.any (fun o => match o with
  | .tx _ _ _ f => decide (f.kind = .data)
  | _ => false)

/-- The packet of the examples, as the MAC numbers it. -/
def exPkt : Pkt := ⟨0, 1, exB, 0, exBody⟩

-- over 5 m the exchange succeeds
example : Macro.Obs.done true exPkt ∈ (exNear.mac exA).log ∧ Macro.Obs.up exBody exA exB 1 ∈ (exNear.mac exB).log ∧
    allReceived exNear.air = true := by
  unfold exNear
  rw [exOps_after]
  decide +kernel

/-- **C106 is violated over 12 m, without RTS.**  Two devices, nothing else on the channel; every frame either transmits is received
by the other without error; the packet is delivered; and the sender reports that it failed. -/
theorem C106_twelve_metres_violated : (exW false 40000).Wf ∧ ∃ ops,
    allReceived (after (exW false 40000) ops).air = true ∧
    Macro.Obs.accepted exPkt ∈ ((after (exW false 40000) ops).mac exA).log ∧
    Macro.Obs.up exBody exA exB 1 ∈ ((after (exW false 40000) ops).mac exB).log ∧
    Macro.Obs.done false exPkt ∈ ((after (exW false 40000) ops).mac exA).log := by
  refine ⟨exW_wf _ _, exOps (exW false 40000) 300, ?_⟩
  rw [exOps_after]
  decide +kernel

/-- **C106 is violated over 12 m, with RTS.**  Again every frame is received without error; the packet is never even transmitted,
and the sender reports that it failed. -/
theorem C106_twelve_metres_rts_violated : (exW true 40000).Wf ∧ ∃ ops,
    allReceived (after (exW true 40000) ops).air = true ∧
    Macro.Obs.accepted exPkt ∈ ((after (exW true 40000) ops).mac exA).log ∧
    dataSent (after (exW true 40000) ops).air = false ∧
    Macro.Obs.done false exPkt ∈ ((after (exW true 40000) ops).mac exA).log := by
  refine ⟨exW_wf _ _, exOps (exW true 40000) 300, ?_⟩
  rw [exOps_after]
  decide +kernel

end Thz.Stack
