import Verif.NanoStack

/-!
# Runs of complete nano devices

Two devices, of which one sends one packet; the events run in time order until nothing is left to do.  The simulator's order is
produced by `nextOp`; every operation it chooses is one of `NStack.step`.
-/

namespace Thz.NStack

open Thz
open Thz.Nano (Body bcast Frame Pkt Kind exA exB exBody)

/-- The next thing the simulator does: an event that is due now, or time passes until the next event.  A back-off takes `g`. -/
def nextOp (w : World ℕ) (g : Nat) (s : St ℕ) : Option (Op ℕ) :=
  match s.flight.find? (fun x => decide (x.due ≤ s.now)) with
  | some x => some (.land x.n x.dst 0)
  | none =>
    let phys := (List.range w.num).filterMap (fun i =>
      ((s.phy i).pend.find? (fun e => decide (e.2.1 ≤ s.now))).map (fun e => Op.phy (P := ℕ) i e.1))
    match phys with
    | o :: _ => some o
    | [] =>
      let macs := (List.range w.num).filterMap (fun i =>
        ((s.mac (w.addr i)).pend.find? (fun e => decide (s.due i e.1 ≤ s.now))).map (fun e => Op.mac (P := ℕ) i e.1 g))
      match macs with
      | o :: _ => some o
      | [] =>
        let dues := s.flight.map (·.due) ++
          ((List.range w.num).map (fun i => (s.phy i).pend.map (·.2.1) ++ (s.mac (w.addr i)).pend.map (fun e => s.due i e.1))).flatten
        match dues with
        | [] => none
        | d :: ds => some (.tick ((ds.foldl min d) - s.now).toNat)

/-- The first operations of a simulation that starts in a state. -/
def auto (w : World ℕ) (g : Nat) : Nat → St ℕ → List (Op ℕ)
  | 0, _ => []
  | n + 1, s => match nextOp w g s with
    | none => []
    | some o => o :: auto w g n (step w s o)

/-- The same, and the state they lead to. -/
def autoRun (w : World ℕ) (g : Nat) : Nat → St ℕ → St ℕ
  | 0, s => s
  | n + 1, s => match nextOp w g s with
    | none => s
    | some o => autoRun w g n (step w s o)

theorem autoRun_eq (w : World ℕ) (g n : Nat) (s : St ℕ) : autoRun w g n s = (auto w g n s).foldl (step w) s := by
  induction n generalizing s with
  | zero => rfl
  | succ n ih =>
    unfold autoRun auto
    cases nextOp w g s with
    | none => rfl
    | some o => exact ih _

/-- Two devices with the default attributes (pulses of 100 fs, symbols of 10 ps, times in femtoseconds, model/thz-phy-nano.cc:62-80); a signal
takes `d` from one to the other, in both directions, and is strong. -/
def exW (rts : Bool) (d : Nat) : World ℕ :=
  { num := 2, addr := fun i => if i = 0 then exA else exB, mcfg := fun _ => ⟨rts, 1000, 5, 5, EParams.default⟩, e0 := fun _ => 1000
    pcfg := fun _ => { p := 100, ts := 10000, bad := fun s i => decide (s < 10 * (1 + i)) }
    airtime := fun _ size => size * 80000, delay := fun _ _ _ => d, power := fun _ _ _ => 1000, ps := 1000 }

/-- The operations of the simulation: device 0 is given one packet for device 1. -/
def exOps (w : World ℕ) (g n : Nat) : List (Op ℕ) := .enqueue 0 exBody exB :: auto w g n (step w (init w) (.enqueue 0 exBody exB))

theorem exOps_after (w : World ℕ) (g n : Nat) : after w (exOps w g n) = autoRun w g n (step w (init w) (.enqueue 0 exBody exB)) :=
  (autoRun_eq _ _ _ _).symm

end Thz.NStack
