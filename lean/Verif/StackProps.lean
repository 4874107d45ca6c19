import Verif.StackRx
import Verif.PhyMacroProps

/-!
# C104 and C105; C98 and C99 for complete macro devices

All theorems are about all histories of `num` complete devices (MAC, PHY, one shared channel, one clock), `Stack.after`.
-/

namespace Thz.Stack

open Thz
open Thz.Nano (Body bcast)
open Thz.Macro (Frame Pkt NoWrap anyHistory deliveries acceptedFor exA exB exBody exBody2)

variable {P : Type}

/-! ## C104: what is received was sent -/

/-- Frames a MAC handed to its PHY, oldest first. -/
def handedOver (l : List Macro.Obs) : List Frame := l.filterMap (fun o => match o with
  | .handed f => some f
  | _ => none)

/-- Frames a MAC was given as received without error, oldest first. -/
def receivedOk (l : List Macro.Obs) : List Frame := l.filterMap (fun o => match o with
  | .rx f => some f
  | _ => none)

/-- Frames device `i` transmitted, oldest first. -/
def sentBy (i : Nat) (l : List AObs) : List Frame := l.filterMap (fun o => match o with
  | .tx _ _ j f => if j = i then some f else none
  | _ => none)

/-- Frames device `i` received without error, oldest first. -/
def receivedBy (i : Nat) (l : List AObs) : List Frame := l.filterMap (fun o => match o with
  | .rx _ _ j f => if j = i then some f else none
  | _ => none)

/-- **C104, sound.**  Every frame a device receives without error is, unaltered, one that another device transmitted; the result
comes exactly the propagation delay and the duration of the frame after the start of that transmission. -/
theorem C104_received_was_sent (w : World P) (hw : w.Wf) (ops : List Op) (t : ℤ) (n i : Nat) (f : Frame)
    (h : AObs.rx t n i f ∈ (after w ops).air) :
    ∃ t0 a, AObs.tx t0 n a f ∈ (after w ops).air ∧ a ≠ i ∧ a < w.num ∧ i < w.num ∧
      t = t0 + w.delay t0 a i + (w.mcfg (w.addr a)).frameDur f := by
  have hi := inv_after hw ops
  obtain ⟨h1, h2, k, pw, h3⟩ := hi.airRx _ _ _ _ h
  obtain ⟨cops, e⟩ := hi.ch
  obtain ⟨x, z, hx⟩ := List.append_of_mem h3
  rw [e] at hx
  obtain ⟨t1, dur, h4, rfl⟩ := Channel.C54_finish cops x z t k n i i pw hx
  obtain ⟨t0, a, link, delay, h5, h6, h7, h8⟩ := hi.chi.arrWhy (show _ ∈ (after w ops).ch.log by
    rw [e, hx]; exact List.mem_append_left _ h4)
  obtain ⟨g, h9⟩ := hi.sentAir _ _ _ _ _ h5
  obtain ⟨h10, h11, h12⟩ := hi.airTx _ _ _ _ h9
  have hfg : g = f := Option.some.inj (h11.symm.trans h2)
  subst hfg
  have huniq : dur = w.airtime a g ∧ link = w.links t0 a := by
    obtain ⟨x', z', hx'⟩ := List.append_of_mem h12
    have hs := hi.chi.sentOnce _ _ _ _ _ _ _ hx' t0 a dur link
    rw [hx'] at h5
    rcases List.mem_append.1 h5 with h5 | h5
    · exact absurd h5 hs.1
    · rcases List.mem_cons.1 h5 with h5 | h5
      · injection h5 with q1 q2 q3 q4 q5
        exact ⟨q4, q5⟩
      · exact absurd h5 hs.2
  obtain ⟨rfl, rfl⟩ := huniq
  refine ⟨t0, a, h9, h8, h10, h1, ?_⟩
  have hd : delay = w.delay t0 a i := by
    unfold World.links at h6
    rw [List.getElem?_map, List.getElem?_range h1] at h6
    simp only [Option.map_some, Option.some.injEq, Prod.mk.injEq] at h6
    exact h6.1.symm
  rw [h7, hd]
  congr 1
  exact Int.toNat_of_nonneg (hw.dur a h10 g)

/-- Is this the reception of transmission `n` by device `i`? -/
def isReceptionOf (n i : Nat) : AObs → Bool
  | .rx _ n' i' _ => decide (n' = n ∧ i' = i)
  | _ => false

/-- **C104, at most once.**  No device receives a transmission twice. -/
theorem C104_received_once (w : World P) (hw : w.Wf) (ops : List Op) (n i : Nat) :
    (after w ops).air.countP (isReceptionOf n i) ≤ 1 := by
  have hi := inv_after hw ops
  have h1 := hi.once n i
  have h2 := arrived_le hi n i
  have e : (after w ops).air.countP (isReceptionOf n i) = (after w ops).air.countP (isRxAir n i) := by
    congr 1
  omega

/-- **C104, numbers.**  A number stands for one transmission: its time, its sender and its frame. -/
theorem C104_one_transmission (w : World P) (hw : w.Wf) (ops : List Op) (t t' : ℤ) (n a a' : Nat) (f f' : Frame)
    (h1 : AObs.tx t n a f ∈ (after w ops).air) (h2 : AObs.tx t' n a' f' ∈ (after w ops).air) : t = t' ∧ a = a' ∧ f = f' :=
  tx_unique (inv_after hw ops) h1 h2

/-- **C104, layers.**  The PHY transmits every frame its MAC hands over and no other, in that order, and its MAC is given the frames
received without error and no other, in that order.  What the MAC takes for the state of its PHY (it asks `IsIdle`) is the state of
its PHY. -/
theorem C104_layers_agree (w : World P) (hw : w.Wf) (ops : List Op) (i : Nat) (hi : i < w.num) :
    sentBy i (after w ops).air = handedOver ((after w ops).mac (w.addr i)).log ∧
    receivedBy i (after w ops).air = receivedOk ((after w ops).mac (w.addr i)).log ∧
    ((after w ops).mac (w.addr i)).phyIdle = PhyMacro.isIdle ((after w ops).phy i) ∧
    ((after w ops).mac (w.addr i)).now = (after w ops).ch.now := by
  have h := (inv_after hw ops).node i hi
  exact ⟨h.handed.symm, h.got.symm, h.idle (hw.ns i hi), h.mnow⟩

/-- **C104, transmitter.**  A device transmits one frame at a time: between the starts of two transmissions of a device lies at
least the duration of the first. -/
theorem C104_one_at_a_time (w : World P) (hw : w.Wf) (ops : List Op) (t t' : ℤ) (n n' a : Nat) (f f' : Frame)
    (h1 : AObs.tx t n a f ∈ (after w ops).air) (h2 : AObs.tx t' n' a f' ∈ (after w ops).air) (hn : n < n') :
    t + (w.mcfg (w.addr a)).frameDur f ≤ t' := by
  have hi := inv_after hw ops
  have := hi.turn _ _ _ _ _ _ _ h1 h2 hn
  have e : ((w.airtime a f : Nat) : ℤ) = _ := Int.toNat_of_nonneg (hw.dur a (hi.airTx _ _ _ _ h1).1 f)
  rwa [e] at this

/-! ## C105: an undisturbed frame is received -/

/-- Transmission `n` (frame `f`, sent by device `a` from time `t` on) is undisturbed at device `j`: during its arrival there, `j`
itself does not transmit and no other transmission arrives at `j`.  (A transmission of `j` that starts at the very moment the
arrival ends does not count if `j` had received the frame by then: it may be the answer.) -/
structure Undisturbed (w : World P) (air : List AObs) (t : ℤ) (n a : Nat) (f : Frame) (j : Nat) : Prop where
  quiet : ∀ x z t' n' f', air = x ++ AObs.tx t' n' j f' :: z →
    t' + (w.mcfg (w.addr j)).frameDur f' < t + w.delay t a j ∨
    t + w.delay t a j + (w.mcfg (w.addr a)).frameDur f < t' ∨
    (t' = t + w.delay t a j + (w.mcfg (w.addr a)).frameDur f ∧ AObs.rx t' n j f ∈ x)
  alone : ∀ t' n' a' f', AObs.tx t' n' a' f' ∈ air → a' ≠ j → n' ≠ n →
    t' + w.delay t' a' j + (w.mcfg (w.addr a')).frameDur f' < t + w.delay t a j ∨
    t + w.delay t a j + (w.mcfg (w.addr a)).frameDur f < t' + w.delay t' a' j

/-- **C105.**  A frame that is undisturbed at a device and arrives there with a power above the
carrier-sense threshold and with a signal-to-noise ratio above the threshold is received without error, at the moment it has
completely arrived. -/
theorem C105_undisturbed_is_received (w : World P) (hw : w.Wf) (ops : List Op) (t : ℤ) (n a j : Nat) (f : Frame)
    (hm : AObs.tx t n a f ∈ (after w ops).air) (hj : j < w.num) (hja : j ≠ a)
    (hlong : 0 < (w.mcfg (w.addr a)).frameDur f)
    (hloud : (w.pcfg j).loud (w.power t a j) = true) (hsinr : (w.pcfg j).sinr (w.power t a j) [] = true)
    (hu : Undisturbed w (after w ops).air t n a f j)
    (hnow : t + w.delay t a j + (w.mcfg (w.addr a)).frameDur f < (after w ops).ch.now) :
    AObs.rx (t + w.delay t a j + (w.mcfg (w.addr a)).frameDur f) n j f ∈ (after w ops).air := by
  have hi := inv_after hw ops
  have hU := und_after hw ops
  have dur : ∀ {t' n' a' f'}, AObs.tx t' n' a' f' ∈ (after w ops).air →
      ((w.airtime a' f' : Nat) : ℤ) = (w.mcfg (w.addr a')).frameDur f' := fun h =>
    Int.toNat_of_nonneg (hw.dur _ (hi.airTx _ _ _ _ h).1 _)
  have hd := dur hm
  have hst : Strong w t a f j := ⟨by omega, hloud, hsinr⟩
  have hcl : Clean w (after w ops).air t n a f j :=
    ⟨fun x z t' n' f' h => by
      have hm' : AObs.tx t' n' j f' ∈ (after w ops).air := by rw [h]; simp
      rw [hd, dur hm']; exact hu.quiet x z _ _ _ h, fun t' n' a' f' h h1 h2 => by
      rw [hd, dur h]; exact hu.alone _ _ _ _ h h1 h2⟩
  obtain ⟨h1, h2, h3⟩ := hi.airTx _ _ _ _ hm
  obtain ⟨cops, e⟩ := hi.ch
  obtain ⟨x, z, hx⟩ := List.append_of_mem h3
  have hlen : (w.links t a).length = (Channel.attachedPhys x).length := (hi.chi.why _ _ _ hx).2.2
  have hlen' : (Channel.attachedPhys x).length = w.num := by
    rw [← hlen]; unfold World.links; simp
  have hdev : Channel.attachedPhys x ++ Channel.attachedPhys (Channel.Obs.sent t n a (w.airtime a f) (w.links t a) :: z) = List.range w.num := by
    rw [← Channel.attachedPhys_append, ← hx, hi.chi.devs, hi.devs]
  have hb : (Channel.attachedPhys x)[j]? = some j := by
    rw [← List.getElem?_append_left (l₂ := Channel.attachedPhys (Channel.Obs.sent t n a (w.airtime a f) (w.links t a) :: z)) (by omega), hdev]
    exact List.getElem?_range hj
  have hl : (w.links t a)[j]? = some (w.delay t a j, w.power t a j) := by
    unfold World.links
    rw [List.getElem?_map, List.getElem?_range hj]; rfl
  have hpos : (0 : ℤ) ≤ (w.airtime a f : ℤ) := Int.natCast_nonneg _
  have harr := Channel.C54_delivered cops x z t n a _ _ (by rw [← e]; exact hx) j j _ _ hb hja hl (by rw [← e]; omega)
  obtain ⟨o, ho, hoi⟩ := List.countP_pos_iff.1 (show 0 < Channel.arrivals n j (Channel.after cops).log by omega)
  rw [← e] at ho
  cases o with
  | arrival t1 k n1 j1 p1 d1 pw1 =>
    have hq : n1 = n ∧ j1 = j := by simpa [Channel.isArrival] using hoi
    obtain ⟨rfl, rfl⟩ := hq
    obtain ⟨t0, a0, link0, delay0, g1, g2, g3, g4⟩ := hi.chi.arrWhy ho
    obtain ⟨f0, g5, -, g7, g8, -⟩ := sent_data hi g1
    obtain ⟨rfl, rfl, rfl⟩ := tx_unique hi g5 hm
    have hdel : delay0 = w.delay t0 a0 j1 := by
      rw [g8, hl] at g2
      simp only [Option.some.injEq, Prod.mk.injEq] at g2
      exact g2.1.symm
    have hfin := (Channel.C54_finished cops t1 k n1 j1 p1 d1 pw1 (by rw [← e]; exact ho)).2.2 (by
      rw [← e, g3, hdel, g7]; omega)
    obtain ⟨o, ho2, hoi2⟩ := List.countP_pos_iff.1 (show 0 < List.countP (Channel.isFinish k) (Channel.after cops).log by omega)
    cases o with
    | finish t2 k2 n2 j2 p2 pw2 =>
      have hk : k2 = k := by simpa [Channel.isFinish] using hoi2
      subst hk
      obtain ⟨x2, z2, hx2⟩ := List.append_of_mem ho2
      obtain ⟨t3, d3, g9, g10⟩ := Channel.C54_finish cops x2 z2 t2 k2 n2 j2 p2 pw2 hx2
      have g11 : Channel.Obs.arrival t3 k2 n2 j2 p2 d3 pw2 ∈ (Channel.after cops).log := by
        rw [hx2]; exact List.mem_append_left _ g9
      have hone := (Channel.C54_finished cops t1 k2 n1 j1 p1 d1 pw1 (by rw [← e]; exact ho)).1
      have heq := countP_unique (p := Channel.isBegin k2) (by omega) g11 (by rw [← e]; exact ho) (by simp [Channel.isBegin]) (by simp [Channel.isBegin])
      injection heq with q1 q2 q3 q4
      subst q3 q4
      rw [← e] at ho2
      obtain ⟨t', hrx⟩ := (hU.lock _ _ _ _ _ hm hj hja hst hcl).2 _ _ _ _ ho2
      obtain ⟨t0', a0', r1, -, -, -, r5⟩ := C104_received_was_sent w hw ops _ _ _ _ hrx
      obtain ⟨rfl, rfl, -⟩ := tx_unique hi r1 hm
      rw [← r5]
      exact hrx
    | _ => simp [Channel.isFinish] at hoi2
  | _ => simp [Channel.isArrival] at hoi

/-! ## C98 and C99 for complete devices -/

/-- **C99 for complete devices.** -/
theorem C99_complete_devices (w : World P) (hw : w.Wf) (ops : List Op) (hnw : NoWrap w.seq0 (after w ops).mac) (a b : Mac48) :
    List.Sublist (deliveries a ((after w ops).mac b).log) (acceptedFor b ((after w ops).mac a).log) ∧
      (deliveries a ((after w ops).mac b).log).Nodup :=
  ⟨(Macro.C99_deliveries_in_order _ _ _ (inv_after hw ops).reach hnw a b).1,
    (Macro.C99_deliveries_in_order _ _ _ (inv_after hw ops).reach hnw a b).2.1⟩

/-- **C98 for complete devices, RTS off everywhere.** -/
theorem C98_complete_devices_partial (w : World P) (hw : w.Wf) (ops : List Op) (hrts : ∀ a, (w.mcfg a).rts = false)
    (hnw : NoWrap w.seq0 (after w ops).mac) (a : Mac48) (p : Pkt)
    (hp : Macro.Obs.done true p ∈ ((after w ops).mac a).log) (hd : p.dst ≠ bcast)
    (hto : ∀ k, Macro.Obs.timedOut p k ∈ ((after w ops).mac a).log → k < 5) :
    ((after w ops).mac p.dst).log.count (.up p.body a p.dst p.seq) = 1 ∧
      ∀ x d, Macro.Obs.up x a d p.seq ∈ ((after w ops).mac p.dst).log → x = p.body ∧ d = p.dst :=
  Macro.C98_without_rts_partial _ _ _ (inv_after hw ops).reach hrts hnw a p hp hd hto

end Thz.Stack
