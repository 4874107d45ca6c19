import Verif.CStackGot
import Verif.CentralNetProps

/-!
# C124 and C125; C101-C103 for complete devices of the centralised scenario
-/

namespace Thz.CStack

open Thz Thz.Central Thz.TxV
open Thz.Nano (Body bcast)
open scoped List

variable {P : Type}

/-! ## Specification vocabulary -/

/-- What the MAC of a client handed to its PHY, oldest first: time and frame. -/
def clientHanded (l : List Client.Obs) : List (ℤ × Frame) := l.filterMap (fun o => match o with
  | .handed t f => some (t, f)
  | _ => none)

/-- What the MAC of an access point handed to its PHY, oldest first. -/
def apHanded (l : List Ap.Obs) : List (ℤ × Frame) := l.filterMap (fun o => match o with
  | .handed t f => some (t, f)
  | _ => none)

/-- What the MAC of a client was given and looked at, oldest first. -/
def clientHeard (l : List Client.Obs) : List (ℤ × Frame) := l.filterMap (fun o => match o with
  | .rx t f => some (t, f)
  | _ => none)

/-- What the MAC of an access point was given, oldest first. -/
def apHeard (l : List Ap.Obs) : List Frame := l.filterMap (fun o => match o with
  | .rx f _ => some f
  | _ => none)

/-- What device `i` transmitted, oldest first: time and frame. -/
def sentBy (i : Nat) (l : List (Air.Obs Frame P)) : List (ℤ × Frame) := l.filterMap (fun o => match o with
  | .tx _ x => if x.i = i then some (x.t, x.f) else none
  | _ => none)

/-- What device `i` received without error, oldest first: time and frame. -/
def receivedBy (i : Nat) (l : List (Air.Obs Frame P)) : List (ℤ × Frame) := l.filterMap (fun o => match o with
  | .rx t _ j f => if j = i then some (t, f) else none
  | _ => none)

/-- Is this the reception of transmission `n` by device `i`? -/
def isReceptionOf (n i : Nat) : Air.Obs Frame P → Bool
  | .rx _ n' i' _ => decide (n' = n ∧ i' = i)
  | _ => false

/-- The time a frame of device `i` can take: that of its kind, for a DATA frame of a client that of its size in one of the
modulations. -/
def frameTime (w : World P) (i : Nat) (f : Frame) (d : ℤ) : Prop :=
  if w.plan.isAp (w.addr i) = true then d = (w.plan.acfg (w.addr i)).ctrlDur f.kind
  else if f.kind = .data then ∃ mcs, d = (w.plan.ccfg (w.addr i)).dataDur (f.body.size + 17) mcs
  else d = (w.plan.ccfg (w.addr i)).ctrlDur f.kind

theorem frameTime_of {w : World P} {i : Nat} {f : Frame} {d : ℤ} (h : takes w i f d) : frameTime w i f d := by
  unfold takes at h
  unfold frameTime
  split at h
  · rw [if_pos ‹_›]; exact h
  · rw [if_neg ‹_›]
    obtain ⟨m, rfl⟩ := h
    unfold Client.Cfg.frameDur
    split
    · rename_i e; rw [e]; exact ⟨m, rfl⟩
    · rename_i hk
      split
      · exact absurd ‹_› hk
      · rfl

/-! ## C124 -/

/-- **C124, sound.**  Every frame a device receives without error is, unaltered, one that another device transmitted; the result
comes exactly the delay and the duration of that transmission after its start, and the duration is that of the frame. -/
theorem C124_received_was_sent (w : World P) (hw : w.Wf) (ops : List (Op P)) (t : ℤ) (n j : Nat) (f : Frame)
    (h : Air.Obs.rx t n j f ∈ (after w ops).air.log) :
    ∃ x, Air.Obs.tx n x ∈ (after w ops).air.log ∧ x.i ≠ j ∧ x.i < w.num ∧ j < w.num ∧ x.f = f ∧ t = x.t + x.delay j + x.dur ∧
      frameTime w x.i f x.dur := by
  have hi := inv_after hw ops
  have ai := hi.ai hw
  obtain ⟨x, id, h1, h2, h3, h4, -⟩ := ai.logRx _ _ _ _ h
  have hj : j < w.num := by
    by_contra hn
    rw [ai.out j (by exact Nat.le_of_not_lt hn)] at h1
    simp at h1
  refine ⟨x, (ai.logTx _ _).2 h2, ?_, (ai.past _ _ h2).2, hj, h3.symm, h4, ?_⟩
  · obtain ⟨y, h5, h6, -⟩ := (ai.dev j).hOk n (List.mem_of_getElem? h1)
    have e : y = x := Option.some.inj (h5.symm.trans h2)
    rw [← e]; exact h6
  · rw [h3]; exact frameTime_of (hi.long _ _ h2)

/-- **C124, at most once.**  No device receives a transmission twice. -/
theorem C124_received_once (w : World P) (hw : w.Wf) (ops : List (Op P)) (n j : Nat) :
    (after w ops).air.log.countP (isReceptionOf n j) ≤ 1 := by
  refine le_of_eq_of_le (List.countP_congr (fun o _ => ?_)) (((inv_after hw ops).ai hw).once n j)
  cases o <;> exact Iff.rfl

/-- **C124, numbers.**  A number stands for one transmission. -/
theorem C124_one_transmission (w : World P) (hw : w.Wf) (ops : List (Op P)) (n : Nat) (x y : Air.Tx Frame P)
    (hx : Air.Obs.tx n x ∈ (after w ops).air.log) (hy : Air.Obs.tx n y ∈ (after w ops).air.log) : x = y := by
  have ai := (inv_after hw ops).ai hw
  exact Option.some.inj (((ai.logTx _ _).1 hx).symm.trans ((ai.logTx _ _).1 hy))

/-- **C124, layers.**  The PHY of a device transmits, at the moment it is handed over, every frame the MAC hands over and no other; the
MAC of an access point is given every frame the PHY received without error and no other, in that order; what the MAC of a client looks
at is part of what its PHY received without error, at that moment and in that order. -/
theorem C124_layers_agree (w : World P) (hw : w.Wf) (ops : List (Op P)) (i : Nat) (hi : i < w.num) :
    (w.plan.isAp (w.addr i) = true →
      sentBy i (after w ops).air.log = apHanded ((after w ops).net.ap (w.addr i)).log ∧
      (receivedBy i (after w ops).air.log).map (·.2) = apHeard ((after w ops).net.ap (w.addr i)).log ∧
      ((after w ops).net.ap (w.addr i)).now = (after w ops).air.now) ∧
    (w.plan.isAp (w.addr i) = false →
      sentBy i (after w ops).air.log = clientHanded ((after w ops).net.cl (w.addr i)).log ∧
      clientHeard ((after w ops).net.cl (w.addr i)).log <+ receivedBy i (after w ops).air.log ∧
      ((after w ops).net.cl (w.addr i)).now = (after w ops).air.now) := by
  have hn := (inv_after hw ops).node i hi
  have hg := got_after hw ops i hi
  constructor
  · intro ha
    unfold Got at hg
    unfold view at hn
    rw [if_pos ha] at hg hn
    exact ⟨hn.out.symm, hg.symm, hn.now⟩
  · intro ha
    unfold Got at hg
    unfold view at hn
    rw [if_neg (by rw [ha]; simp)] at hg hn
    exact ⟨hn.out.symm, hg, hn.now⟩

/-- **C124, transmitter.**  A device transmits one frame at a time: between the starts of two transmissions of a device lies at least
the duration of the first. -/
theorem C124_one_at_a_time (w : World P) (hw : w.Wf) (ops : List (Op P)) (n n' : Nat) (x x' : Air.Tx Frame P)
    (hx : Air.Obs.tx n x ∈ (after w ops).air.log) (hx' : Air.Obs.tx n' x' ∈ (after w ops).air.log) (hi : x.i = x'.i) (hn : n < n') :
    x.t + x.dur ≤ x'.t ∧ frameTime w x.i x.f x.dur := by
  have h := inv_after hw ops
  have ai := h.ai hw
  have h1 := (ai.logTx _ _).1 hx
  exact ⟨ai.turn n n' x x' h1 ((ai.logTx _ _).1 hx') hi hn, frameTime_of (h.long _ _ h1)⟩

/-! ## C125 -/

/-- Transmission `n` is undisturbed at device `j`: during its arrival there `j` itself does not transmit and no other transmission
arrives at `j`.  (A transmission of `j` that starts at the very moment the arrival ends does not count if `j` had received the frame by
then: it may be the answer.) -/
structure Undisturbed (log : List (Air.Obs Frame P)) (n : Nat) (x : Air.Tx Frame P) (j : Nat) : Prop where
  quiet : ∀ a z n' x', log = a ++ Air.Obs.tx n' x' :: z → x'.i = j →
    x'.t + x'.dur < x.t + x.delay j ∨ x.t + x.delay j + x.dur < x'.t ∨
    (x'.t = x.t + x.delay j + x.dur ∧ Air.Obs.rx x'.t n j x.f ∈ a)
  alone : ∀ n' x', Air.Obs.tx n' x' ∈ log → x'.i ≠ j → n' ≠ n →
    x'.t + x'.delay j + x'.dur < x.t + x.delay j ∨ x.t + x.delay j + x.dur < x'.t + x'.delay j

/-- **C125.**  A frame that is undisturbed at a device and arrives there with a power above the carrier-sense threshold and with a
signal-to-noise ratio above the threshold is received without error, at the moment it has completely arrived; and if the device is an
access point, its MAC is given it. -/
theorem C125_undisturbed_is_received (w : World P) (hw : w.Wf) (ops : List (Op P)) (n j : Nat) (x : Air.Tx Frame P)
    (hx : Air.Obs.tx n x ∈ (after w ops).air.log) (hj : j < w.num) (hji : j ≠ x.i) (hdur : 0 < x.dur)
    (hloud : (w.pcfg j).loud (x.pw j) = true) (hsinr : (w.pcfg j).sinr (x.pw j) [] = true)
    (hun : Undisturbed (after w ops).air.log n x j) (hnow : x.t + x.delay j + x.dur < (after w ops).air.now) :
    Air.Obs.rx (x.t + x.delay j + x.dur) n j x.f ∈ (after w ops).air.log ∧
    (w.plan.isAp (w.addr j) = true → x.f ∈ apHeard ((after w ops).net.ap (w.addr j)).log) := by
  have hi := inv_after hw ops
  obtain ⟨aops, e⟩ := hi.air
  have h1 : Air.Obs.rx (x.last j) n j x.f ∈ (after w ops).air.log := by
    rw [e] at hx hun hnow ⊢
    exact Air.received hw.air aops hx hj hji ⟨hdur, hloud, hsinr⟩ ⟨hun.quiet, hun.alone⟩ hnow
  refine ⟨h1, fun ha => ?_⟩
  rw [← ((C124_layers_agree w hw ops j hj).1 ha).2.1]
  exact List.mem_map.2 ⟨(x.last j, x.f), mem_rxOf.2 ⟨n, h1⟩, rfl⟩

/-! ## C101-C103 -/

/-- **C101 for complete devices.**  A packet a client reports as successful was passed up by an access point, once and unaltered.
Missing as in `CNet.C101_success_means_delivered_once_partial`. -/
theorem C101_complete_devices_partial (w : World P) (hw : w.Wf) (ops : List (Op P)) (hn : CNet.NoWrap w.plan (after w ops).net)
    (hs : CNet.Solicited (after w ops).net) (a : Mac48) (p : Client.Pkt)
    (hp : Client.Obs.done true p ∈ ((after w ops).net.cl a).log) :
    ∃ b, w.plan.isAp b = true ∧ ((after w ops).net.ap b).log.count (.up p.body a p.dst p.seq) = 1 ∧
      ∀ x d, Ap.Obs.up x a d p.seq ∈ ((after w ops).net.ap b).log → x = p.body ∧ d = p.dst :=
  CNet.C101_success_means_delivered_once_partial w.plan _ (inv_after hw ops).reach hn hs a p hp

/-- **C101 for complete devices**, one access point without sounding: no restriction other than the counters. -/
theorem C101_complete_one_ap_partial (w : World P) (hw : w.Wf) (ops : List (Op P)) (hn : CNet.NoWrap w.plan (after w ops).net)
    (b : Mac48) (hone : ∀ x, w.plan.isAp x = true → x = b) (hns : ∀ x, (w.plan.acfg x).useWhiteList = false) (a : Mac48)
    (p : Client.Pkt) (hp : Client.Obs.done true p ∈ ((after w ops).net.cl a).log) :
    ((after w ops).net.ap b).log.count (.up p.body a p.dst p.seq) = 1 ∧
      ∀ x d, Ap.Obs.up x a d p.seq ∈ ((after w ops).net.ap b).log → x = p.body ∧ d = p.dst :=
  CNet.C101_one_ap_partial w.plan b hone hns _ (inv_after hw ops).reach hn a p hp

/-- **C102 for complete devices.**  What access point `b` passed up from client `a` is, in order, a subsequence of what `a` accepted,
and contains nothing twice. -/
theorem C102_complete_devices (w : World P) (hw : w.Wf) (ops : List (Op P)) (hn : CNet.NoWrap w.plan (after w ops).net) (a b : Mac48) :
    CNet.deliveries a ((after w ops).net.ap b).log <+ CNet.acceptances ((after w ops).net.cl a).log ∧
      (CNet.deliveries a ((after w ops).net.ap b).log).Nodup ∧ (CNet.acceptances ((after w ops).net.cl a).log).Nodup :=
  CNet.C102_deliveries_in_order w.plan _ (inv_after hw ops).reach hn a b

/-- **C103 for complete devices.**  What an access point passes up, grants and acknowledges was transmitted by another device, as a
DATA or RTS frame, and received by this one without error.  Missing from the full claim: that it was for this access point. -/
theorem C103_complete_devices_partial (w : World P) (hw : w.Wf) (ops : List (Op P)) (j : Nat) (hj : j < w.num)
    (ha : w.plan.isAp (w.addr j) = true) :
    (∀ x a d q, Ap.Obs.up x a d q ∈ ((after w ops).net.ap (w.addr j)).log →
      ∃ t n g, Air.Obs.rx t n j g ∈ (after w ops).air.log ∧ (∃ y, Air.Obs.tx n y ∈ (after w ops).air.log ∧ y.f = g ∧ y.i ≠ j) ∧
        g.kind = .data ∧ g.src = a ∧ g.dst = d ∧ g.seq = q ∧ g.body = x) ∧
    (∀ t f, Ap.Obs.handed t f ∈ ((after w ops).net.ap (w.addr j)).log → f.src = w.addr j ∧
      (f.kind = .cts → ∃ t' n g, Air.Obs.rx t' n j g ∈ (after w ops).air.log ∧ g.kind = .rts ∧ g.src = f.dst ∧ g.seq = f.seq) ∧
      (f.kind = .ack → ∃ t' n g, Air.Obs.rx t' n j g ∈ (after w ops).air.log ∧ g.kind = .data ∧ g.src = f.dst ∧ g.seq = f.seq)) := by
  have hn := (inv_after hw ops).reach.inv
  have hheard : ∀ g p, Ap.Obs.rx g p ∈ ((after w ops).net.ap (w.addr j)).log → ∃ t n, Air.Obs.rx t n j g ∈ (after w ops).air.log := by
    intro g p h
    have h1 : g ∈ apHeard ((after w ops).net.ap (w.addr j)).log := List.mem_filterMap.2 ⟨_, h, rfl⟩
    rw [← ((C124_layers_agree w hw ops j hj).1 ha).2.1, List.mem_map] at h1
    obtain ⟨⟨t, g'⟩, h2, rfl⟩ := h1
    obtain ⟨n, h3⟩ := mem_rxOf.1 h2
    exact ⟨t, n, h3⟩
  have hi : Ap.AirInv (w.addr j) (w.plan.acfg (w.addr j)).useWhiteList ((after w ops).net.ap (w.addr j)) := by
    obtain ⟨l, e⟩ := hn.ap (w.addr j)
    rw [e]; exact Ap.AirInv.after _ _ l
  constructor
  · intro x a d q h
    obtain ⟨g, p, h1, h2⟩ := hi.up x a d q h
    obtain ⟨t, n, h3⟩ := hheard g p h1
    obtain ⟨y, h4, h5, -, -, h6, -⟩ := C124_received_was_sent w hw ops t n j g h3
    exact ⟨t, n, g, h3, ⟨y, h4, h6, h5⟩, h2⟩
  · intro t f h
    obtain ⟨h1, h2⟩ := hi.hand t f h
    refine ⟨h1, fun hk => ?_, fun hk => ?_⟩
    · rcases h2 with ⟨h2, -⟩ | ⟨-, g, p, h3, h4⟩ | ⟨h2, -⟩
      · rw [hk] at h2; cases h2
      · obtain ⟨t', n, h5⟩ := hheard g p h3
        exact ⟨t', n, g, h5, h4⟩
      · rw [hk] at h2; cases h2
    · rcases h2 with ⟨h2, -⟩ | ⟨h2, -⟩ | ⟨-, g, p, h3, h4⟩
      · rw [hk] at h2; cases h2
      · rw [hk] at h2; cases h2
      · obtain ⟨t', n, h5⟩ := hheard g p h3
        exact ⟨t', n, g, h5, h4⟩

end Thz.CStack
