import Verif.Stack
import Verif.MacroTx
import Verif.PhyMacroProps
import Verif.ChannelProps

/-!
# One device in step with the channel (helper lemmas)

The models of MAC, PHY and channel each carry the end of a transmission and the end of an arrival as a pending event of their own.
This file shows, for one device, that the three stay in step.
-/

namespace Thz.Stack

open Thz
open Thz.Nano (Body bcast)
open Thz.Macro (Frame TidP Tq Th Tx txEvs)

variable {P : Type}

/-! ## Pending events of the PHY -/

/-- Pending ends of transmissions of a PHY: due time and transmission number. -/
def phyTxs (l : List (Nat × ℤ × PhyMacro.Ev P)) : List (ℤ × Nat) := l.filterMap (fun e => match e with
  | (_, due, .txDone id) => some (due, id)
  | _ => none)

/-- Pending ends of arrivals of a PHY: due time, arrival number, power. -/
def phyRxs (l : List (Nat × ℤ × PhyMacro.Ev P)) : List (ℤ × Nat × P) := l.filterMap (fun e => match e with
  | (_, due, .rxDone id pw) => some (due, id, pw)
  | _ => none)

theorem phyTxs_append (a b : List (Nat × ℤ × PhyMacro.Ev P)) : phyTxs (a ++ b) = phyTxs a ++ phyTxs b := List.filterMap_append

theorem phyRxs_append (a b : List (Nat × ℤ × PhyMacro.Ev P)) : phyRxs (a ++ b) = phyRxs a ++ phyRxs b := List.filterMap_append

theorem mem_phyRxs {l : List (Nat × ℤ × PhyMacro.Ev P)} {due : ℤ} {id : Nat} {pw : P} :
    (due, id, pw) ∈ phyRxs l ↔ ∃ t, (t, due, PhyMacro.Ev.rxDone id pw) ∈ l := by
  unfold phyRxs
  rw [List.mem_filterMap]
  constructor
  · rintro ⟨⟨t, d, e⟩, ho, h⟩
    cases e <;> simp only at h <;> cases h
    exact ⟨t, ho⟩
  · rintro ⟨t, h⟩
    exact ⟨_, h, rfl⟩

theorem mem_phyTxs {l : List (Nat × ℤ × PhyMacro.Ev P)} {due : ℤ} {id : Nat} :
    (due, id) ∈ phyTxs l ↔ ∃ t, (t, due, PhyMacro.Ev.txDone id) ∈ l := by
  unfold phyTxs
  rw [List.mem_filterMap]
  constructor
  · rintro ⟨⟨t, d, e⟩, ho, h⟩
    cases e <;> simp only at h <;> cases h
    exact ⟨t, ho⟩
  · rintro ⟨t, h⟩
    exact ⟨_, h, rfl⟩

theorem rxIds_eq (l : List (Nat × ℤ × PhyMacro.Ev P)) : PhyMacro.rxIds l = (phyRxs l).map (·.2.1) := by
  unfold PhyMacro.rxIds phyRxs
  rw [List.map_filterMap]
  congr 1
  funext x
  obtain ⟨t, d, e⟩ := x
  cases e <;> rfl

/-! ## PHY steps -/

/-- Finding an event by its number. -/
theorem find_tid {E : Type} {l : List (Nat × ℤ × E)} (hn : (l.map (·.1)).Nodup) {t : Nat} {d : ℤ} {e : E} (h : (t, d, e) ∈ l) :
    l.find? (fun x => x.1 = t) = some (t, d, e) := by
  cases hf : l.find? (fun x => decide (x.1 = t)) with
  | none => exact absurd (List.find?_eq_none.1 hf _ h) (by simp)
  | some y =>
    have h1 : y.1 = t := by simpa using List.find?_some hf
    have h2 := List.inj_on_of_nodup_map hn (List.mem_of_find?_eq_some hf) h h1
    rw [h2]

theorem phy_send (n dur : Nat) (p : PhyMacro.St P) (h : p.state ≠ .tx) :
    (PhyMacro.sendPacket n dur p).1 = true ∧ (PhyMacro.sendPacket n dur p).2.state = .tx ∧
    (PhyMacro.sendPacket n dur p).2.now = p.now ∧ (PhyMacro.sendPacket n dur p).2.csBusy = p.csBusy ∧
    (PhyMacro.sendPacket n dur p).2.nextId = p.nextId ∧
    phyTxs (PhyMacro.sendPacket n dur p).2.pend = phyTxs p.pend ++ [(p.now + dur, n)] ∧
    phyRxs (PhyMacro.sendPacket n dur p).2.pend = phyRxs p.pend := by
  unfold PhyMacro.sendPacket
  rw [if_neg h]
  refine ⟨rfl, rfl, rfl, rfl, rfl, ?_, ?_⟩
  · show phyTxs (p.pend ++ [_]) = _
    rw [phyTxs_append]; rfl
  · show phyRxs (p.pend ++ [_]) = _
    rw [phyRxs_append]
    show phyRxs p.pend ++ [] = _
    rw [List.append_nil]

theorem phy_fireTx (c : PhyMacro.Cfg P) {p : PhyMacro.St P} (hn : (p.pend.map (·.1)).Nodup) {t : Nat} {due : ℤ} {id : Nat}
    (hm : (t, due, PhyMacro.Ev.txDone id) ∈ p.pend) (hd : due ≤ p.now) :
    (PhyMacro.fire c t p).state = .idle ∧ (PhyMacro.fire c t p).now = p.now ∧ (PhyMacro.fire c t p).csBusy = p.csBusy ∧
    (PhyMacro.fire c t p).nextId = p.nextId ∧
    (∃ a b : List (Nat × ℤ × PhyMacro.Ev P), phyTxs p.pend = phyTxs a ++ (due, id) :: phyTxs b ∧ phyTxs (PhyMacro.fire c t p).pend = phyTxs a ++ phyTxs b) ∧
    phyRxs (PhyMacro.fire c t p).pend = phyRxs p.pend := by
  have hf := find_tid hn hm
  obtain ⟨-, a, b, h1, h2⟩ := PhyMacro.take_pend hn hf
  have key : PhyMacro.fire c t p = PhyMacro.sendPacketDone id { p with pend := a ++ b, now := max p.now due } := by
    unfold PhyMacro.fire
    rw [hf]
    dsimp only
    rw [h2]; rfl
  rw [key]
  refine ⟨rfl, show max p.now due = p.now by omega, rfl, rfl, ⟨a, b, ?_, ?_⟩, ?_⟩
  · rw [h1, phyTxs_append]; rfl
  · show phyTxs (a ++ b) = _
    rw [phyTxs_append]
  · show phyRxs (a ++ b) = _
    rw [h1, phyRxs_append, phyRxs_append]; rfl

theorem phy_arrive (c : PhyMacro.Cfg P) (p : PhyMacro.St P) (dur : Nat) (pw : P) :
    ((PhyMacro.step c p (.arrive dur pw)).state = .tx ↔ p.state = .tx) ∧
    (PhyMacro.step c p (.arrive dur pw)).now = p.now ∧ (PhyMacro.step c p (.arrive dur pw)).nextId = p.nextId + 1 ∧
    phyTxs (PhyMacro.step c p (.arrive dur pw)).pend = phyTxs p.pend ∧
    phyRxs (PhyMacro.step c p (.arrive dur pw)).pend = phyRxs p.pend ++ [(p.now + dur, p.nextId, pw)] := by
  have e1 : phyTxs (p.pend ++ [(p.nextTid, p.now + (dur : ℤ), PhyMacro.Ev.rxDone p.nextId pw)]) = phyTxs p.pend := by
    rw [phyTxs_append]
    show phyTxs p.pend ++ [] = _
    rw [List.append_nil]
  have e2 : phyRxs (p.pend ++ [(p.nextTid, p.now + (dur : ℤ), PhyMacro.Ev.rxDone p.nextId pw)]) =
      phyRxs p.pend ++ [(p.now + dur, p.nextId, pw)] := by
    rw [phyRxs_append]; rfl
  show _ ∧ _
  unfold PhyMacro.step PhyMacro.receivePacket
  dsimp only
  unfold PhyMacro.sense
  split
  · exact ⟨Iff.rfl, rfl, rfl, e1, e2⟩
  · rename_i h
    have h' : ¬ p.state = .tx := h
    split
    · split
      · exact ⟨⟨fun h => (by cases h), fun h => absurd h h'⟩, rfl, rfl, e1, e2⟩
      · exact ⟨⟨fun h => (by cases h), fun h => absurd h h'⟩, rfl, rfl, e1, e2⟩
    · exact ⟨Iff.rfl, rfl, rfl, e1, e2⟩

/-- The results an arrival can be given. -/
def results (id : Nat) : List (List (Nat × Bool)) := [[], [(id, true)], [(id, false)], [(id, false), (id, false)]]

theorem phy_conclude (c : PhyMacro.Cfg P) (id : Nat) (pw : P) (q : PhyMacro.St P) :
    ((PhyMacro.conclude c id pw q).state = .tx ↔ q.state = .tx) ∧ (PhyMacro.conclude c id pw q).now = q.now ∧
    (PhyMacro.conclude c id pw q).nextId = q.nextId ∧ (PhyMacro.conclude c id pw q).pend = q.pend ∧
    ∃ l, (PhyMacro.conclude c id pw q).log = q.log ++ l ∧ noticesIn l ∈ results id := by
  unfold PhyMacro.conclude
  by_cases h : q.state = .rx
  · have hne : ¬ q.state = .tx := by rw [h]; decide
    rw [if_neg (fun h' => h' h)]
    by_cases h2 : some id = q.pktRx
    · rw [if_pos h2]
      by_cases h3 : c.sinr pw (PhyMacro.interferers id q.now q.ongoing) = true
      · rw [if_pos h3]
        exact ⟨⟨fun h => (by cases h), fun h => absurd h hne⟩, rfl, rfl, rfl, [.notice q.now id true], rfl, by simp [noticesIn, results]⟩
      · rw [if_neg h3]
        dsimp only
        by_cases h4 : q.csBusy = false
        · rw [if_pos (show (q.emit (.notice q.now id false)).csBusy = false from h4)]
          exact ⟨⟨fun h => (by cases h), fun h => absurd h hne⟩, rfl, rfl, rfl, [.notice q.now id false, .notice q.now id false],
            by show (q.log ++ [_]) ++ [_] = _; rw [List.append_assoc]; rfl, by simp [noticesIn, results]⟩
        · rw [if_neg (show ¬ (q.emit (.notice q.now id false)).csBusy = false from h4)]
          exact ⟨⟨fun h => (by cases h), fun h => absurd h hne⟩, rfl, rfl, rfl, [.notice q.now id false], rfl, by simp [noticesIn, results]⟩
    · rw [if_neg h2]
      by_cases h4 : q.csBusy = false
      · rw [if_pos h4]
        exact ⟨⟨fun h => (by cases h), fun h => absurd h hne⟩, rfl, rfl, rfl, [.notice q.now id false], rfl, by simp [noticesIn, results]⟩
      · rw [if_neg h4]
        exact ⟨Iff.rfl, rfl, rfl, rfl, [], (List.append_nil _).symm, by simp [noticesIn, results]⟩
  · rw [if_pos h]
    exact ⟨Iff.rfl, rfl, rfl, rfl, [], (List.append_nil _).symm, by simp [noticesIn, results]⟩

theorem phy_fireRx (c : PhyMacro.Cfg P) {p : PhyMacro.St P} (hn : (p.pend.map (·.1)).Nodup) {t : Nat} {due : ℤ} {id : Nat} {pw : P}
    (hm : (t, due, PhyMacro.Ev.rxDone id pw) ∈ p.pend) (hd : due ≤ p.now) :
    ((PhyMacro.fire c t p).state = .tx ↔ p.state = .tx) ∧ (PhyMacro.fire c t p).now = p.now ∧
    (PhyMacro.fire c t p).nextId = p.nextId ∧ phyTxs (PhyMacro.fire c t p).pend = phyTxs p.pend ∧
    (∃ a b : List (Nat × ℤ × PhyMacro.Ev P), phyRxs p.pend = phyRxs a ++ (due, id, pw) :: phyRxs b ∧
      phyRxs (PhyMacro.fire c t p).pend = phyRxs a ++ phyRxs b) ∧
    noticesIn ((PhyMacro.fire c t p).log.drop p.log.length) ∈ results id := by
  have hf := find_tid hn hm
  obtain ⟨-, a, b, h1, h2⟩ := PhyMacro.take_pend hn hf
  have key : PhyMacro.fire c t p = PhyMacro.receivePacketDone c id pw { p with pend := a ++ b, now := max p.now due } := by
    unfold PhyMacro.fire
    rw [hf]
    dsimp only
    rw [h2]; rfl
  have e1 : phyTxs (a ++ b) = phyTxs p.pend := by
    rw [h1, phyTxs_append, phyTxs_append]; rfl
  have e2 : phyRxs p.pend = phyRxs a ++ (due, id, pw) :: phyRxs b := by
    rw [h1, phyRxs_append]; rfl
  have e3 : max p.now due = p.now := by omega
  rw [key]
  unfold PhyMacro.receivePacketDone
  obtain ⟨k1, k2, k3, k4, l, k5, k6⟩ := phy_conclude c id pw { (({ p with pend := a ++ b, now := max p.now due } : PhyMacro.St P).emit
    (.rxEnd (max p.now due) id)) with csBusy := if p.csBusyEnd ≤ max p.now due + c.ns then false else p.csBusy }
  refine ⟨k1, k2.trans e3, k3, ?_, ⟨a, b, e2, ?_⟩, ?_⟩
  · exact (congrArg phyTxs k4).trans e1
  · exact (congrArg phyRxs k4).trans (phyRxs_append a b)
  · have k5' := k5
    have : (p.log ++ [PhyMacro.Obs.rxEnd (max p.now due) id]) ++ l = p.log ++ (.rxEnd (max p.now due) id :: l) := by simp
    have k7 : (PhyMacro.conclude c id pw { (({ p with pend := a ++ b, now := max p.now due } : PhyMacro.St P).emit
      (.rxEnd (max p.now due) id)) with csBusy := if p.csBusyEnd ≤ max p.now due + c.ns then false else p.csBusy }).log =
        p.log ++ (.rxEnd (max p.now due) id :: l) := k5.trans this
    show noticesIn ((PhyMacro.conclude c id pw { (({ p with pend := a ++ b, now := max p.now due } : PhyMacro.St P).emit
      (.rxEnd (max p.now due) id)) with csBusy := if p.csBusyEnd ≤ max p.now due + c.ns then false else p.csBusy }).log.drop
        p.log.length) ∈ _
    rw [k7, List.drop_left]
    exact k6

/-! ## The log of the MAC -/

/-- The frames received without error in a piece of the MAC's log. -/
def rxIn (l : List Macro.Obs) : List Frame := l.filterMap (fun o => match o with
  | .rx f => some f
  | _ => none)

theorem handedIn_append (a b : List Macro.Obs) : handedIn (a ++ b) = handedIn a ++ handedIn b := List.filterMap_append

theorem rxIn_append (a b : List Macro.Obs) : rxIn (a ++ b) = rxIn a ++ rxIn b := List.filterMap_append

theorem handedIn_filter (l : List Macro.Obs) : handedIn l = handedIn (l.filter Macro.phyObs) := by
  unfold handedIn
  rw [List.filterMap_filter]
  congr 1
  funext o
  cases o <;> simp [Macro.phyObs]

theorem rxIn_filter (l : List Macro.Obs) : rxIn l = rxIn (l.filter Macro.phyObs) := by
  unfold rxIn
  rw [List.filterMap_filter]
  congr 1
  funext o
  cases o <;> simp [Macro.phyObs]

/-! ## One device -/

/-- The transmitter as MAC, PHY and channel see it: free, or busy with the same transmission until the same time. -/
def TxSame (frames : List Frame) (m : Macro.St) (p : PhyMacro.St P) (ct : List (ℤ × Nat)) : Prop :=
  (m.phyTx = none ∧ txEvs m.pend = [] ∧ p.state ≠ .tx ∧ phyTxs p.pend = [] ∧ ct = []) ∨
  ∃ f n due t, m.phyTx = some f ∧ txEvs m.pend = [(t, due, f)] ∧ p.state = .tx ∧ phyTxs p.pend = [(due, n)] ∧ ct = [(due, n)] ∧
    frames[n]? = some f

/-- One device in step with the channel, whose pending ends of transmissions and arrivals for this device are `ct` and `cr`. -/
structure Node (c : PhyMacro.Cfg P) (now : ℤ) (frames : List Frame) (m : Macro.St) (p : PhyMacro.St P) (hd : List (Nat × Nat))
    (ct : List (ℤ × Nat)) (cr : List (ℤ × (Nat × Nat) × P)) (txs rxs : List Frame) : Prop where
  tid : TidP m
  phyR : ∃ ops, p = PhyMacro.after c ops
  mnow : m.now = now
  pnow : p.now = now
  sense : m.sense = p.csBusy
  tx : TxSame frames m p ct
  rx : cr = (phyRxs p.pend).map (fun x => (x.1, hd.getD x.2.1 (0, 0), x.2.2))
  hnd : (hd.map (·.1)).Nodup
  hlen : p.nextId = hd.length
  handed : handedIn m.log = txs
  got : rxIn m.log = rxs

variable {c : PhyMacro.Cfg P} {now : ℤ} {frames : List Frame} {m m' : Macro.St} {p : PhyMacro.St P} {hd : List (Nat × Nat)}
  {ct : List (ℤ × Nat)} {cr : List (ℤ × (Nat × Nat) × P)} {txs rxs : List Frame}

theorem phy_snoc (c : PhyMacro.Cfg P) (ops : List (PhyMacro.Op P)) (o : PhyMacro.Op P) :
    PhyMacro.after c (ops ++ [o]) = PhyMacro.step c (PhyMacro.after c ops) o := by
  show List.foldl _ _ _ = _
  rw [List.foldl_append]; rfl

theorem Node.inv (h : Node c now frames m p hd ct cr txs rxs) (hns : 0 ≤ c.ns) : PhyMacro.Inv c p := by
  obtain ⟨ops, e⟩ := h.phyR
  rw [e]; exact PhyMacro.inv_after hns ops

/-- The MAC does something that leaves the transmitter alone. -/
theorem Node.quiet (h : Node c now frames m p hd ct cr txs rxs) (hq : Tq m m') : Node c now frames m' p hd ct cr txs rxs := by
  obtain ⟨h1, h2⟩ := hq.ok h.tid
  obtain ⟨l, e, q⟩ := hq.log
  refine ⟨h1, h.phyR, hq.now.trans h.mnow, h.pnow, hq.sense.trans h.sense, ?_, h.rx, h.hnd, h.hlen, ?_, ?_⟩
  · unfold TxSame
    rw [hq.phy, h2]; exact h.tx
  · rw [e, handedIn_append, handedIn_filter l, q, h.handed]; simp [handedIn]
  · rw [e, rxIn_append, rxIn_filter l, q, h.got]; simp [rxIn]

/-- The MAC hands a frame over: the PHY takes it. -/
theorem Node.hand (h : Node c now frames m p hd ct cr txs rxs) {mc : Macro.Cfg} {f : Frame} (ht : Th mc f m m') {dur : Nat}
    (hdur : (dur : ℤ) = mc.frameDur f) :
    (PhyMacro.sendPacket frames.length dur p).1 = true ∧
    Node c now (frames ++ [f]) m' (PhyMacro.sendPacket frames.length dur p).2 hd (ct ++ [(now + dur, frames.length)]) cr
      (txs ++ [f]) rxs := by
  have hfree : m.phyTx = none ∧ txEvs m.pend = [] ∧ p.state ≠ .tx ∧ phyTxs p.pend = [] ∧ ct = [] := by
    rcases h.tx with h | ⟨f', n, due, t, h1, _⟩
    · exact h
    · rw [ht.free] at h1; cases h1
  obtain ⟨-, e1, e2, e3, e4⟩ := hfree
  obtain ⟨h1, h2, h3, h4, h5, h6, h7⟩ := phy_send frames.length dur p e2
  obtain ⟨k1, t, k2⟩ := ht.ok h.tid
  obtain ⟨l, e, q⟩ := ht.log
  refine ⟨h1, ⟨k1, ?_, ht.now.trans h.mnow, h3.trans h.pnow, ht.sense.trans (h.sense.trans h4.symm), ?_, ?_, h.hnd,
    h5.trans h.hlen, ?_, ?_⟩⟩
  · obtain ⟨ops, e⟩ := h.phyR
    refine ⟨ops ++ [.send frames.length dur], ?_⟩
    rw [phy_snoc, ← e]; rfl
  · right
    refine ⟨f, frames.length, now + dur, t, ht.phy, ?_, h2, ?_, ?_, by simp⟩
    · rw [k2, e1, h.mnow, hdur]; rfl
    · rw [h6, e3, h.pnow]; rfl
    · rw [e4]; rfl
  · rw [h7]; exact h.rx
  · rw [e, handedIn_append, handedIn_filter l, q, h.handed]; rfl
  · rw [e, rxIn_append, rxIn_filter l, q, h.got]; simp [rxIn]

/-- A piece of the list that contains the only element. -/
theorem single_split {α : Type} {a b : List α} {x y : α} (h : [x] = a ++ y :: b) : a = [] ∧ b = [] ∧ x = y := by
  cases a with
  | nil => simp only [List.nil_append, List.cons.injEq] at h; exact ⟨rfl, h.2.symm, h.1⟩
  | cons z a => simp at h

/-- The end of a transmission, in all three layers. -/
theorem Node.txEnd (h : Node c now frames m p hd ct cr txs rxs) (hns : 0 ≤ c.ns) {mc : Macro.Cfg} {me : Mac48} {due : ℤ} {n : Nat}
    (hc : (due, n) ∈ ct) (hdue : due ≤ now) :
    ∃ t t', phyTxTid p = some t ∧ macTxTid m = some t' ∧
      Node c now frames (Macro.step mc me (Macro.step mc me m (.sense (PhyMacro.fire c t p).csBusy)) (.fire t'))
        (PhyMacro.fire c t p) hd [] cr txs rxs ∧
      ∃ l, (Macro.step mc me (Macro.step mc me m (.sense (PhyMacro.fire c t p).csBusy)) (.fire t')).log = m.log ++ l ∧
        handedIn l = [] := by
  have hi := h.inv hns
  rcases h.tx with ⟨-, -, -, -, e⟩ | ⟨f, n', due', t', h1, h2, h3, h4, h5, h6⟩
  · rw [e] at hc; cases hc
  rw [h5] at hc
  have hc := List.mem_singleton.1 hc
  simp only [Prod.mk.injEq] at hc
  obtain ⟨rfl, rfl⟩ := hc
  obtain ⟨t, hm⟩ := mem_phyTxs.1 (show (due, n) ∈ phyTxs p.pend by rw [h4]; simp)
  have hm' : (t', due, Macro.Ev.phyDone f) ∈ m.pend := Macro.mem_txEvs.1 (by rw [h2]; simp)
  have ht : phyTxTid p = some t := by
    unfold phyTxTid
    cases hf : p.pend.find? (fun e => match e.2.2 with | .txDone _ => true | _ => false) with
    | none => exact absurd (List.find?_eq_none.1 hf _ hm) (by simp)
    | some y =>
      obtain ⟨t2, d2, e2⟩ := y
      have hy := List.mem_of_find?_eq_some hf
      have hy2 := List.find?_some hf
      cases e2 with
      | rxDone _ _ => simp at hy2
      | txDone id =>
        have ha : (d2, id) ∈ phyTxs p.pend := mem_phyTxs.2 ⟨t2, hy⟩
        obtain ⟨a, b, hab⟩ := List.append_of_mem hm
        rw [hab] at hy
        rw [hab, phyTxs_append] at h4
        have hb : phyTxs a = [] ∧ phyTxs b = [] := by
          have h4' : [(due, n)] = phyTxs a ++ (due, n) :: phyTxs b := h4.symm
          have := single_split h4'
          exact ⟨this.1, this.2.1⟩
        rcases List.mem_append.1 hy with hy | hy
        · have := mem_phyTxs.2 ⟨t2, hy⟩
          rw [hb.1] at this; cases this
        · rcases List.mem_cons.1 hy with hy | hy
          · cases hy; rfl
          · have := mem_phyTxs.2 ⟨t2, hy⟩
            rw [hb.2] at this; cases this
  have ht' : macTxTid m = some t' := by
    unfold macTxTid
    cases hf : m.pend.find? (fun e => match e.2.2 with | .phyDone _ => true | _ => false) with
    | none => exact absurd (List.find?_eq_none.1 hf _ hm') (by simp)
    | some y =>
      obtain ⟨t2, d2, e2⟩ := y
      have hy := List.mem_of_find?_eq_some hf
      have hy2 := List.find?_some hf
      cases e2 <;> first | (simp at hy2; done) | skip
      have := Macro.mem_txEvs.2 hy
      rw [h2] at this
      have := List.mem_singleton.1 this
      simp only [Prod.mk.injEq] at this
      rw [this.1]; rfl
  obtain ⟨k1, k2, k3, k4, ⟨a, b, k5, k6⟩, k7⟩ := phy_fireTx c hi.tid hm (by rw [h.pnow]; exact hdue)
  have hs : Macro.step mc me m (.sense (PhyMacro.fire c t p).csBusy) = m := by
    show ({ m with sense := (PhyMacro.fire c t p).csBusy } : Macro.St) = m
    rw [k3, ← h.sense]
  have hf := find_tid h.tid.uniq hm'
  obtain ⟨g1, g2, g3, g4, ⟨l, g5, g6⟩, g7⟩ :=
    Macro.tx_fireDone mc me m t' t' due f hf (by rw [h.mnow]; exact hdue) h.tid
  have hl : handedIn l = [] := by rw [handedIn_filter, g6]; rfl
  refine ⟨t, t', ht, ht', ?_⟩
  rw [hs]
  refine ⟨⟨g4, ?_, g1.trans h.mnow, k2.trans h.pnow, g2.trans (h.sense.trans k3.symm), ?_, ?_, h.hnd,
    k4.trans h.hlen, ?_, ?_⟩, l, g5, hl⟩
  · obtain ⟨ops, e⟩ := h.phyR
    refine ⟨ops ++ [.fire t], ?_⟩
    rw [phy_snoc, ← e]; rfl
  · left
    refine ⟨g3, ?_, by rw [k1]; decide, ?_, rfl⟩
    · rw [g7, h2]; simp
    · rw [h4] at k5
      obtain ⟨e1, e2, -⟩ := single_split k5
      rw [k6, e1, e2]; rfl
  · rw [k7]; exact h.rx
  · rw [g5, handedIn_append, hl, List.append_nil]; exact h.handed
  · rw [g5, rxIn_append, rxIn_filter l, g6, h.got]; simp [rxIn]

/-- The MAC after its PHY told it what it senses. -/
theorem sense_quiet (mc : Macro.Cfg) (me : Mac48) (m : Macro.St) (b : Bool) (htid : TidP m) :
    TidP (Macro.step mc me m (.sense b)) := ⟨htid.lt, htid.uniq, htid.can⟩

/-- A signal starts to arrive. -/
theorem Node.arrive (h : Node c now frames m p hd ct cr txs rxs) (hns : 0 ≤ c.ns) {mc : Macro.Cfg} {me : Mac48} {k n dur : Nat} {pw : P}
    (hk : k ∉ hd.map (·.1)) :
    Node c now frames (Macro.step mc me m (.sense (PhyMacro.step c p (.arrive dur pw)).csBusy)) (PhyMacro.step c p (.arrive dur pw))
      (hd ++ [(k, n)]) ct (cr ++ [(now + dur, (k, n), pw)]) txs rxs := by
  have hi := h.inv hns
  obtain ⟨k1, k2, k3, k4, k5⟩ := phy_arrive c p dur pw
  refine ⟨sense_quiet _ _ _ _ h.tid, ?_, h.mnow, k2.trans h.pnow, rfl, ?_, ?_, ?_, ?_, h.handed, h.got⟩
  · obtain ⟨ops, e⟩ := h.phyR
    refine ⟨ops ++ [.arrive dur pw], ?_⟩
    rw [phy_snoc, ← e]
  · rcases h.tx with ⟨h1, h2, h3, h4, h5⟩ | ⟨f, n', due', t', h1, h2, h3, h4, h5, h6⟩
    · exact .inl ⟨h1, h2, fun e => h3 (k1.1 e), k4.trans h4, h5⟩
    · exact .inr ⟨f, n', due', t', h1, h2, k1.2 h3, k4.trans h4, h5, h6⟩
  · rw [k5, List.map_append, h.rx]
    congr 1
    · refine List.map_congr_left (fun x hx => ?_)
      have hlt : x.2.1 < hd.length := by
        rw [← h.hlen]
        refine hi.rxLt _ ?_
        rw [rxIds_eq]
        exact List.mem_map_of_mem hx
      rw [List.getD_eq_getElem?_getD, List.getD_eq_getElem?_getD, List.getElem?_append_left hlt]
    · simp [h.pnow, h.hlen, List.getD]
  · rw [List.map_append]
    refine List.nodup_append.2 ⟨h.hnd, by simp, ?_⟩
    rintro x hx y hy rfl
    simp only [List.map_cons, List.map_nil, List.mem_singleton] at hy
    subst hy
    exact hk hx
  · rw [k3, h.hlen]; simp

/-- Lists with one element known not to occur before. -/
theorem split_unique {α : Type} {x : α} : ∀ {a b a' b' : List α}, a ++ x :: b = a' ++ x :: b' → x ∉ a → x ∉ a' → a = a' ∧ b = b' := by
  intro a
  induction a with
  | nil =>
    intro b a' b' h _ h2
    cases a' with
    | nil => simp only [List.nil_append, List.cons.injEq, true_and] at h; exact ⟨rfl, h⟩
    | cons y a' =>
      simp only [List.nil_append, List.cons_append, List.cons.injEq] at h
      exact absurd h.1 (fun e => h2 (by rw [e]; simp))
  | cons z a ih =>
    intro b a' b' h h1 h2
    cases a' with
    | nil =>
      simp only [List.nil_append, List.cons_append, List.cons.injEq] at h
      exact absurd h.1.symm (fun e => h1 (by rw [e]; simp))
    | cons y a' =>
      simp only [List.cons_append, List.cons.injEq] at h
      obtain ⟨h3, h4⟩ := ih h.2 (fun hx => h1 (List.mem_cons_of_mem _ hx)) (fun hx => h2 (List.mem_cons_of_mem _ hx))
      exact ⟨by rw [h.1, h3], h4⟩

/-- A signal ends. -/
theorem Node.finish (h : Node c now frames m p hd ct cr txs rxs) (hns : 0 ≤ c.ns) {mc : Macro.Cfg} {me : Mac48} {x y : List (ℤ × (Nat × Nat) × P)}
    {due : ℤ} {k n : Nat} {pw : P} (hc : cr = x ++ (due, (k, n), pw) :: y) (hdue : due ≤ now) :
    ∃ t id, phyRxTid (hd.findIdx (fun z => z.1 = k)) p = some t ∧ hd[id]? = some (k, n) ∧
      noticesIn ((PhyMacro.fire c t p).log.drop p.log.length) ∈ results id ∧
      Node c now frames (Macro.step mc me m (.sense (PhyMacro.fire c t p).csBusy)) (PhyMacro.fire c t p) hd ct (x ++ y) txs rxs := by
  have hi := h.inv hns
  have hmem : (due, (k, n), pw) ∈ (phyRxs p.pend).map (fun x => (x.1, hd.getD x.2.1 (0, 0), x.2.2)) := by
    rw [← h.rx, hc]; simp
  obtain ⟨⟨due', id, pw'⟩, hm, he⟩ := List.mem_map.1 hmem
  simp only [Prod.mk.injEq] at he
  obtain ⟨rfl, he, rfl⟩ := he
  have hlt : id < hd.length := by
    rw [← h.hlen]
    refine hi.rxLt _ ?_
    rw [rxIds_eq]
    exact List.mem_map_of_mem (f := fun z : ℤ × Nat × P => z.2.1) hm
  have hid : hd[id] = (k, n) := by
    rw [List.getD_eq_getElem?_getD, List.getElem?_eq_getElem hlt] at he; exact he
  have hid? : hd[id]? = some (k, n) := by rw [List.getElem?_eq_getElem hlt, hid]
  have hidx : hd.findIdx (fun z => decide (z.1 = k)) = id := by
    rw [List.findIdx_eq hlt]
    refine ⟨by simp [hid], fun j hj => ?_⟩
    have hj' : j < hd.length := by omega
    simp only [decide_eq_false_iff_not]
    intro e
    have := h.hnd.getElem_inj_iff (i := j) (j := id) (hi := by simpa using hj') (hj := by simpa using hlt)
    rw [List.getElem_map, List.getElem_map, e, hid] at this
    have := this.1 rfl
    omega
  obtain ⟨t, hmp⟩ := mem_phyRxs.1 hm
  have hrn : ((phyRxs p.pend).map (·.2.1)).Nodup := by rw [← rxIds_eq]; exact hi.rxNodup
  have ht : phyRxTid id p = some t := by
    unfold phyRxTid
    cases hf : p.pend.find? (fun e => match e.2.2 with | .rxDone j _ => decide (j = id) | _ => false) with
    | none => exact absurd (List.find?_eq_none.1 hf _ hmp) (by simp)
    | some z =>
      obtain ⟨t2, d2, e2⟩ := z
      have hy := List.mem_of_find?_eq_some hf
      have hy2 := List.find?_some hf
      cases e2 with
      | txDone _ => simp at hy2
      | rxDone j pw2 =>
        have hj : j = id := by simpa using hy2
        subst hj
        -- the two entries have the same arrival number
        obtain ⟨a, b, hab⟩ := List.append_of_mem hmp
        rw [hab, phyRxs_append, List.map_append] at hrn
        have hrn' : ((phyRxs a).map (·.2.1) ++ j :: (phyRxs b).map (·.2.1)).Nodup := hrn
        rw [hab] at hy
        have hn1 := List.nodup_append.1 hrn'
        rcases List.mem_append.1 hy with hy | hy
        · have h1 : j ∈ (phyRxs a).map (·.2.1) :=
            List.mem_map_of_mem (f := fun z : ℤ × Nat × P => z.2.1) (mem_phyRxs.2 ⟨t2, hy⟩)
          exact absurd rfl (hn1.2.2 _ h1 _ List.mem_cons_self)
        · rcases List.mem_cons.1 hy with hy | hy
          · cases hy; rfl
          · have h1 : j ∈ (phyRxs b).map (·.2.1) :=
              List.mem_map_of_mem (f := fun z : ℤ × Nat × P => z.2.1) (mem_phyRxs.2 ⟨t2, hy⟩)
            exact absurd h1 (List.nodup_cons.1 hn1.2.1).1
  obtain ⟨k1, k2, k3, k4, ⟨a, b, k5, k6⟩, k7⟩ := phy_fireRx c hi.tid hmp (by rw [h.pnow]; exact hdue)
  refine ⟨t, id, by rw [hidx]; exact ht, hid?, k7, ⟨sense_quiet _ _ _ _ h.tid, ?_, h.mnow, k2.trans h.pnow, rfl, ?_, ?_, h.hnd,
    k3.trans h.hlen, h.handed, h.got⟩⟩
  · obtain ⟨ops, e⟩ := h.phyR
    refine ⟨ops ++ [.fire t], ?_⟩
    rw [phy_snoc, ← e]; rfl
  · rcases h.tx with ⟨h1, h2, h3, h4, h5⟩ | ⟨f, n', due', t', h1, h2, h3, h4, h5, h6⟩
    · exact .inl ⟨h1, h2, fun e => h3 (k1.1 e), k4.trans h4, h5⟩
    · exact .inr ⟨f, n', due', t', h1, h2, k1.2 h3, k4.trans h4, h5, h6⟩
  · rw [k6, List.map_append]
    have h1 := h.rx
    rw [hc, k5, List.map_append, List.map_cons] at h1
    have e1 : ((due', hd.getD id (0, 0), pw') : ℤ × (Nat × Nat) × P) = (due', (k, n), pw') := by rw [he]
    simp only [e1] at h1
    have notIn : ∀ z ∈ phyRxs a ++ phyRxs b, ((z.1, hd.getD z.2.1 (0, 0), z.2.2) : ℤ × (Nat × Nat) × P) ≠ (due', (k, n), pw') := by
      intro z hz e
      simp only [Prod.mk.injEq] at e
      have hz' : z ∈ phyRxs p.pend := by
        rw [k5]
        rcases List.mem_append.1 hz with h | h
        · exact List.mem_append_left _ h
        · exact List.mem_append_right _ (List.mem_cons_of_mem _ h)
      have hzlt : z.2.1 < hd.length := by
        rw [← h.hlen]
        refine hi.rxLt _ ?_
        rw [rxIds_eq]
        exact List.mem_map_of_mem (f := fun z : ℤ × Nat × P => z.2.1) hz'
      have hz2 : hd[z.2.1] = (k, n) := by
        have := e.2.1
        rw [List.getD_eq_getElem?_getD, List.getElem?_eq_getElem hzlt] at this; exact this
      have := h.hnd.getElem_inj_iff (i := z.2.1) (j := id) (hi := by simpa using hzlt) (hj := by simpa using hlt)
      rw [List.getElem_map, List.getElem_map, hz2, hid] at this
      have hzid := this.1 rfl
      rw [k5, List.map_append, List.map_cons] at hrn
      have hn1 := List.nodup_append.1 hrn
      rcases List.mem_append.1 hz with hz | hz
      · exact absurd hzid (hn1.2.2 _ (List.mem_map_of_mem (f := fun z : ℤ × Nat × P => z.2.1) hz) _ List.mem_cons_self)
      · have h2 : z.2.1 ∈ (phyRxs b).map (·.2.1) := List.mem_map_of_mem (f := fun z : ℤ × Nat × P => z.2.1) hz
        rw [hzid] at h2
        exact (List.nodup_cons.1 hn1.2.1).1 h2
    have hnd2 : (due', (k, n), pw') ∉ (phyRxs a).map (fun x => (x.1, hd.getD x.2.1 (0, 0), x.2.2)) := by
      intro hz
      obtain ⟨z, hz, e⟩ := List.mem_map.1 hz
      exact notIn z (List.mem_append_left _ hz) e
    have hnd1 : (due', (k, n), pw') ∉ x := by
      intro hx
      obtain ⟨x1, x2, rfl⟩ := List.append_of_mem hx
      have hcnt := congrArg (fun l : List (ℤ × (Nat × Nat) × P) => l.length) h1
      -- the element occurs once on the right
      have h3 : ((phyRxs a).map (fun x => (x.1, hd.getD x.2.1 (0, 0), x.2.2)) ++ (due', (k, n), pw') ::
          (phyRxs b).map (fun x => (x.1, hd.getD x.2.1 (0, 0), x.2.2))) =
          x1 ++ (due', (k, n), pw') :: (x2 ++ (due', (k, n), pw') :: y) := by
        rw [← h1]; simp
      by_cases hx1 : (due', (k, n), pw') ∈ x1
      · obtain ⟨y1, y2, rfl⟩ := List.append_of_mem hx1
        have h4 : (due', (k, n), pw') ∈ (phyRxs b).map (fun x => (x.1, hd.getD x.2.1 (0, 0), x.2.2)) := by
          have h5 := h3
          rw [List.append_assoc, List.cons_append] at h5
          rcases List.append_eq_append_iff.1 h5 with ⟨q, hq1, hq2⟩ | ⟨q, hq1, hq2⟩
          · cases q with
            | nil =>
              simp only [List.nil_append, List.cons.injEq, true_and] at hq2
              rw [hq2]; simp
            | cons q0 q =>
              simp only [List.cons_append, List.cons.injEq] at hq2
              rw [hq2.2]; simp
          · cases q with
            | nil =>
              simp only [List.nil_append, List.cons.injEq, true_and] at hq2
              rw [← hq2]; simp
            | cons q0 q =>
              simp only [List.cons_append, List.cons.injEq] at hq2
              refine absurd ?_ hnd2
              rw [hq1, ← hq2.1]; simp
        obtain ⟨z, hz, e⟩ := List.mem_map.1 h4
        exact notIn z (List.mem_append_right _ hz) e
      · obtain ⟨-, h4⟩ := split_unique h3 hnd2 hx1
        have h5 : (due', (k, n), pw') ∈ (phyRxs b).map (fun x => (x.1, hd.getD x.2.1 (0, 0), x.2.2)) := by
          rw [h4]; simp
        obtain ⟨z, hz, e⟩ := List.mem_map.1 h5
        exact notIn z (List.mem_append_right _ hz) e
    obtain ⟨h4, h5⟩ := split_unique h1 hnd1 hnd2
    rw [h4, h5]

/-- The MAC is told the result. -/
theorem Node.report (h : Node c now frames m p hd ct cr txs rxs) (mc : Macro.Cfg) (me : Mac48) (f : Frame) (ok : Bool) (g : UInt16) :
    Node c now frames (Macro.step mc me m (.rxDone f ok g)) p hd ct cr txs (rxs ++ if ok = true then [f] else []) := by
  have hq := Macro.tq_rxDone mc me f ok g m
  refine Node.quiet ?_ hq
  cases ok with
  | false => simpa using h
  | true =>
    simp only [if_true]
    refine ⟨⟨h.tid.lt, h.tid.uniq, h.tid.can⟩, h.phyR, h.mnow, h.pnow, h.sense, h.tx, h.rx, h.hnd, h.hlen, ?_, ?_⟩
    · show handedIn (m.log ++ [_]) = _
      rw [handedIn_append, h.handed]; simp [handedIn]
    · show rxIn (m.log ++ [_]) = _
      rw [rxIn_append, h.got]; rfl

/-- Time passes. -/
theorem Node.advance (h : Node c now frames m p hd ct cr txs rxs) (mc : Macro.Cfg) (me : Mac48) (d : Nat) :
    Node c (now + d) frames (Macro.step mc me m (.advance d)) (PhyMacro.step c p (.advance d)) hd ct cr txs rxs := by
  refine ⟨⟨h.tid.lt, h.tid.uniq, h.tid.can⟩, ?_, ?_, ?_, h.sense, h.tx, h.rx, h.hnd, h.hlen, h.handed, h.got⟩
  · obtain ⟨ops, e⟩ := h.phyR
    refine ⟨ops ++ [.advance d], ?_⟩
    rw [phy_snoc, ← e]
  · show m.now + d = now + d
    rw [h.mnow]
  · show p.now + d = now + d
    rw [h.pnow]

/-- The MAC's idea of whether its PHY is idle is right. -/
theorem Node.idle (h : Node c now frames m p hd ct cr txs rxs) (hns : 0 ≤ c.ns) : m.phyIdle = PhyMacro.isIdle p := by
  have hi := h.inv hns
  unfold Macro.St.phyIdle PhyMacro.isIdle
  rw [h.sense]
  rcases h.tx with ⟨h1, -, h3, -, -⟩ | ⟨f, n', due', t', h1, -, h3, -, -, -⟩
  · rw [h1]
    cases hs : p.state with
    | idle => rfl
    | tx => exact absurd hs h3
    | rx => rw [hi.rxBusy hs]; rfl
  · rw [h1, h3]; rfl

end Thz.Stack
