import Verif.ClientAir
import Verif.TxView

/-!
# What one operation of a client does to its PHY (helper lemmas)
-/

namespace Thz.Client

open Thz Thz.Central Thz.TxV
open Thz.Nano (Body Kind bcast)

variable {c : Cfg} {me : Mac48}

/-- The frame, if the event is the end of a transmission. -/
def Ev.tx : Ev → Option Frame
  | .phyDone f => some f
  | _ => none

/-- The frames handed over, with the time. -/
def outs (l : List Obs) : List (ℤ × Frame) := l.filterMap fun o => match o with
  | .handed t f => some (t, f)
  | _ => none

theorem outs_append (a b : List Obs) : outs (a ++ b) = outs a ++ outs b := List.filterMap_append

/-- What concerns the transmitter. -/
def tv (s : St) : View :=
  { now := s.now, phy := s.phyTx, pend := s.pend.map (fun e => (e.1, e.2.1, e.2.2.tx)), next := s.nextTid
    can := s.ackTO.map (·.tid) ++ s.sendDataEv.toList, out := outs s.log }

/-- How long a frame may take. -/
def Cfg.takes (c : Cfg) (f : Frame) (d : ℤ) : Prop := ∃ m, d = c.frameDur f m

theorem tv_emit (s : St) (o : Obs) (h : ∀ t f, o ≠ .handed t f) : tv (s.emit o) = tv s := by
  have : outs [o] = [] := by cases o <;> first | rfl | exact absurd rfl (h _ _)
  unfold tv St.emit
  rw [outs_append, this, List.append_nil]

theorem tq_emit (s : St) (o : Obs) (h : ∀ t f, o ≠ .handed t f) : Tq (tv s) (tv (s.emit o)) := .of (tv_emit s o h)

theorem tq_sched (s : St) (d : ℤ) (e : Ev) (h : e.tx = none) : Tq (tv s) (tv (s.sched d e)) :=
  .sched d rfl rfl rfl (by simp [tv, St.sched, h]) rfl (fun _ h => .inl h)

theorem tq_schedAck (s : St) (d : ℤ) (q : UInt16) :
    Tq (tv s) (tv { s.sched d (.ackTimeout q) with ackTO := s.ackTO ++ [⟨q, s.nextTid⟩] }) := by
  refine .sched d rfl rfl rfl (by simp [tv, St.sched, Ev.tx]) rfl (fun t h => ?_)
  simp only [tv, St.sched, List.map_append, List.map_cons, List.map_nil, List.mem_append, List.mem_singleton] at h ⊢
  tauto

theorem tq_less (s s' : St) (h1 : s'.now = s.now) (h2 : s'.phyTx = s.phyTx) (h3 : s'.log = s.log) (h4 : s'.pend = s.pend)
    (h5 : s'.nextTid = s.nextTid) (h6 : s'.ackTO.Sublist s.ackTO) (h7 : s'.sendDataEv = s.sendDataEv) : Tq (tv s) (tv s') := by
  refine .less h1 h2 (by simp [tv, h3]) (by simp [tv, h4]) h5 (fun t h => ?_)
  simp only [tv, List.mem_append] at h ⊢
  rw [h7] at h
  exact h.imp (fun h => (h6.map _).subset h) id

theorem tq_cancel (s : St) (t : Nat) (h : t ∈ (tv s).can) : Tq (tv s) (tv (s.cancel t)) := by
  refine .cancel t h rfl rfl rfl ?_ rfl (fun _ h => h)
  simp only [tv, St.cancel, List.filter_map]
  rfl

theorem tx_sendPacket (c : Cfg) (f : Frame) (m : Nat) (s : St) :
    ((sendPacket c f m s).1 = true ∧ Th c.takes f (tv s) (tv (sendPacket c f m s).2)) ∨
    ((sendPacket c f m s).1 = false ∧ Tq (tv s) (tv (sendPacket c f m s).2)) := by
  unfold Client.sendPacket
  split
  · split
    · rename_i hp
      left
      refine ⟨rfl, .hand f (c.frameDur f m) ⟨m, rfl⟩ (by simpa [tv] using hp) rfl rfl ?_ ?_ rfl rfl⟩
      · simp [tv, St.emit, St.sched, outs]
      · simp [tv, St.emit, St.sched, Ev.tx]
    · exact .inr ⟨rfl, .of (tv_emit { s with state := .idle } _ (by simp))⟩
  · exact .inr ⟨rfl, tq_emit _ _ (by simp)⟩

theorem tx_sendPacket' (c : Cfg) (f : Frame) (m : Nat) (s : St) : Tx c.takes (tv s) (tv (sendPacket c f m s).2) := by
  rcases tx_sendPacket c f m s with ⟨-, h⟩ | ⟨-, h⟩
  · exact .inr ⟨f, h⟩
  · exact .inl h

theorem tx_sendData (p : Pkt) (m : Nat) (s : St) : Tx c.takes (tv s) (tv (sendData c me p m s)) := by
  unfold Client.sendData
  dsimp only
  split
  · exact .inl (.of rfl)
  · have h := tx_sendPacket' c (dataFrame me p) m { s with state := .waitTx }
    split
    · rename_i s1 e; rw [e] at h
      exact Tx.before (.of (v' := tv { s with state := .waitTx }) rfl) (h.after (tq_schedAck _ _ _))
    · rename_i s1 e; rw [e] at h
      exact Tx.before (.of (v' := tv { s with state := .waitTx }) rfl) (h.after (.of rfl))

theorem tq_sendPacketDone (f : Frame) (s : St) : Tq (tv { s with phyTx := none }) (tv (sendPacketDone f s)) := by
  unfold Client.sendPacketDone
  dsimp only
  have h := tq_emit { s with phyTx := none } (.txEnd f) (by simp)
  split
  · exact h
  · split
    · exact h.trans (.of rfl)
    · exact h.trans (.of rfl)

theorem tq_settle (ok : Bool) (r : Rec) (s : St) : Tq (tv s) (tv (settle ok r s)) := by
  unfold Client.settle
  split
  · exact (tq_sched s 0 .results rfl).trans (.of (tv_emit { s.sched 0 .results with
        queue := s.queue.filter (fun p => p.uid ≠ r.pkt.uid)
        send := s.send + 1
        thr := s.thr.add (UInt16.ofNat r.pkt.size) (s.now - r.time)
        result := [⟨UInt16.ofNat r.pkt.size - 53, s.now - r.time, true, false, r.pkt⟩] } (.done true r.pkt) (by simp)))
  · exact (tq_sched s 0 .results rfl).trans (.of (tv_emit { s.sched 0 .results with
        discard := s.discard + 1
        result := [⟨UInt16.ofNat r.pkt.size - 53, 0, false, true, r.pkt⟩] } (.done false r.pkt) (by simp)))

theorem tq_doneLoop (ok : Bool) (q : UInt16) : ∀ (n : Nat) (rest pre : List Rec) (s : St), rest.length ≤ n →
    Tq (tv s) (tv (doneLoop ok q pre rest s)) := by
  intro n
  induction n with
  | zero =>
    intro rest pre s h
    rw [List.length_eq_zero_iff.1 (Nat.le_zero.1 h)]
    unfold Client.doneLoop; exact .of rfl
  | succ n ih =>
    intro rest pre s h
    cases rest with
    | nil => unfold Client.doneLoop; exact .of rfl
    | cons r rest =>
      unfold Client.doneLoop
      split
      · split
        · exact .of rfl
        · cases rest with
          | nil => exact (tq_settle ok r s).trans (.of rfl)
          | cons r' rest' =>
            refine (tq_settle ok r s).trans (ih rest' _ _ ?_)
            simp only [List.length_cons] at h; omega
      · exact ih rest _ _ (by simp only [List.length_cons] at h; omega)

theorem tq_charge (limit : UInt16) (r : Rec) (s : St) : Tq (tv s) (tv (charge c limit r s).2) := by
  unfold Client.charge
  dsimp only
  have h := tq_emit s (.timedOut r.pkt (r.retry + 1)) (by simp)
  split
  · exact h.trans ((Tq.of (v' := tv { s.emit (.timedOut r.pkt (r.retry + 1)) with
      queue := s.queue.filter (fun p => p.uid ≠ r.pkt.uid) }) rfl).trans ((tq_sched _ _ _ rfl).trans (tq_emit _ _ (by simp))))
  · exact h.trans (.of rfl)

theorem tq_chargeLoop (limit q : UInt16) : ∀ (rest pre : List Rec) (s : St), Tq (tv s) (tv (chargeLoop c limit q pre rest s)) := by
  intro rest
  induction rest with
  | nil => intro pre s; exact .of rfl
  | cons r rest ih =>
    intro pre s
    unfold Client.chargeLoop
    split
    · exact (tq_charge (c := c) limit r s).trans (.of rfl)
    · exact ih _ s

theorem tq_ctsTimeout (q : UInt16) (s : St) : Tq (tv s) (tv (ctsTimeout c q s)) := by
  unfold Client.ctsTimeout
  dsimp only
  have h := (Tq.of (v := tv s) (v' := tv { s with state := .idle }) rfl).trans
    (tq_chargeLoop (c := c) c.rtsRetryLimit q s.recs [] { s with state := .idle })
  split
  · exact h.trans (.of rfl)
  · exact h

theorem tq_ackTimeout (q : UInt16) (s : St) : Tq (tv s) (tv (ackTimeout c q s)) :=
  (tq_less s { s with state := .idle, ackTO := s.ackTO.eraseP (fun t => t.seq = q) } rfl rfl rfl rfl rfl
    (List.eraseP_sublist) rfl).trans (tq_chargeLoop (c := c) c.dataRetryLimit q s.recs [] _)

theorem tq_tickLoop (q : UInt16) : ∀ (rest pre : List Rec) (s : St), Tq (tv s) (tv (tickLoop q pre rest s)) := by
  intro rest
  induction rest with
  | nil => intro pre s; exact .of rfl
  | cons r rest ih =>
    intro pre s
    unfold Client.tickLoop
    split
    · exact .of rfl
    · exact ih _ s

theorem tq_contend (f : Frame) (s : St) : Tq (tv s) (tv (contend c f s)) := by
  unfold Client.contend
  split
  · exact tq_tickLoop _ _ _ _
  · dsimp only
    split
    · exact .of rfl
    · split
      · exact .of rfl
      · exact (tq_sched s _ _ rfl).trans (.of rfl)

theorem tq_receiveCta3 (f : Frame) (g : UInt16) (s : St) : Tq (tv s) (tv (receiveCta3 c me f g s)) := by
  unfold Client.receiveCta3
  dsimp only
  split
  · exact (tq_sched s _ (.dummyRts (dummyFrame me f.src s.nextId g)) rfl).trans (.of rfl)
  · split
    · exact .of rfl
    · split
      · exact .of rfl
      · split
        · exact (Tq.of (v' := tv { s with state := .idle }) rfl).trans ((tq_ctsTimeout (c := c) s.lastSeq { s with state := .idle }).trans
            ((Tq.of rfl).trans (tq_contend f { ctsTimeout c s.lastSeq { s with state := .idle } with rtsAnswered := true })))
        · exact (Tq.of (v' := tv { s with state := .idle }) rfl).trans (tq_contend f _)

theorem tq_receiveCta1 (s : St) : Tq (tv s) (tv (receiveCta1 c s)) := by
  unfold Client.receiveCta1
  dsimp only
  split
  · exact .of rfl
  · split
    · exact (Tq.of (v' := tv { s with state := .idle }) rfl).trans (tq_tickLoop _ _ _ _)
    · split
      · exact .of rfl
      · rename_i r _ _
        refine .sched (c.fairness + c.slotTime * c.drawSlot s.rngIdx) rfl rfl rfl (by simp [tv, St.sched, Ev.tx]) rfl (fun t h => ?_)
        simp only [tv, St.sched, List.mem_append, Option.toList_some, List.mem_singleton] at h ⊢
        tauto

theorem tq_grantLoop (f : Frame) : ∀ (l : List Rec) (s : St), Tq (tv s) (tv (grantLoop c f l s)) := by
  intro l
  induction l with
  | nil => intro s; exact .refl
  | cons r l ih =>
    intro s
    unfold Client.grantLoop
    split
    · exact (tq_sched s (durTime c.tpn f.dur) (.sendData r.pkt (mcsOf f.flags)) rfl).trans ((Tq.of (v' := tv
        { s.sched (durTime c.tpn f.dur) (.sendData r.pkt (mcsOf f.flags)) with rtsAnswered := true, timeCts := s.now }) rfl).trans (ih _))
    · exact ih s

theorem tq_receiveCts (f : Frame) (s : St) : Tq (tv s) (tv (receiveCts c me f s)) := by
  unfold Client.receiveCts
  dsimp only
  split
  · exact (Tq.of (v' := tv { s with state := .idle, ctsReceived := s.ctsReceived + 1 }) rfl).trans (tq_grantLoop f _ _)
  · exact .of rfl

theorem tq_receiveAck (f : Frame) (s : St) : Tq (tv s) (tv (receiveAck c me f s)) := by
  unfold Client.receiveAck
  split
  · dsimp only
    split
    · rename_i t ht
      have hm : t.tid ∈ (tv s).can := List.mem_append_left _ (List.mem_map_of_mem (List.mem_of_find?_eq_some ht))
      refine (tq_cancel s t.tid hm).trans ((Tq.of rfl).trans ((tq_sched (({ s with state := .idle } : St).cancel t.tid) (c.ps 1)
        (.sendDataDone true f.seq) rfl).trans ?_))
      exact tq_less _ _ rfl rfl rfl rfl rfl List.eraseP_sublist rfl
    · exact .of rfl
  · exact .refl

theorem tq_receivePacket (s : St) : Tq (tv s) (tv (receivePacket s)) := by
  unfold Client.receivePacket
  dsimp only
  have h : Tq (tv s) (tv (match s.sendDataEv with
    | some t => s.cancel t
    | none => s)) := by
    split
    · rename_i t ht
      exact tq_cancel s t (by simp [tv, ht])
    · exact .refl
  split
  · exact h
  · exact h
  · exact h
  · exact h.trans (.of rfl)

theorem tq_receivePacketDone (f : Frame) (ok : Bool) (g : UInt16) (s : St) :
    Tq (tv s) (tv (receivePacketDone c me f ok g s)) := by
  unfold Client.receivePacketDone
  split
  · split
    · exact .refl
    · dsimp only
      have h := tq_emit s (.rx s.now f) (by simp)
      split
      · split
        · exact h.trans (tq_receiveCta1 _)
        · split
          · exact h.trans (tq_receiveCta3 f g _)
          · exact h
      · exact h.trans (tq_receiveCts f _)
      · exact h.trans (tq_receiveAck f _)
      · exact h
  · exact .refl

theorem tq_enqueue (b : Body) (d : Mac48) (s : St) : Tq (tv s) (tv (enqueue c b d s).2) := by
  unfold Client.enqueue
  split
  · exact tq_emit _ _ (by simp)
  · exact (tq_emit s (.accepted ⟨s.nextUid, s.seq + 1, d, b⟩) (by simp)).trans (.of rfl)

theorem tv_init (a b : UInt16) : tv (init a b) = ⟨0, none, [], 0, [], []⟩ := rfl

theorem pend_unique {s : St} (ok : Ok (tv s)) {t : Nat} {due : ℤ} {e : Ev} (hm : (t, due, e) ∈ s.pend) :
    s.pend.find? (fun e => e.1 = t) = some (t, due, e) := by
  have hn : (s.pend.map (·.1)).Nodup := by
    have := ok.uniq
    simp only [tv, List.map_map] at this
    exact this
  cases hf : s.pend.find? (fun e => e.1 = t) with
  | none =>
    have := List.find?_eq_none.1 hf _ hm
    simp at this
  | some x =>
    have h1 := List.mem_of_find?_eq_some hf
    have h2 : x.1 = t := by simpa using List.find?_some hf
    rw [List.inj_on_of_nodup_map hn h1 hm h2]

/-- A due event that is not the end of a transmission. -/
theorem tx_fire {s : St} (ok : Ok (tv s)) {t : Nat} {due : ℤ} {e : Ev} (hm : (t, due, e) ∈ s.pend) (he : e.tx = none) (hd : due ≤ s.now) :
    Tx c.takes (tv s) (tv (fire c me t s)) := by
  unfold Client.fire
  rw [pend_unique ok hm]
  dsimp only
  have h : Tq (tv s) (tv { s with pend := s.pend.filter (fun e => e.1 ≠ t), now := max s.now due }) := by
    refine .take (t := t) (due := due) (List.mem_map.2 ⟨_, hm, by rw [he]⟩) (by show max s.now due = s.now; omega) rfl rfl ?_ rfl rfl
    simp only [tv, List.filter_map]; rfl
  generalize ({ s with pend := s.pend.filter (fun e => e.1 ≠ t), now := max s.now due } : St) = s1 at h
  cases e with
  | dummyRts f => exact Tx.before h (tx_sendPacket' c f 0 s1)
  | sendRts p => exact Tx.before (h.trans (.of (v' := tv { s1 with nextId := s1.nextId + 1 }) rfl)) (tx_sendPacket' c _ 0 _)
  | sendData p m => exact Tx.before h (tx_sendData p m s1)
  | ackTimeout q => exact .inl (h.trans (tq_ackTimeout q s1))
  | sendDataDone b q => exact .inl (h.trans (tq_doneLoop b q _ _ _ s1 (Nat.le_refl _)))
  | results =>
    left
    show Tq _ (tv (resultsRecord s1))
    unfold resultsRecord
    split
    · exact h.trans (.of rfl)
    · exact h.trans (tq_emit _ _ (by simp))
  | phyDone f => cases he

/-- The end of a transmission. -/
theorem tq_firePhy {s : St} (ok : Ok (tv s)) {t : Nat} {due : ℤ} {f : Frame} (hm : (t, due, .phyDone f) ∈ s.pend) :
    Tq { tv s with pend := (tv s).pend.filter (fun e => e.1 ≠ t), now := max s.now due, phy := none } (tv (fire c me t s)) := by
  unfold Client.fire
  rw [pend_unique ok hm]
  refine (Tq.of ?_).trans (tq_sendPacketDone f _)
  simp only [tv, List.filter_map]
  rfl

end Thz.Client
