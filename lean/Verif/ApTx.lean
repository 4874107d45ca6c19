import Verif.ApAir
import Verif.TxView

/-!
# What one operation of an access point does to its PHY (helper lemmas)
-/

namespace Thz.Ap

open Thz Thz.Central Thz.TxV
open Thz.Nano (Body Kind bcast)

variable {c : Cfg} {me : Mac48}

/-- The frame, if the event is the end of a transmission. -/
def Ev.tx : Ev → Option Frame
  | .phyDone f => some f
  | _ => none

/-- The frames handed over, with the time. -/
def outs (l : List Obs) : List (ℤ × Frame) := l.filterMap fun o => match o with
  | .handed t f => some (t, f)
  | _ => none

theorem outs_append (a b : List Obs) : outs (a ++ b) = outs a ++ outs b := List.filterMap_append

/-- What concerns the transmitter. -/
def tv (s : St) : View :=
  { now := s.now, phy := s.phyTx, pend := s.pend.map (fun e => (e.1, e.2.1, e.2.2.tx)), next := s.nextTid
    can := s.sectorEv.toList ++ s.dataEv.toList, out := outs s.log }

/-- How long a frame takes. -/
def Cfg.takes (c : Cfg) (f : Frame) (d : ℤ) : Prop := d = c.ctrlDur f.kind

theorem tv_emit (s : St) (o : Obs) (h : ∀ t f, o ≠ .handed t f) : tv (s.emit o) = tv s := by
  have : outs [o] = [] := by cases o <;> first | rfl | exact absurd rfl (h _ _)
  unfold tv St.emit
  rw [outs_append, this, List.append_nil]

theorem tq_emit (s : St) (o : Obs) (h : ∀ t f, o ≠ .handed t f) : Tq (tv s) (tv (s.emit o)) := .of (tv_emit s o h)

theorem tq_sched (s : St) (d : ℤ) (e : Ev) (h : e.tx = none) : Tq (tv s) (tv (s.sched d e)) :=
  .sched d rfl rfl rfl (by simp [tv, St.sched, h]) rfl (fun _ h => .inl h)

theorem tq_schedSector (s : St) (d : ℤ) : Tq (tv s) (tv { s.sched d .sectorTimeout with sectorEv := some s.nextTid }) := by
  refine .sched d rfl rfl rfl (by simp [tv, St.sched, Ev.tx]) rfl (fun t h => ?_)
  simp only [tv, St.sched, List.mem_append, Option.toList_some, List.mem_singleton] at h ⊢
  tauto

theorem tq_schedData (s : St) (d : ℤ) : Tq (tv s) (tv { s.sched d .dataTimeout with dataEv := some s.nextTid }) := by
  refine .sched d rfl rfl rfl (by simp [tv, St.sched, Ev.tx]) rfl (fun t h => ?_)
  simp only [tv, St.sched, List.mem_append, Option.toList_some, List.mem_singleton] at h ⊢
  tauto

theorem tq_cancel (s : St) (t : Option Nat) (h : ∀ n, t = some n → n ∈ (tv s).can) : Tq (tv s) (tv (s.cancel t)) := by
  cases t with
  | none => exact .refl
  | some t =>
    refine .cancel t (h t rfl) rfl rfl rfl ?_ rfl (fun _ h => h)
    simp only [tv, St.cancel, List.filter_map]
    rfl

theorem tq_cancelSector (s : St) : Tq (tv s) (tv (s.cancel s.sectorEv)) :=
  tq_cancel s _ (fun n h => by simp [tv, h])

theorem tq_cancelData (s : St) : Tq (tv s) (tv (s.cancel s.dataEv)) :=
  tq_cancel s _ (fun n h => by simp [tv, h])

theorem tx_sendPacket (f : Frame) (s : St) : Tx c.takes (tv s) (tv (sendPacket c f s)) := by
  unfold Ap.sendPacket
  split
  · split
    · rename_i hp
      right
      refine ⟨f, .hand f (c.ctrlDur f.kind) rfl (by simpa [tv] using hp) rfl rfl ?_ ?_ rfl rfl⟩
      · simp [tv, St.emit, St.sched, outs]
      · simp [tv, St.emit, St.sched, Ev.tx]
    · exact .inl (.of (tv_emit { s with state := .idle } _ (by simp)))
  · exact .inl (tq_emit _ _ (by simp))

theorem tx_sendCta1 (s : St) : Tx c.takes (tv s) (tv (sendCta1 c me s)) :=
  Tx.before ((tq_schedData s c.dataTimeout).trans (.of (v' := tv { s.sched c.dataTimeout .dataTimeout with
    dataEv := some s.nextTid, nextId := s.nextId + 1 }) rfl)) (tx_sendPacket _ _)

theorem tx_sendCta3 (s : St) : Tx c.takes (tv s) (tv (sendCta3 c me s)) :=
  Tx.before ((tq_sched s c.waitTime .waitTime rfl).trans (.of (v' := tv { s.sched c.waitTime .waitTime with
    nextId := s.nextId + 1 }) rfl)) (tx_sendPacket _ _)

theorem tx_sendAck (s : St) : Tx c.takes (tv s) (tv (sendAck c s)) := by
  unfold Ap.sendAck
  split
  · exact .inl (.of rfl)
  · exact (tx_sendPacket _ s).after (.of rfl)

theorem tq_wrapDown : ∀ (n : Nat) (s : St), Tq (tv s) (tv (wrapDown n s)) := by
  intro n
  induction n with
  | zero => intro s; exact .refl
  | succ n ih =>
    intro s
    unfold Ap.wrapDown
    split
    · exact (Tq.of (tv_emit { s with cycles := s.cycles + 1, angle := s.angle - 360 } .cycle (by simp))).trans (ih _)
    · exact .refl

theorem tx_turn (s : St) : Tx c.takes (tv s) (tv (turn c me s)) := by
  unfold Ap.turn
  dsimp only
  generalize wrapUp (rounds (s.angle + c.beamwidth)) (s.angle + c.beamwidth) = a
  have h := (Tq.of (v := tv s) (v' := tv { s with angle := a }) rfl).trans (tq_wrapDown (rounds a) { s with angle := a })
  generalize wrapDown (rounds a) { s with angle := a } = s1 at h
  have h2 := h.trans (tq_emit s1 (.turned s1.angle) (by simp))
  split
  · exact Tx.before h2 (tx_sendCta3 _)
  · exact Tx.before (h2.trans (tq_schedSector _ c.tSector)) (tx_sendCta1 _)

theorem tx_sectorTimeout (s : St) : Tx c.takes (tv s) (tv (sectorTimeout c me s)) := by
  unfold Ap.sectorTimeout
  split
  · exact tx_sendAck s
  · exact tx_turn s

theorem tq_answer : ∀ (l : List (Frame × ℚ)) (i : Nat) (w : ℤ) (s : St), Tq (tv s) (tv (answer c i w l s)) := by
  intro l
  induction l with
  | nil => intro i w s; exact .refl
  | cons r l ih =>
    intro i w s
    unfold Ap.answer
    exact (tq_sched s _ _ rfl).trans (ih _ _ _)

theorem tq_assign : ∀ (l : List (Mac48 × List (ℚ × ℚ))) (i : Nat) (s : St), Tq (tv s) (tv (assign c i l s)) := by
  intro l
  induction l with
  | nil => intro i s; exact .refl
  | cons r l ih =>
    intro i s
    unfold Ap.assign
    dsimp only
    exact (Tq.of (tv_emit { s with whiteList := mapUpsert ltQ (bestSector r.2) [] (· ++ [r.1]) s.whiteList }
      (.listed r.1 (bestSector r.2)) (by simp))).trans ((tq_sched _ _ _ rfl).trans (ih _ _))

theorem tq_initNodeMap (s : St) : Tq (tv s) (tv (initNodeMap c s)) := by
  unfold Ap.initNodeMap
  exact (Tq.of (v' := tv { s with nodeMap := byNode s.sectorMap s.nodeMap }) rfl).trans ((tq_assign _ 0 _).trans (tq_sched _ _ _ rfl))

theorem tx_waitTime (s : St) : Tx c.takes (tv s) (tv (waitTimeExpired c me s)) := by
  unfold Ap.waitTimeExpired
  dsimp only
  have h := tq_emit s .closed (by simp)
  generalize s.emit .closed = s1 at h
  split
  · exact Tx.before h (tx_turn _)
  · split
    · split
      · exact .inl ((h.trans (Tq.of (v' := tv ({ s1 with
          sectorMap := record s1.angle s1.rtsList s1.sectorMap, rtsList := [], recording := false } : St)) rfl)).trans (tq_initNodeMap _))
      · exact Tx.before (h.trans (.of (v' := tv { s1 with sectorMap := record s1.angle s1.rtsList s1.sectorMap, rtsList := [] }) rfl))
          (tx_turn _)
    · left
      exact (h.trans (tq_answer (c := c) s1.rtsList 0 (s1.rtsList.length * c.ctrlDur .cts) s1)).trans
        ((tq_schedSector _ (c.sectorTime (UInt16.ofNat s1.rtsList.length))).trans (.of rfl))

theorem tq_sendPacketDone (f : Frame) (s : St) : Tq (tv { s with phyTx := none }) (tv (sendPacketDone c f s)) := by
  unfold Ap.sendPacketDone
  dsimp only
  have h := tq_emit { s with phyTx := none } (.txEnd f) (by simp)
  generalize ({ s with phyTx := none } : St).emit (.txEnd f) = s1 at h
  split
  · exact h
  · split
    · split
      · exact h.trans ((Tq.of (v' := tv { s1 with state := .idle }) rfl).trans (tq_sched _ _ .turn rfl))
      · exact h.trans ((Tq.of (v' := tv { s1 with state := .idle }) rfl).trans (tq_sched _ _ .sendAck rfl))
    · exact h.trans (.of rfl)

theorem tq_receivePacket (s : St) : Tq (tv s) (tv (receivePacket s)) := by
  unfold Ap.receivePacket
  dsimp only
  split
  · exact tq_cancelData s
  · exact tq_cancelData s
  · exact (tq_cancelData s).trans (.of rfl)

theorem tq_forwardIfNew (f : Frame) (s : St) : Tq (tv s) (tv (forwardIfNew f s)) := by
  unfold Ap.forwardIfNew
  dsimp only
  split
  · exact (Tq.of (v' := tv { s with seqList := (isNewSequence s.seqList f.src f.seq).2 }) rfl).trans (tq_emit _ _ (by simp))
  · exact .of rfl

theorem tx_receiveData (f : Frame) (s : St) : Tx c.takes (tv s) (tv (receiveData c me f s)) := by
  unfold Ap.receiveData
  dsimp only
  refine Tx.after ?_ (tq_forwardIfNew f _)
  have h : Tq (tv s) (tv { s with ackList := s.ackList ++ [ackFrame me s.nextId f], nextId := s.nextId + 1, state := .idle }) := .of rfl
  split
  · exact Tx.before (h.trans ((tq_cancelSector _).trans (.of rfl))) (tx_sendAck
      { ({ s with ackList := s.ackList ++ [ackFrame me s.nextId f], nextId := s.nextId + 1, state := .idle } : St).cancel s.sectorEv with
        state := .waitTx })
  · exact .inl h

theorem tx_receivePacketDone (f : Frame) (ok : Bool) (p : ℚ) (s : St) : Tx c.takes (tv s) (tv (receivePacketDone c me f ok p s)) := by
  unfold Ap.receivePacketDone
  dsimp only
  split
  · exact .inl (.of rfl)
  · have h : Tq (tv s) (tv (({ s with state := .idle } : St).emit (.rx f p))) := .of (tv_emit { s with state := .idle } _ (by simp))
    split
    · exact .inl (h.trans (.of rfl))
    · exact Tx.before h (tx_receiveData f _)
    · exact .inl h

theorem pend_unique {s : St} (ok : Ok (tv s)) {t : Nat} {due : ℤ} {e : Ev} (hm : (t, due, e) ∈ s.pend) :
    s.pend.find? (fun e => e.1 = t) = some (t, due, e) := by
  have hn : (s.pend.map (·.1)).Nodup := by
    have := ok.uniq
    simp only [tv, List.map_map] at this
    exact this
  cases hf : s.pend.find? (fun e => e.1 = t) with
  | none =>
    have := List.find?_eq_none.1 hf _ hm
    simp at this
  | some x =>
    have h1 := List.mem_of_find?_eq_some hf
    have h2 : x.1 = t := by simpa using List.find?_some hf
    rw [List.inj_on_of_nodup_map hn h1 hm h2]

/-- A due event that is not the end of a transmission. -/
theorem tx_fire {s : St} (ok : Ok (tv s)) {t : Nat} {due : ℤ} {e : Ev} (hm : (t, due, e) ∈ s.pend) (he : e.tx = none) (hd : due ≤ s.now) :
    Tx c.takes (tv s) (tv (fire c me t s)) := by
  unfold Ap.fire
  rw [pend_unique ok hm]
  dsimp only
  have h : Tq (tv s) (tv { s with pend := s.pend.filter (fun e => e.1 ≠ t), now := max s.now due }) := by
    refine .take (t := t) (due := due) (List.mem_map.2 ⟨_, hm, by rw [he]⟩) (by show max s.now due = s.now; omega) rfl rfl ?_ rfl rfl
    simp only [tv, List.filter_map]; rfl
  generalize ({ s with pend := s.pend.filter (fun e => e.1 ≠ t), now := max s.now due } : St) = s1 at h
  cases e with
  | turn => exact Tx.before h (tx_turn s1)
  | dataTimeout => exact Tx.before (h.trans (tq_cancelSector s1)) (tx_turn _)
  | waitTime => exact Tx.before h (tx_waitTime s1)
  | sectorTimeout => exact Tx.before h (tx_sectorTimeout s1)
  | sendCts d q u g => exact Tx.before (h.trans (.of (v' := tv { s1 with nextId := s1.nextId + 1 }) rfl)) (tx_sendPacket _ _)
  | sendAck => exact Tx.before h (tx_sendAck s1)
  | feedback a d => exact Tx.before (h.trans (.of (v' := tv { s1 with nextId := s1.nextId + 1 }) rfl)) (tx_sendPacket _ _)
  | phyDone f => cases he

/-- The end of a transmission. -/
theorem tq_firePhy {s : St} (ok : Ok (tv s)) {t : Nat} {due : ℤ} {f : Frame} (hm : (t, due, .phyDone f) ∈ s.pend) :
    Tq { tv s with pend := (tv s).pend.filter (fun e => e.1 ≠ t), now := max s.now due, phy := none } (tv (fire c me t s)) := by
  unfold Ap.fire
  rw [pend_unique ok hm]
  refine (Tq.of ?_).trans (tq_sendPacketDone f _)
  simp only [tv, List.filter_map]
  rfl

end Thz.Ap
