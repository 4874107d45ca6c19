import Verif.Macro
import Mathlib.Logic.Relation

/-!
# Micro-steps of the macro MAC

Proof machinery.  Every step of the macro MAC is a sequence of micro-steps on a view of the state that
forgets times; each micro-step says what changes and under which circumstances the code makes that change.
Invariants then need to be checked for micro-steps only.
-/

namespace Thz.Macro

open Thz
open Thz.Nano (Body Kind bcast)

/-- The part of the state that is not about time. -/
structure SV where
  seq : UInt16
  nextUid : Nat
  queue : List Pkt
  recs : List Rec
  pktData : Option Pkt
  pktTx : Option Frame
  phyTx : Option Frame
  ctsTO : List TO
  ackTO : List TO
  boEv : Option Nat
  seqList : SeqList Mac48
  pend : List (Nat × Ev)
  nextTid : Nat
  log : List Obs

/-- The view of a state. -/
def St.sv (s : St) : SV :=
  { seq := s.seq, nextUid := s.nextUid, queue := s.queue, recs := s.recs, pktData := s.pktData
    pktTx := s.pktTx, phyTx := s.phyTx, ctsTO := s.ctsTO, ackTO := s.ackTO, boEv := s.boEv
    seqList := s.seqList, pend := s.pend.map (fun e => (e.1, e.2.2)), nextTid := s.nextTid, log := s.log }

namespace SV

def push (v : SV) (e : Ev) : SV := { v with pend := v.pend ++ [(v.nextTid, e)], nextTid := v.nextTid + 1 }
def note (v : SV) (o : Obs) : SV := { v with log := v.log ++ [o] }
def drop (v : SV) (t : Nat) : SV := { v with pend := v.pend.filter (fun e => e.1 ≠ t) }
def hand (v : SV) (f : Frame) : SV :=
  (({ v with pktTx := some f, phyTx := some f }).push (.phyDone f)).note (.handed f)
def fwd (v : SV) (f : Frame) : SV :=
  let r := isNewSequence v.seqList f.src f.seq
  if r.1 then { v with seqList := r.2 }.note (.up f.body f.src f.dst f.seq) else { v with seqList := r.2 }

end SV

/-- Events that carry no obligation. -/
def Benign : Ev → Prop
  | .cca => True
  | .backoffStart => True
  | .granted => True
  | .results => True
  | _ => False

/-- Observations that carry no obligation. -/
def Plain : Obs → Prop
  | .row _ => True
  | .refused _ => True
  | .dropped _ => True
  | _ => False

/-- The packet was accepted. -/
def Known (v : SV) (p : Pkt) : Prop := Obs.accepted p ∈ v.log

/-- The packet comes from one of the MAC's own stores. -/
def Src (v : SV) (p : Pkt) : Prop :=
  p ∈ v.queue ∨ (∃ r ∈ v.recs, r.pkt = p) ∨ v.pktData = some p ∨ Known v p

/-- An intact RTS for this node was received from `d`. -/
def RtsOK (me : Mac48) (v : SV) (d : Mac48) (q : UInt16) : Prop :=
  ∃ f, Obs.rx f ∈ v.log ∧ f.kind = .rts ∧ f.dst = me ∧ f.src = d ∧ f.seq = q

/-- An intact DATA frame for this node was received from `d`. -/
def AckOK (me : Mac48) (v : SV) (d : Mac48) (q : UInt16) : Prop :=
  ∃ f, Obs.rx f ∈ v.log ∧ f.kind = .data ∧ f.dst = me ∧ f.src = d ∧ f.seq = q

/-- The reasons for reporting an outcome. -/
def DoneOK (me : Mac48) (v : SV) (ok : Bool) (q : UInt16) : Prop :=
  if ok then
    (∃ l1 f l2, v.log = l1 ++ Obs.rx f :: l2 ∧ f.kind = .ack ∧ f.dst = me ∧ f.seq = q ∧
      ∃ g, Obs.handed g ∈ l1 ∧ g.kind = .data ∧ g.seq = q) ∨
    (∃ f, Obs.handed f ∈ v.log ∧ f.kind = .data ∧ f.dst = bcast ∧ f.seq = q)
  else ∃ p k, Obs.timedOut p k ∈ v.log ∧ p.seq = q ∧ 5 ≤ k

/-- An attempt for this sequence number was made. -/
def Tried (v : SV) (q : UInt16) : Prop :=
  ∃ f, Obs.handed f ∈ v.log ∧ (f.kind = .rts ∨ f.kind = .data) ∧ f.seq = q

/-- Micro-steps.  `A` says which frames the PHY may report as received. -/
inductive Mi (c : Cfg) (me : Mac48) (A : Frame → Prop) : SV → SV → Prop
  | benign (v : SV) (e : Ev) : Benign e → Mi c me A v (v.push e)
  | bo (v : SV) : Mi c me A v { v.push .granted with boEv := some v.nextTid }
  | dropBo (v : SV) : Mi c me A v { v with pend := v.pend.filter (fun e => some e.1 ≠ v.boEv) }
  | note (v : SV) (o : Obs) : Plain o → Mi c me A v (v.note o)
  | rx (v : SV) (f : Frame) : A f → Mi c me A v (v.note (.rx f))
  | pktData (v : SV) (p : Pkt) : Src v p → Mi c me A v { v with pktData := some p }
  | accept (v : SV) (b : Body) (dst : Mac48) (g : UInt16) (t : ℤ) :
      ¬ (UInt16.ofNat b.size).toNat < minEnqueue →
      Mi c me A v
        ((({ v with
            seq := v.seq + 1, nextUid := v.nextUid + 1
            queue := v.queue ++ [⟨v.nextUid, v.seq + 1, dst, g, b⟩]
            recs := v.recs ++ [⟨v.seq + 1, t, UInt16.ofNat (b.size + 17), 0,
              ⟨v.nextUid, v.seq + 1, dst, g, b⟩⟩]
            pktData := some ⟨v.nextUid, v.seq + 1, dst, g, b⟩ } : SV).push .cca).note
          (.accepted ⟨v.nextUid, v.seq + 1, dst, g, b⟩))
  | handRts (v : SV) (p : Pkt) : v.queue.head? = some p → c.rts = true → p.dst ≠ bcast → v.phyTx = none →
      Mi c me A v { (v.hand (rtsFrame me p)).push (.ctsTimeout p.seq) with
        ctsTO := v.ctsTO ++ [⟨p.seq, v.nextTid + 1⟩] }
  | handData (v : SV) (p : Pkt) : (v.queue.head? = some p ∨ (c.rts = true ∧ Src v p)) → p.dst ≠ bcast →
      v.phyTx = none →
      Mi c me A v { (v.hand (dataFrame me p)).push (.ackTimeout p.seq) with
        ackTO := v.ackTO ++ [⟨p.seq, v.nextTid + 1⟩] }
  | handBcast (v : SV) (p : Pkt) : (v.queue.head? = some p ∨ (c.rts = true ∧ Src v p)) → p.dst = bcast →
      v.phyTx = none → Mi c me A v (v.hand (dataFrame me p))
  | handCts (v : SV) (d : Mac48) (t : ℤ) (q : UInt16) : RtsOK me v d q → v.phyTx = none →
      Mi c me A v (v.hand (ctsFrame c me d t q))
  | handAck (v : SV) (d : Mac48) (q : UInt16) : AckOK me v d q → v.phyTx = none →
      Mi c me A v (v.hand (ackFrame me d q))
  | txEnd (v : SV) (t : Nat) (f : Frame) : (t, Ev.phyDone f) ∈ v.pend →
      Mi c me A v ({ v.drop t with phyTx := none }.note (.txEnd f))
  | pop (v : SV) (t : Nat) (e : Ev) : (t, e) ∈ v.pend → (∀ f, e ≠ .phyDone f) → Mi c me A v (v.drop t)
  | settle (v : SV) (ok : Bool) (q : UInt16) (pre : List Rec) (r : Rec) (rest : List Rec) :
      v.recs = pre ++ r :: rest → r.seq = q → DoneOK me v ok q → (ok = true → v.queue ≠ []) →
      Mi c me A v (({ v.push .results with
          queue := if ok then v.queue.filter (fun p => p.uid ≠ r.pkt.uid) else v.queue
          recs := pre ++ rest } : SV).note (.done ok r.pkt))
  | charge (v : SV) (q : UInt16) (pre : List Rec) (r : Rec) (rest : List Rec) :
      v.recs = pre ++ r :: rest → r.seq = q → r.retry + 1 < 5 → Tried v q →
      Mi c me A v ((({ v with recs := pre ++ { r with retry := r.retry + 1 } :: rest } : SV).note
        (.timedOut r.pkt (r.retry + 1))).push .cca)
  | giveUp (v : SV) (q : UInt16) (pre : List Rec) (r : Rec) (rest : List Rec) :
      v.recs = pre ++ r :: rest → r.seq = q → 5 ≤ r.retry + 1 → Tried v q →
      Mi c me A v ((({ v with
          recs := pre ++ { r with retry := r.retry + 1 } :: rest
          queue := v.queue.filter (fun p => p.uid ≠ r.pkt.uid) } : SV).note
        (.timedOut r.pkt (r.retry + 1))).push (.sendDataDone false q))
  | eraseCts (v : SV) (q : UInt16) : Mi c me A v { v with ctsTO := v.ctsTO.eraseP (fun t => t.seq = q) }
  | eraseAck (v : SV) (q : UInt16) : Mi c me A v { v with ackTO := v.ackTO.eraseP (fun t => t.seq = q) }
  | cts (v : SV) (d : Mac48) (t : ℤ) (q : UInt16) : RtsOK me v d q → Mi c me A v (v.push (.sendCts d t q))
  | ack (v : SV) (d : Mac48) (q : UInt16) : AckOK me v d q → Mi c me A v (v.push (.sendAck d q))
  | ackIn (v : SV) (t : TO) (q : UInt16) : v.ackTO.find? (fun t => t.seq = q) = some t →
      DoneOK me v true q →
      Mi c me A v { (v.drop t.tid).push (.sendDataDone true q) with
        ackTO := v.ackTO.eraseP (fun t => t.seq = q) }
  | ctsIn (v : SV) (t : TO) (p : Pkt) (q : UInt16) : v.ctsTO.find? (fun t => t.seq = q) = some t →
      v.pktData = some p →
      Mi c me A v { (v.drop t.tid).push (.sendData p) with
        ctsTO := v.ctsTO.eraseP (fun t => t.seq = q) }
  | fwd (v : SV) (f : Frame) : Obs.rx f ∈ v.log → f.kind = .data → (f.dst = me ∨ f.dst = bcast) →
      Mi c me A v (v.fwd f)

/-- Sequences of micro-steps. -/
abbrev Mis (c : Cfg) (me : Mac48) (A : Frame → Prop) : SV → SV → Prop := Relation.ReflTransGen (Mi c me A)

variable {c : Cfg} {me : Mac48} {A : Frame → Prop}

theorem Mis.one {v w : SV} (h : Mi c me A v w) : Mis c me A v w := .single h

theorem Mis.rfl' {v w : SV} (h : w = v) : Mis c me A v w := h ▸ .refl

/-! ## What the helper functions do to the view -/

theorem sv_emit (s : St) (o : Obs) : (s.emit o).sv = s.sv.note o := rfl

theorem sv_sched (s : St) (d : ℤ) (e : Ev) : (s.sched d e).sv = s.sv.push e := by
  simp [St.sv, St.sched, SV.push]

theorem sv_schedCca (s : St) (d : ℤ) (e : Ev) : (s.schedCca d e).sv = s.sv.push e := by
  simp [St.sv, St.sched, St.schedCca, SV.push]

theorem filter_map_tid (l : List (Nat × ℤ × Ev)) (t : Nat) :
    (l.filter (fun e => e.1 ≠ t)).map (fun e => (e.1, e.2.2))
      = (l.map (fun e => (e.1, e.2.2))).filter (fun e => e.1 ≠ t) := by
  rw [List.filter_map]; rfl

theorem sv_cancel (s : St) (t : Nat) : (s.cancel t).sv = s.sv.drop t := by
  show ({ s with pend := s.pend.filter (fun e => e.1 ≠ t) } : St).sv = _
  unfold St.sv SV.drop
  rw [filter_map_tid]

theorem mis_cca (s : St) : Mis c me A s.sv (cca c s).sv := by
  unfold cca
  split
  · exact .refl
  · split
    · rw [sv_schedCca]; exact Mis.one (.benign _ _ trivial)
    · split
      · rw [sv_schedCca]; exact Mis.one (.benign _ _ trivial)
      · rw [sv_schedCca]; exact Mis.one (.benign _ _ trivial)

theorem mis_backoffStart (s : St) : Mis c me A s.sv (backoffStart c s).sv := by
  unfold backoffStart
  dsimp only
  have h : (drawBackoff c s).sv = s.sv := by unfold drawBackoff; split <;> rfl
  split
  · rw [sv_schedCca, h]; exact Mis.one (.benign _ _ trivial)
  · have := Mi.bo (c := c) (me := me) (A := A) (drawBackoff c s).sv
    rw [h] at this
    refine Mis.one ?_
    convert this using 1
    show ({ (drawBackoff c s).sched _ .granted with boEv := some (drawBackoff c s).nextTid } : St).sv = _
    have h2 := sv_sched (drawBackoff c s) (drawBackoff c s).boRemain .granted
    rw [h] at h2
    have h3 : ({ (drawBackoff c s).sched (drawBackoff c s).boRemain .granted with
        boEv := some (drawBackoff c s).nextTid } : St).sv
        = { ((drawBackoff c s).sched (drawBackoff c s).boRemain .granted).sv with
            boEv := some (drawBackoff c s).sv.nextTid } := rfl
    rw [h3, h2, h]

theorem mis_busy (s : St) : Mis c me A s.sv (channelBecomesBusy c s).sv := by
  unfold channelBecomesBusy
  split
  · have h : Mi c me A s.sv ({ s with
        pend := s.pend.filter (fun e => some e.1 ≠ s.boEv), boRemain := residual c s } : St).sv := by
      have := Mi.dropBo (c := c) (me := me) (A := A) s.sv
      convert this using 1
      unfold St.sv
      simp only [List.filter_map]
      rfl
    exact (Mis.one h).trans (mis_cca _)
  · exact mis_cca s

theorem sv_updateNav (d : ℤ) (s : St) : (updateNav c d s).sv = s.sv := by
  unfold updateNav; split <;> rfl

theorem mis_startOver (s : St) : Mis c me A s.sv (startOver c s).sv :=
  mis_cca (c := c) (me := me) (A := A) { s with boStart := 0, boRemain := 0 }

/-- `SendPacket` either hands the frame over, or changes nothing but the log. -/
theorem sv_sendPacket (f : Frame) (s : St) :
    ((sendPacket c f s).1 = true ∧ s.phyTx = none ∧ (sendPacket c f s).2.sv = s.sv.hand f) ∨
    ((sendPacket c f s).1 = false ∧ Mis c me A s.sv (sendPacket c f s).2.sv) := by
  unfold sendPacket
  split
  · split
    · rename_i h
      left
      refine ⟨rfl, h, ?_⟩
      rw [sv_emit, sv_sched]; rfl
    · right
      exact ⟨rfl, Mis.one (.note _ _ trivial)⟩
  · right; exact ⟨rfl, .refl⟩

theorem mis_sendRts (p : Pkt) (s : St) (hh : s.queue.head? = some p) (hr : c.rts = true)
    (hb : p.dst ≠ bcast) : Mis c me A s.sv (sendRts c me p s).sv := by
  unfold sendRts
  have h := sv_sendPacket (c := c) (me := me) (A := A) (rtsFrame me p) s
  rcases h with ⟨h1, h2, h3⟩ | ⟨h1, h2⟩
  · split
    · rename_i s' e
      rw [e] at h3
      refine Mis.one ?_
      convert Mi.handRts (c := c) (me := me) (A := A) s.sv p hh hr hb h2 using 1
      have h4 := sv_sched (updateLocalNav c (ctsTimeoutDur c) s') (ctsTimeoutDur c) (.ctsTimeout p.seq)
      have h5 : (updateLocalNav c (ctsTimeoutDur c) s').sv = s'.sv := rfl
      rw [h5, h3] at h4
      have h6 : s'.nextTid = s.nextTid + 1 := congrArg SV.nextTid h3
      have h7 : s'.ctsTO = s.ctsTO := congrArg SV.ctsTO h3
      have h8 : ({ (updateLocalNav c (ctsTimeoutDur c) s').sched (ctsTimeoutDur c) (.ctsTimeout p.seq) with
          ctsTO := (updateLocalNav c (ctsTimeoutDur c) s').ctsTO ++
            [⟨p.seq, (updateLocalNav c (ctsTimeoutDur c) s').nextTid⟩] } : St).sv
          = { ((updateLocalNav c (ctsTimeoutDur c) s').sched (ctsTimeoutDur c) (.ctsTimeout p.seq)).sv with
            ctsTO := s'.ctsTO ++ [⟨p.seq, s'.nextTid⟩] } := rfl
      rw [h8, h4, h6, h7]
      rfl
    · rename_i s' e
      rw [e] at h1; cases h1
  · split
    · rename_i s' e
      rw [e] at h1; cases h1
    · rename_i s' e
      rw [e] at h2
      exact h2.trans (mis_startOver _)

theorem mis_sendData (p : Pkt) (s : St)
    (hh : s.queue.head? = some p ∨ (c.rts = true ∧ Src s.sv p)) :
    Mis c me A s.sv (sendData c me p s).sv := by
  unfold sendData
  split
  · exact .refl
  · have hs : Src s.sv p := by
      rcases hh with h | h
      · exact .inl (List.mem_of_mem_head? h)
      · exact h.2
    have h0 : Mis c me A s.sv ({ s with pktData := some p } : St).sv := Mis.one (.pktData s.sv p hs)
    have hh1 : ({ s with pktData := some p } : St).sv.queue.head? = some p
        ∨ (c.rts = true ∧ Src ({ s with pktData := some p } : St).sv p) := by
      rcases hh with h | h
      · exact .inl h
      · exact .inr ⟨h.1, .inr (.inr (.inl rfl))⟩
    have h := sv_sendPacket (c := c) (me := me) (A := A) (dataFrame me p) { s with pktData := some p }
    rcases h with ⟨h1, h2, h3⟩ | ⟨h1, h2⟩
    · split
      · rename_i s' e
        rw [e] at h3
        refine h0.trans ?_
        split
        · rename_i hb
          refine Mis.one ?_
          convert Mi.handBcast (c := c) (me := me) (A := A) _ p hh1 hb h2 using 1
          exact h3
        · rename_i hb
          refine Mis.one ?_
          convert Mi.handData (c := c) (me := me) (A := A) _ p hh1 hb h2 using 1
          have h4 := sv_sched (updateLocalNav c (ackTimeoutDur c p) s') (ackTimeoutDur c p) (.ackTimeout p.seq)
          have h5 : (updateLocalNav c (ackTimeoutDur c p) s').sv = s'.sv := rfl
          rw [h5, h3] at h4
          have h6 : s'.nextTid = s.nextTid + 1 := congrArg SV.nextTid h3
          have h7 : s'.ackTO = s.ackTO := congrArg SV.ackTO h3
          have h8 : ({ (updateLocalNav c (ackTimeoutDur c p) s').sched (ackTimeoutDur c p) (.ackTimeout p.seq)
              with ackTO := (updateLocalNav c (ackTimeoutDur c p) s').ackTO ++
                [⟨p.seq, (updateLocalNav c (ackTimeoutDur c p) s').nextTid⟩] } : St).sv
              = { ((updateLocalNav c (ackTimeoutDur c p) s').sched (ackTimeoutDur c p)
                  (.ackTimeout p.seq)).sv with
                ackTO := s'.ackTO ++ [⟨p.seq, s'.nextTid⟩] } := rfl
          rw [h8, h4, h6, h7]
          rfl
      · rename_i s' e
        rw [e] at h1; cases h1
    · split
      · rename_i s' e
        rw [e] at h1; cases h1
      · rename_i s' e
        rw [e] at h2
        exact (h0.trans h2).trans (mis_startOver _)

theorem mis_granted (s : St) : Mis c me A s.sv (granted c me s).sv := by
  unfold granted
  split
  · exact .refl
  · rename_i p l hq
    dsimp only
    have h0 : Mis c me A s.sv
        ({ s with boStart := 0, boRemain := 0, pktData := some p, state := .waitTx } : St).sv :=
      Mis.one (.pktData s.sv p (.inl (by show p ∈ s.queue; rw [hq]; exact List.mem_cons_self)))
    have hh : ({ s with boStart := 0, boRemain := 0, pktData := some p, state := .waitTx } : St).queue.head?
        = some p := by show s.queue.head? = some p; rw [hq]; rfl
    split
    · rename_i h
      exact h0.trans (mis_sendRts p _ hh h.2 h.1)
    · exact h0.trans (mis_sendData p _ (.inl hh))

theorem mis_enqueue (b : Body) (d : Mac48) (g : UInt16) (s : St) :
    Mis c me A s.sv (enqueue c b d g s).2.sv := by
  unfold enqueue
  split
  · exact Mis.one (.note _ _ trivial)
  · rename_i h
    refine Mis.one ?_
    convert Mi.accept (c := c) (me := me) (A := A) s.sv b d g s.now h using 1
    dsimp only
    rw [sv_emit, sv_sched]
    rfl

theorem DoneOK.mono {v w : SV} {ok : Bool} {q : UInt16} (h : DoneOK me v ok q)
    (hl : ∃ l, w.log = v.log ++ l) : DoneOK me w ok q := by
  obtain ⟨l, hl⟩ := hl
  unfold DoneOK at h ⊢
  rw [hl]
  cases ok
  · obtain ⟨p, k, h1, h2, h3⟩ := h
    exact ⟨p, k, List.mem_append_left _ h1, h2, h3⟩
  · rcases h with ⟨l1, f, l2, h1, h2⟩ | ⟨f, h1, h2⟩
    · exact .inl ⟨l1, f, l2 ++ l, by rw [h1]; simp, h2⟩
    · exact .inr ⟨f, List.mem_append_left _ h1, h2⟩

theorem mis_doneLoop (ok : Bool) (q : UInt16) (pre rest : List Rec) (s : St) (hd : DoneOK me s.sv ok q) :
    Mis c me A { s.sv with recs := pre ++ rest } (doneLoop ok q pre rest s).sv := by
  induction pre, rest, s using doneLoop.induct (ok := ok) (seq := q) with
  | case1 pre s =>
    unfold doneLoop
    exact .rfl' (by simp [St.sv])
  | case2 pre r rest s h h2 =>
    unfold doneLoop; rw [if_pos h, if_pos h2]
    refine Mis.one ?_
    convert Mi.benign (c := c) (me := me) (A := A) { s.sv with recs := pre ++ r :: rest } .results trivial using 1
    simp [St.sv, St.sched, SV.push]
  | case3 pre r s h h2 =>
    unfold doneLoop; rw [if_pos h, if_neg h2]
    refine Mis.one ?_
    have hq : ok = true → s.queue ≠ [] := fun h' h'' => h2 ⟨h', h''⟩
    convert Mi.settle (c := c) (me := me) (A := A) { s.sv with recs := pre ++ [r] } ok q pre r [] rfl h hd hq using 1
    unfold settle
    cases ok <;> simp [St.sv, St.sched, SV.push, SV.note, St.emit]
  | case4 pre r s h h2 r' rest' ih =>
    unfold doneLoop; rw [if_pos h, if_neg h2]
    have hq : ok = true → s.queue ≠ [] := fun h' h'' => h2 ⟨h', h''⟩
    have hm := Mi.settle (c := c) (me := me) (A := A) { s.sv with recs := pre ++ r :: r' :: rest' } ok q pre r
      (r' :: rest') rfl h hd hq
    have he : (({ ({ s.sv with recs := pre ++ r :: r' :: rest' } : SV).push .results with
          queue := if ok then s.queue.filter (fun p => p.uid ≠ r.pkt.uid) else s.queue
          recs := pre ++ r' :: rest' } : SV).note (.done ok r.pkt))
        = { (settle ok r s).sv with recs := (pre ++ [r']) ++ rest' } := by
      unfold settle
      cases ok <;> simp [St.sv, St.sched, SV.push, SV.note, St.emit]
    have hd' : DoneOK me (settle ok r s).sv ok q := by
      refine hd.mono ?_
      unfold settle
      cases ok <;> exact ⟨_, rfl⟩
    have := ih hd'
    rw [← he] at this
    exact (Mis.one hm).trans this
  | case5 pre r rest s h ih =>
    unfold doneLoop; rw [if_neg h]
    have := ih hd
    rwa [List.append_assoc] at this

theorem mis_sendDataDone (ok : Bool) (q : UInt16) (s : St) (hd : DoneOK me s.sv ok q) :
    Mis c me A s.sv (sendDataDone ok q s).sv :=
  mis_doneLoop ok q [] s.recs s hd

theorem mis_results (s : St) : Mis c me A s.sv (resultsRecord s).sv := by
  unfold resultsRecord
  split
  · exact .refl
  · exact Mis.one (.note _ _ trivial)

theorem Tried.mono {v w : SV} {q : UInt16} (h : Tried v q) (hl : ∀ o ∈ v.log, o ∈ w.log) : Tried w q := by
  obtain ⟨f, h1, h2⟩ := h
  exact ⟨f, hl _ h1, h2⟩

/-- The record loop of the timeouts as a sequence of single charges. -/
theorem mis_chargeLoop (q : UInt16) (rest : List Rec) :
    ∀ (pre : List Rec) (s : St), Tried s.sv q →
    Mis c me A { s.sv with recs := pre ++ rest }
      { (((rest.map (Rec.bump q)).filter (fun r => r.seq = q)).foldl (fun s r => charge c r s) s).sv with
        recs := pre ++ rest.map (Rec.bump q) } := by
  induction rest with
  | nil => intro pre s _; exact .refl
  | cons r rest ih =>
    intro pre s ht
    by_cases h : r.seq = q
    · have hb : Rec.bump q r = { r with retry := r.retry + 1 } := by unfold Rec.bump; rw [if_pos h]
      have hf : ((r :: rest).map (Rec.bump q)).filter (fun r => r.seq = q)
          = { r with retry := r.retry + 1 } :: (rest.map (Rec.bump q)).filter (fun r => r.seq = q) := by
        rw [List.map_cons, hb, List.filter_cons, if_pos (by simpa using h)]
      rw [hf, List.foldl_cons]
      set s' := charge c { r with retry := r.retry + 1 } s with hs'
      have hl : ∀ o ∈ s.log, o ∈ s'.log := by
        intro o ho
        rw [hs']; unfold charge backoff
        dsimp only
        split <;> simp [St.sched, St.emit, ho]
      have := ih (pre ++ [{ r with retry := r.retry + 1 }]) s' (ht.mono hl)
      rw [List.append_assoc, List.append_assoc] at this
      rw [List.map_cons, hb]
      refine Relation.ReflTransGen.trans (Mis.one ?_) this
      by_cases h5 : r.retry + 1 ≥ 5
      · convert Mi.giveUp (c := c) (me := me) (A := A) { s.sv with recs := pre ++ r :: rest } q pre r rest rfl h h5 ht
          using 1
        rw [hs']; unfold charge
        dsimp only
        rw [if_pos h5]
        simp [St.sv, St.sched, SV.push, SV.note, St.emit, h]
      · have h5' : r.retry + 1 < 5 := by simpa using h5
        convert Mi.charge (c := c) (me := me) (A := A) { s.sv with recs := pre ++ r :: rest } q pre r rest rfl h h5' ht
          using 1
        rw [hs']; unfold charge backoff
        dsimp only
        rw [if_neg h5]
        simp [St.sv, St.sched, SV.push, SV.note, St.emit]
    · have hb : Rec.bump q r = r := by unfold Rec.bump; rw [if_neg h]
      have hf : ((r :: rest).map (Rec.bump q)).filter (fun r => r.seq = q)
          = (rest.map (Rec.bump q)).filter (fun r => r.seq = q) := by
        rw [List.map_cons, hb, List.filter_cons, if_neg (by simpa using h)]
      rw [hf, List.map_cons, hb]
      have := ih (pre ++ [r]) s ht
      rw [List.append_assoc, List.append_assoc] at this
      exact this

theorem recs_charge (r : Rec) (s : St) : (charge c r s).recs = s.recs := by
  unfold charge backoff; dsimp only; split <;> rfl

theorem recs_foldl_charge (l : List Rec) (s : St) :
    (l.foldl (fun s r => charge c r s) s).recs = s.recs := by
  induction l generalizing s with
  | nil => rfl
  | cons r l ih => rw [List.foldl_cons, ih, recs_charge]

/-- Changing the records commutes with charging. -/
theorem charge_recs (r : Rec) (s : St) (x : List Rec) :
    charge c r { s with recs := x } = { charge c r s with recs := x } := by
  unfold charge backoff; dsimp only; split <;> rfl

theorem foldl_charge_recs (l : List Rec) (s : St) (x : List Rec) :
    l.foldl (fun s r => charge c r s) { s with recs := x }
      = { l.foldl (fun s r => charge c r s) s with recs := x } := by
  induction l generalizing s with
  | nil => rfl
  | cons r l ih => rw [List.foldl_cons, List.foldl_cons, charge_recs, ih]

theorem mis_timeoutLoop (q : UInt16) (s : St) (ht : Tried s.sv q) :
    Mis c me A s.sv (timeoutLoop c q s).sv := by
  unfold timeoutLoop
  have h := mis_chargeLoop (c := c) (me := me) (A := A) q s.recs [] { s with state := .idle } ht
  have h2 := foldl_charge_recs (c := c) ((s.recs.map (Rec.bump q)).filter (fun r => r.seq = q))
    { s with state := .idle } (s.recs.map (Rec.bump q))
  have h3 : ({ ({ s with state := .idle } : St) with recs := s.recs.map (Rec.bump q) } : St)
    = { s with state := .idle, recs := s.recs.map (Rec.bump q) } := rfl
  rw [h3] at h2
  rw [h2]
  exact h

theorem mis_sendCts (d : Mac48) (t : ℤ) (q : UInt16) (s : St) (h : RtsOK me s.sv d q) :
    Mis c me A s.sv (sendCts c me d t q s).sv := by
  unfold sendCts
  rcases sv_sendPacket (c := c) (me := me) (A := A) (ctsFrame c me d t q) s with ⟨h1, h2, h3⟩ | ⟨h1, h2⟩
  · split
    · rename_i s' e
      rw [e] at h3
      refine Mis.one ?_
      convert Mi.handCts (c := c) (me := me) (A := A) s.sv d t q h h2 using 1
      exact h3
    · rename_i s' e
      rw [e] at h1; cases h1
  · split
    · rename_i s' e
      rw [e] at h1; cases h1
    · rename_i s' e
      rw [e] at h2; exact h2

theorem mis_sendAck (d : Mac48) (q : UInt16) (s : St) (h : AckOK me s.sv d q) :
    Mis c me A s.sv (sendAck c me d q s).sv := by
  unfold sendAck
  rcases sv_sendPacket (c := c) (me := me) (A := A) (ackFrame me d q)
    (updateLocalNav c (c.ctrlDur .ack + c.tProp + c.slot) s) with ⟨h1, h2, h3⟩ | ⟨h1, h2⟩
  · rw [h3]
    exact Mis.one (Mi.handAck (c := c) (me := me) (A := A) s.sv d q h h2)
  · exact h2

theorem sv_forward (f : Frame) (s : St) : (forwardIfNew f s).sv = s.sv.fwd f := by
  unfold forwardIfNew SV.fwd
  dsimp only
  split
  · rename_i h; rw [if_pos (by exact h)]; rfl
  · rename_i h; rw [if_neg (by exact h)]; rfl

theorem mis_receiveRts (f : Frame) (g : UInt16) (s : St) (hr : Obs.rx f ∈ s.log) (hk : f.kind = .rts) :
    Mis c me A s.sv (receiveRts c me f g s).sv := by
  unfold receiveRts
  split
  · have h : ({ updateNav c (durOf c g) s with state := .idle } : St).sv = s.sv :=
      sv_updateNav (c := c) (durOf c g) s
    have := mis_cca (c := c) (me := me) (A := A) { updateNav c (durOf c g) s with state := .idle }
    rwa [h] at this
  · rename_i hd
    split
    · exact mis_cca s
    · rw [sv_sched]
      refine Mis.one (Mi.cts (c := c) (me := me) (A := A) s.sv f.src (durOf c g) f.seq
        ⟨f, hr, hk, ?_, rfl, rfl⟩)
      simpa using hd

theorem src_findPkt (q : UInt16) (l : List Rec) (o : Option Pkt) (p : Pkt) (h : findPkt q l o = some p) :
    (∃ r ∈ l, r.pkt = p) ∨ (l = [] ∧ o = some p) := by
  induction l generalizing o with
  | nil => exact .inr ⟨rfl, h⟩
  | cons r l ih =>
    unfold findPkt at h
    split at h
    · exact .inl ⟨r, List.mem_cons_self, Option.some.inj h⟩
    · rcases ih _ h with ⟨r', h1, h2⟩ | ⟨_, h2⟩
      · exact .inl ⟨r', List.mem_cons_of_mem _ h1, h2⟩
      · exact .inl ⟨r, List.mem_cons_self, Option.some.inj h2⟩

theorem mis_receiveCts (f : Frame) (s : St) : Mis c me A s.sv (receiveCts c me f s).sv := by
  unfold receiveCts
  split
  · have h : ({ updateNav c (durOf c f.dur) s with state := .idle } : St).sv = s.sv :=
      sv_updateNav (c := c) (durOf c f.dur) s
    have := mis_cca (c := c) (me := me) (A := A) { updateNav c (durOf c f.dur) s with state := .idle }
    rwa [h] at this
  · dsimp only
    set s1 : St := updateLocalNav c (durOf c f.dur) { s with pktData := findPkt f.seq s.recs s.pktData }
      with hs1
    have h0 : Mis c me A s.sv s1.sv := by
      cases hp : findPkt f.seq s.recs s.pktData with
      | none =>
        refine .rfl' ?_
        have : s.pktData = none := by
          cases hr : s.recs with
          | nil => rw [hr] at hp; exact hp
          | cons r l =>
            exfalso
            rw [hr] at hp
            have : ∀ (l : List Rec) (x : Pkt), findPkt f.seq l (some x) ≠ none := by
              intro l
              induction l with
              | nil => intro x; simp [findPkt]
              | cons r l ih => intro x; unfold findPkt; split
                               · simp
                               · exact ih _
            unfold findPkt at hp
            split at hp
            · cases hp
            · exact this _ _ hp
        rw [this] at hp
        rw [hs1]
        simp only [St.sv, updateLocalNav, hp, this]
      | some p =>
        refine Mis.one ?_
        convert Mi.pktData (c := c) (me := me) (A := A) s.sv p ?_ using 1
        · rw [hs1]; simp [St.sv, updateLocalNav, hp]
        · rcases src_findPkt _ _ _ _ hp with h | h
          · exact .inr (.inl h)
          · exact .inr (.inr (.inl h.2))
    refine h0.trans ?_
    split
    · rename_i t p ht hp
      refine Mis.one ?_
      convert Mi.ctsIn (c := c) (me := me) (A := A) s1.sv t p f.seq ht hp using 1
      have h1 := sv_sched ({ s1.cancel t.tid with state := .waitTx } : St) (c.ps 1) (.sendData p)
      have h2 : ({ s1.cancel t.tid with state := .waitTx } : St).sv = s1.sv.drop t.tid := sv_cancel s1 t.tid
      rw [h2] at h1
      rw [← h1]
      rfl
    · exact .refl

theorem mis_receiveData (f : Frame) (s : St) (hr : Obs.rx f ∈ s.log) (hk : f.kind = .data) :
    Mis c me A s.sv (receiveData c me f s).sv := by
  unfold receiveData
  split
  · rename_i hb
    have h1 : Mis c me A s.sv (forwardIfNew f { s with state := .idle }).sv := by
      rw [sv_forward]
      exact Mis.one (.fwd s.sv f hr hk (.inr hb))
    exact h1.trans (mis_cca _)
  · split
    · have h : ({ updateNav c (durOf c f.dur) s with state := .idle } : St).sv = s.sv :=
        sv_updateNav (c := c) (durOf c f.dur) s
      have := mis_cca (c := c) (me := me) (A := A) { updateNav c (durOf c f.dur) s with state := .idle }
      rwa [h] at this
    · rename_i hd
      have hd' : f.dst = me := by simpa using hd
      rw [sv_forward, sv_sched]
      have h1 : Mis c me A s.sv (s.sv.push (.sendAck f.src f.seq)) :=
        Mis.one (.ack s.sv f.src f.seq ⟨f, hr, hk, hd', rfl, rfl⟩)
      exact h1.trans (Mis.one (.fwd _ f hr hk (.inl hd')))

theorem mis_receiveAck (f : Frame) (s : St) (l : List Obs) (hr : s.log = l ++ [Obs.rx f]) (hk : f.kind = .ack)
    (ha : ∀ t ∈ s.ackTO, ∃ g, Obs.handed g ∈ l ∧ g.kind = .data ∧ g.seq = t.seq) :
    Mis c me A s.sv (receiveAck c me f s).sv := by
  unfold receiveAck
  dsimp only
  split
  · rename_i hd
    split
    · rename_i t ht
      refine Mis.one ?_
      have hok : DoneOK me s.sv true f.seq := by
        obtain ⟨g, h1, h2, h3⟩ := ha t (List.mem_of_find?_eq_some ht)
        have h4 : t.seq = f.seq := by simpa using List.find?_some ht
        unfold DoneOK; rw [if_pos rfl]
        exact .inl ⟨l, f, [], hr, hk, hd, rfl, g, h1, h2, h3.trans h4⟩
      convert Mi.ackIn (c := c) (me := me) (A := A) s.sv t f.seq ht hok using 1
      have h1 := sv_sched (({ s with state := .idle } : St).cancel t.tid) (c.ps 1) (.sendDataDone true f.seq)
      have h2 : (({ s with state := .idle } : St).cancel t.tid).sv = s.sv.drop t.tid :=
        sv_cancel { s with state := .idle } t.tid
      rw [h2] at h1
      rw [← h1]
      rfl
    · exact mis_cca (c := c) (me := me) (A := A) { s with state := .idle }
  · exact mis_cca (c := c) (me := me) (A := A) { s with state := .idle }

theorem mis_receivePacket (s : St) : Mis c me A s.sv (receivePacket c s).sv := by
  unfold receivePacket
  dsimp only
  split
  · exact mis_busy s
  · exact mis_busy s

theorem mis_receivePacketDone (f : Frame) (ok : Bool) (g : UInt16) (s : St) (hA : ok = true → A f)
    (ha : ∀ t ∈ s.ackTO, ∃ g, Obs.handed g ∈ s.log ∧ g.kind = .data ∧ g.seq = t.seq) :
    Mis c me A s.sv (receivePacketDone c me f ok g s).sv := by
  unfold receivePacketDone
  dsimp only
  split
  · exact .refl
  · rename_i hok
    set s1 : St := ({ s with state := .idle } : St).emit (.rx f) with hs1
    have h0 : Mis c me A s.sv s1.sv := Mis.one (.rx s.sv f (hA (by simpa using hok)))
    have hr : Obs.rx f ∈ s1.log := by rw [hs1]; simp [St.emit]
    split
    · rename_i hk; exact h0.trans (mis_receiveRts f g s1 hr hk)
    · exact h0.trans (mis_receiveCts f s1)
    · rename_i hk; exact h0.trans (mis_receiveData f s1 hr hk)
    · rename_i hk; exact h0.trans (mis_receiveAck f s1 s.log rfl hk ha)
    · exact h0.trans (mis_cca s1)

/-! ## Pending events are justified -/

/-- Why an event may be pending. -/
def EvOK (c : Cfg) (me : Mac48) (v : SV) : Ev → Prop
  | .ctsTimeout q => Tried v q
  | .ackTimeout q => Tried v q
  | .sendCts d _ q => RtsOK me v d q
  | .sendData p => c.rts = true ∧ Known v p
  | .sendAck d q => AckOK me v d q
  | .sendDataDone ok q => DoneOK me v ok q
  | .phyDone f => Obs.handed f ∈ v.log
  | _ => True

theorem EvOK.mono {v w : SV} {e : Ev} (h : EvOK c me v e) (hx : ∃ l, w.log = v.log ++ l) : EvOK c me w e := by
  have hl : ∀ o ∈ v.log, o ∈ w.log := by
    obtain ⟨l, hl⟩ := hx
    intro o ho
    rw [hl]; exact List.mem_append_left _ ho
  cases e with
  | ctsTimeout q => exact Tried.mono h hl
  | ackTimeout q => exact Tried.mono h hl
  | sendCts d t q => obtain ⟨f, h1, h2⟩ := h; exact ⟨f, hl _ h1, h2⟩
  | sendData p => exact ⟨h.1, hl _ h.2⟩
  | sendAck d q => obtain ⟨f, h1, h2⟩ := h; exact ⟨f, hl _ h1, h2⟩
  | sendDataDone ok q => exact DoneOK.mono h hx
  | phyDone f => exact hl _ h
  | cca => trivial
  | backoffStart => trivial
  | granted => trivial
  | results => trivial

/-- The log only grows. -/
theorem Mi.log {v w : SV} (h : Mi c me A v w) : ∃ l, w.log = v.log ++ l := by
  cases h
  case fwd f _ _ _ =>
    unfold SV.fwd
    dsimp only
    split
    · exact ⟨_, rfl⟩
    · exact ⟨[], (List.append_nil _).symm⟩
  all_goals first
    | exact ⟨[], (List.append_nil _).symm⟩
    | exact ⟨_, rfl⟩

theorem Mi.log_mem {v w : SV} (h : Mi c me A v w) : ∀ o ∈ v.log, o ∈ w.log := by
  obtain ⟨l, hl⟩ := h.log
  intro o ho
  rw [hl]; exact List.mem_append_left _ ho

theorem Mis.log {v w : SV} (h : Mis c me A v w) : ∃ l, w.log = v.log ++ l := by
  induction h with
  | refl => exact ⟨[], (List.append_nil _).symm⟩
  | tail _ h ih =>
    obtain ⟨l, hl⟩ := ih
    obtain ⟨l', hl'⟩ := h.log
    exact ⟨l ++ l', by rw [hl', hl, List.append_assoc]⟩

theorem Mis.log_mem {v w : SV} (h : Mis c me A v w) : ∀ o ∈ v.log, o ∈ w.log := by
  obtain ⟨l, hl⟩ := h.log
  intro o ho
  rw [hl]; exact List.mem_append_left _ ho

/-- Stores hold accepted packets only, and pending events are justified. -/
structure Basic (c : Cfg) (me : Mac48) (v : SV) : Prop where
  queue : ∀ p ∈ v.queue, Known v p
  recs : ∀ r ∈ v.recs, Known v r.pkt ∧ r.seq = r.pkt.seq
  pktData : ∀ p, v.pktData = some p → Known v p
  pend : ∀ e ∈ v.pend, EvOK c me v e.2
  cts : c.rts = false → v.ctsTO = []
  ack : ∀ t ∈ v.ackTO, ∃ g, Obs.handed g ∈ v.log ∧ g.kind = .data ∧ g.seq = t.seq

theorem Basic.src {v : SV} (h : Basic c me v) {p : Pkt} (hs : Src v p) : Known v p := by
  rcases hs with h1 | ⟨r, h1, rfl⟩ | h1 | h1
  · exact h.queue _ h1
  · exact (h.recs _ h1).1
  · exact h.pktData _ h1
  · exact h1

theorem mem_drop {v : SV} {t : Nat} {e : Nat × Ev} (h : e ∈ (v.drop t).pend) : e ∈ v.pend :=
  (List.mem_filter.1 h).1

theorem Basic.mi {v w : SV} (b : Basic c me v) (h : Mi c me A v w) : Basic c me w := by
  have hl := h.log_mem
  have hK : ∀ p, Known v p → Known w p := fun p hp => hl _ hp
  have hA : ∀ t ∈ v.ackTO, ∃ g, Obs.handed g ∈ w.log ∧ g.kind = .data ∧ g.seq = t.seq := by
    intro t ht
    obtain ⟨g, h1, h2⟩ := b.ack t ht
    exact ⟨g, hl _ h1, h2⟩
  have hE : ∀ e ∈ v.pend, EvOK c me w e.2 := fun e he => (b.pend e he).mono h.log
  cases h with
  | benign e he =>
    refine ⟨b.queue, b.recs, b.pktData, ?_, b.cts, hA⟩
    intro x hx
    rcases List.mem_append.1 hx with hx | hx
    · exact hE x hx
    · rw [List.mem_singleton.1 hx]
      cases e <;> first | exact he.elim | trivial
  | bo =>
    refine ⟨b.queue, b.recs, b.pktData, ?_, b.cts, hA⟩
    intro x hx
    rcases List.mem_append.1 hx with hx | hx
    · exact hE x hx
    · rw [List.mem_singleton.1 hx]; trivial
  | dropBo =>
    exact ⟨b.queue, b.recs, b.pktData, fun x hx => hE x ((List.mem_filter.1 hx).1), b.cts, hA⟩
  | note o _ =>
    exact ⟨fun p hp => hK _ (b.queue p hp), fun r hr => ⟨hK _ (b.recs r hr).1, (b.recs r hr).2⟩,
      fun p hp => hK _ (b.pktData p hp), hE, b.cts, hA⟩
  | rx f _ =>
    exact ⟨fun p hp => hK _ (b.queue p hp), fun r hr => ⟨hK _ (b.recs r hr).1, (b.recs r hr).2⟩,
      fun p hp => hK _ (b.pktData p hp), hE, b.cts, hA⟩
  | pktData p hp =>
    refine ⟨b.queue, b.recs, ?_, b.pend, b.cts, hA⟩
    intro p' hp'
    rw [← Option.some.inj hp']; exact b.src hp
  | accept bd dst g t _ =>
    have hnew : Obs.accepted ⟨v.nextUid, v.seq + 1, dst, g, bd⟩
        ∈ v.log ++ [Obs.accepted ⟨v.nextUid, v.seq + 1, dst, g, bd⟩] := List.mem_append_right _ (List.mem_singleton.2 rfl)
    refine ⟨?_, ?_, ?_, ?_, b.cts, hA⟩
    · intro p hp
      rcases List.mem_append.1 hp with hp | hp
      · exact hK _ (b.queue p hp)
      · rw [List.mem_singleton.1 hp]; exact hnew
    · intro r hr
      rcases List.mem_append.1 hr with hr | hr
      · exact ⟨hK _ (b.recs r hr).1, (b.recs r hr).2⟩
      · rw [List.mem_singleton.1 hr]; exact ⟨hnew, rfl⟩
    · intro p hp; rw [← Option.some.inj hp]; exact hnew
    · intro x hx
      rcases List.mem_append.1 hx with hx | hx
      · exact hE x hx
      · rw [List.mem_singleton.1 hx]; trivial
  | handRts p hh hr hb hp =>
    refine ⟨fun p hp => hK _ (b.queue p hp), fun r hr => ⟨hK _ (b.recs r hr).1, (b.recs r hr).2⟩,
      fun p hp => hK _ (b.pktData p hp), ?_, (fun h => by rw [hr] at h; cases h), hA⟩
    have hnew : Obs.handed (rtsFrame me p) ∈ v.log ++ [Obs.handed (rtsFrame me p)] :=
      List.mem_append_right _ (List.mem_singleton.2 rfl)
    intro x hx
    rcases List.mem_append.1 hx with hx | hx
    · rcases List.mem_append.1 hx with hx | hx
      · exact hE x hx
      · rw [List.mem_singleton.1 hx]; exact hnew
    · rw [List.mem_singleton.1 hx]; exact ⟨_, hnew, .inl rfl, rfl⟩
  | handData p hh hb hp =>
    have hnew : Obs.handed (dataFrame me p) ∈ v.log ++ [Obs.handed (dataFrame me p)] :=
      List.mem_append_right _ (List.mem_singleton.2 rfl)
    refine ⟨fun p hp => hK _ (b.queue p hp), fun r hr => ⟨hK _ (b.recs r hr).1, (b.recs r hr).2⟩,
      fun p hp => hK _ (b.pktData p hp), ?_, b.cts, ?_⟩
    · intro x hx
      rcases List.mem_append.1 hx with hx | hx
      · rcases List.mem_append.1 hx with hx | hx
        · exact hE x hx
        · rw [List.mem_singleton.1 hx]; exact hnew
      · rw [List.mem_singleton.1 hx]; exact ⟨_, hnew, .inr rfl, rfl⟩
    · intro t ht
      rcases List.mem_append.1 ht with ht | ht
      · exact hA t ht
      · rw [List.mem_singleton.1 ht]; exact ⟨_, hnew, rfl, rfl⟩
  | handBcast p hh hb hp =>
    refine ⟨fun p hp => hK _ (b.queue p hp), fun r hr => ⟨hK _ (b.recs r hr).1, (b.recs r hr).2⟩,
      fun p hp => hK _ (b.pktData p hp), ?_, b.cts, hA⟩
    intro x hx
    rcases List.mem_append.1 hx with hx | hx
    · exact hE x hx
    · rw [List.mem_singleton.1 hx]; exact List.mem_append_right _ (List.mem_singleton.2 rfl)
  | handCts d t q h1 h2 =>
    refine ⟨fun p hp => hK _ (b.queue p hp), fun r hr => ⟨hK _ (b.recs r hr).1, (b.recs r hr).2⟩,
      fun p hp => hK _ (b.pktData p hp), ?_, b.cts, hA⟩
    intro x hx
    rcases List.mem_append.1 hx with hx | hx
    · exact hE x hx
    · rw [List.mem_singleton.1 hx]; exact List.mem_append_right _ (List.mem_singleton.2 rfl)
  | handAck d q h1 h2 =>
    refine ⟨fun p hp => hK _ (b.queue p hp), fun r hr => ⟨hK _ (b.recs r hr).1, (b.recs r hr).2⟩,
      fun p hp => hK _ (b.pktData p hp), ?_, b.cts, hA⟩
    intro x hx
    rcases List.mem_append.1 hx with hx | hx
    · exact hE x hx
    · rw [List.mem_singleton.1 hx]; exact List.mem_append_right _ (List.mem_singleton.2 rfl)
  | txEnd t f h1 =>
    exact ⟨fun p hp => hK _ (b.queue p hp), fun r hr => ⟨hK _ (b.recs r hr).1, (b.recs r hr).2⟩,
      fun p hp => hK _ (b.pktData p hp), fun x hx => hE x (mem_drop hx), b.cts, hA⟩
  | pop t e h1 h2 =>
    exact ⟨b.queue, b.recs, b.pktData, fun x hx => hE x (mem_drop hx), b.cts, hA⟩
  | settle ok q pre r rest h1 h2 h3 h4 =>
    refine ⟨?_, ?_, fun p hp => hK _ (b.pktData p hp), ?_, b.cts, hA⟩
    · intro p hp
      refine hK _ (b.queue p ?_)
      cases ok
      · exact hp
      · exact (List.mem_filter.1 hp).1
    · intro x hx
      have : x ∈ v.recs := by
        rw [h1]
        rcases List.mem_append.1 hx with hx | hx
        · exact List.mem_append_left _ hx
        · exact List.mem_append_right _ (List.mem_cons_of_mem _ hx)
      exact ⟨hK _ (b.recs x this).1, (b.recs x this).2⟩
    · intro x hx
      rcases List.mem_append.1 hx with hx | hx
      · exact hE x hx
      · rw [List.mem_singleton.1 hx]; trivial
  | charge q pre r rest h1 h2 h3 h4 =>
    refine ⟨fun p hp => hK _ (b.queue p hp), ?_, fun p hp => hK _ (b.pktData p hp), ?_, b.cts, hA⟩
    · intro x hx
      have hr := b.recs r (by rw [h1]; exact List.mem_append_right _ List.mem_cons_self)
      rcases List.mem_append.1 hx with hx | hx
      · have := b.recs x (by rw [h1]; exact List.mem_append_left _ hx)
        exact ⟨hK _ this.1, this.2⟩
      · rcases List.mem_cons.1 hx with hx | hx
        · rw [hx]; exact ⟨hK _ hr.1, hr.2⟩
        · have := b.recs x (by rw [h1]; exact List.mem_append_right _ (List.mem_cons_of_mem _ hx))
          exact ⟨hK _ this.1, this.2⟩
    · intro x hx
      rcases List.mem_append.1 hx with hx | hx
      · exact hE x hx
      · rw [List.mem_singleton.1 hx]; trivial
  | giveUp q pre r rest h1 h2 h3 h4 =>
    refine ⟨fun p hp => hK _ (b.queue p ((List.mem_filter.1 hp).1)), ?_,
      fun p hp => hK _ (b.pktData p hp), ?_, b.cts, hA⟩
    · intro x hx
      have hr := b.recs r (by rw [h1]; exact List.mem_append_right _ List.mem_cons_self)
      rcases List.mem_append.1 hx with hx | hx
      · have := b.recs x (by rw [h1]; exact List.mem_append_left _ hx)
        exact ⟨hK _ this.1, this.2⟩
      · rcases List.mem_cons.1 hx with hx | hx
        · rw [hx]; exact ⟨hK _ hr.1, hr.2⟩
        · have := b.recs x (by rw [h1]; exact List.mem_append_right _ (List.mem_cons_of_mem _ hx))
          exact ⟨hK _ this.1, this.2⟩
    · intro x hx
      have hr := b.recs r (by rw [h1]; exact List.mem_append_right _ List.mem_cons_self)
      rcases List.mem_append.1 hx with hx | hx
      · exact hE x hx
      · rw [List.mem_singleton.1 hx]
        exact ⟨r.pkt, r.retry + 1, List.mem_append_right _ (List.mem_singleton.2 rfl), by rw [← hr.2, h2], h3⟩
  | eraseCts q => exact ⟨b.queue, b.recs, b.pktData, b.pend, (fun h => by rw [b.cts h]; rfl), hA⟩
  | eraseAck q => exact ⟨b.queue, b.recs, b.pktData, b.pend, b.cts, fun t ht => hA t (List.mem_of_mem_eraseP ht)⟩
  | cts d t q h1 =>
    refine ⟨b.queue, b.recs, b.pktData, ?_, b.cts, hA⟩
    intro x hx
    rcases List.mem_append.1 hx with hx | hx
    · exact hE x hx
    · rw [List.mem_singleton.1 hx]; exact h1
  | ack d q h1 =>
    refine ⟨b.queue, b.recs, b.pktData, ?_, b.cts, hA⟩
    intro x hx
    rcases List.mem_append.1 hx with hx | hx
    · exact hE x hx
    · rw [List.mem_singleton.1 hx]; exact h1
  | ackIn t q h1 h2 =>
    refine ⟨b.queue, b.recs, b.pktData, ?_, b.cts, fun t ht => hA t (List.mem_of_mem_eraseP ht)⟩
    intro x hx
    rcases List.mem_append.1 hx with hx | hx
    · exact hE x (mem_drop hx)
    · rw [List.mem_singleton.1 hx]; exact h2
  | ctsIn t p q h1 h2 =>
    have hr : c.rts = true := by
      cases hr : c.rts
      · rw [b.cts hr] at h1; cases h1
      · rfl
    refine ⟨b.queue, b.recs, b.pktData, ?_, (fun h => by rw [hr] at h; cases h), hA⟩
    intro x hx
    rcases List.mem_append.1 hx with hx | hx
    · exact hE x (mem_drop hx)
    · rw [List.mem_singleton.1 hx]; exact ⟨hr, b.pktData _ h2⟩
  | fwd f h1 h2 h3 =>
    have e1 : (v.fwd f).queue = v.queue := by unfold SV.fwd; dsimp only; split <;> rfl
    have e2 : (v.fwd f).recs = v.recs := by unfold SV.fwd; dsimp only; split <;> rfl
    have e3 : (v.fwd f).pktData = v.pktData := by unfold SV.fwd; dsimp only; split <;> rfl
    have e4 : (v.fwd f).pend = v.pend := by unfold SV.fwd; dsimp only; split <;> rfl
    have e5 : (v.fwd f).ctsTO = v.ctsTO := by unfold SV.fwd; dsimp only; split <;> rfl
    have e6 : (v.fwd f).ackTO = v.ackTO := by unfold SV.fwd; dsimp only; split <;> rfl
    refine ⟨?_, ?_, ?_, ?_, ?_, ?_⟩
    · rw [e1]; exact fun p hp => hK _ (b.queue p hp)
    · rw [e2]; exact fun r hr => ⟨hK _ (b.recs r hr).1, (b.recs r hr).2⟩
    · rw [e3]; exact fun p hp => hK _ (b.pktData p hp)
    · rw [e4]; exact hE
    · rw [e5]; exact b.cts
    · rw [e6]; exact hA

theorem Basic.mis {v w : SV} (b : Basic c me v) (h : Mis c me A v w) : Basic c me w := by
  induction h with
  | refl => exact b
  | tail _ h ih => exact ih.mi h

theorem mis_fire (tid : Nat) (s : St) (b : Basic c me s.sv) : Mis c me A s.sv (fire c me tid s).sv := by
  unfold fire
  split
  · exact .refl
  · rename_i t due e hf
    have ht : t = tid := by simpa using List.find?_some hf
    subst ht
    have hm : (t, due, e) ∈ s.pend := List.mem_of_find?_eq_some hf
    have hm' : (t, e) ∈ s.sv.pend := List.mem_map.2 ⟨_, hm, rfl⟩
    have hok := b.pend _ hm'
    set s1 : St := { s with pend := s.pend.filter (fun e => e.1 ≠ t), now := max s.now due } with hs1
    have hv : s1.sv = s.sv.drop t := sv_cancel s t
    by_cases hp : ∃ f, e = .phyDone f
    · obtain ⟨f, rfl⟩ := hp
      show Mis c me A s.sv (sendPacketDone c f s1).sv
      unfold sendPacketDone
      dsimp only
      have h0 : Mis c me A s.sv (({ s1 with phyTx := none } : St).emit (.txEnd f)).sv := by
        refine Mis.one ?_
        convert Mi.txEnd (c := c) (me := me) (A := A) s.sv t f hm' using 1
        rw [sv_emit, ← hv]
        rfl
      split
      · exact h0
      · have h1 : Mis c me A s.sv
            ({ (({ s1 with phyTx := none } : St).emit (.txEnd f)) with state := .idle } : St).sv := h0
        split
        · exact h1
        · exact h1
        · rename_i hk
          split
          · rename_i hb
            have hd : DoneOK me
                ({ (({ s1 with phyTx := none } : St).emit (.txEnd f)) with state := .idle } : St).sv
                true f.seq := by
              unfold DoneOK
              rw [if_pos rfl]
              exact .inr ⟨f, Mis.log_mem h1 _ hok, hk, hb, rfl⟩
            exact (h1.trans (mis_sendDataDone true f.seq _ hd)).trans (mis_cca _)
          · exact h1
        · exact h1.trans (mis_cca _)
    · have h0 : Mis c me A s.sv s1.sv := by
        rw [hv]
        exact Mis.one (.pop s.sv t e hm' (fun f hf => hp ⟨f, hf⟩))
      refine h0.trans ?_
      have hok' : EvOK c me s1.sv e := hok.mono (Mis.log h0)
      cases e with
      | cca => exact mis_cca s1
      | backoffStart => exact mis_backoffStart s1
      | granted => exact mis_granted s1
      | ctsTimeout q =>
        have h1 : Mis c me A s1.sv ({ s1 with ctsTO := s1.ctsTO.eraseP (fun t => t.seq = q) } : St).sv :=
          Mis.one (.eraseCts s1.sv q)
        exact h1.trans (mis_timeoutLoop q _ hok')
      | ackTimeout q =>
        have h1 : Mis c me A s1.sv ({ s1 with ackTO := s1.ackTO.eraseP (fun t => t.seq = q) } : St).sv :=
          Mis.one (.eraseAck s1.sv q)
        exact h1.trans (mis_timeoutLoop q _ hok')
      | sendCts d t q => exact mis_sendCts d t q s1 hok'
      | sendData p => exact mis_sendData p s1 (.inr ⟨hok'.1, .inr (.inr (.inr hok'.2))⟩)
      | sendAck d q => exact mis_sendAck d q s1 hok'
      | sendDataDone ok q => exact mis_sendDataDone ok q s1 hok'
      | results => exact mis_results s1
      | phyDone f => exact absurd ⟨f, rfl⟩ hp

/-- Every step is a sequence of micro-steps. -/
theorem mis_step (s : St) (o : Op) (b : Basic c me s.sv) (hA : ∀ f g, o = .rxDone f true g → A f) :
    Mis c me A s.sv (step c me s o).sv := by
  cases o with
  | enqueue bd d g => exact mis_enqueue bd d g s
  | fire tid => exact mis_fire tid s b
  | rxStart => exact mis_receivePacket s
  | rxDone f ok g => exact mis_receivePacketDone f ok g s (fun h => hA f g (by rw [h])) b.ack
  | sense x => exact .refl
  | advance d => exact .refl

theorem Basic.init (seq0 : UInt16) : Basic c me (init seq0).sv :=
  ⟨by simp [Macro.init, St.sv], by simp [Macro.init, St.sv], by simp [Macro.init, St.sv],
    by simp [Macro.init, St.sv], fun _ => rfl, by simp [Macro.init, St.sv]⟩

/-- Nothing is known about the frames that may be received. -/
abbrev AnyRx : Frame → Prop := fun _ => True

theorem mis_run (s : St) (ops : List Op) (b : Basic c me s.sv) :
    Mis c me AnyRx s.sv (run c me s ops).sv := by
  induction ops generalizing s with
  | nil => exact .refl
  | cons o ops ih =>
    have h := mis_step (A := AnyRx) s o b (fun _ _ _ => trivial)
    exact h.trans (ih _ (b.mis h))

/-- Every reachable state is reached by micro-steps. -/
theorem mis_after (c : Cfg) (me : Mac48) (seq0 : UInt16) (ops : List Op) :
    Mis c me AnyRx (init seq0).sv (after c me seq0 ops).sv :=
  mis_run _ _ (.init seq0)

theorem Basic.after (c : Cfg) (me : Mac48) (seq0 : UInt16) (ops : List Op) :
    Basic c me (after c me seq0 ops).sv :=
  (Basic.init seq0).mis (mis_after c me seq0 ops)

/-- To prove an invariant of all reachable states, prove it for micro-steps. -/
theorem inv_mis {I : SV → Prop} {v w : SV} (hb : Basic c me v) (h0 : I v)
    (hI : ∀ v w, Basic c me v → I v → Mi c me A v w → I w) (h : Mis c me A v w) : I w := by
  have : Basic c me w ∧ I w := by
    induction h with
    | refl => exact ⟨hb, h0⟩
    | tail _ h ih => exact ⟨ih.1.mi h, hI _ _ ih.1 ih.2 h⟩
  exact this.2

theorem inv_after {I : SV → Prop} (c : Cfg) (me : Mac48) (seq0 : UInt16) (h0 : I (init seq0).sv)
    (hI : ∀ v w, Basic c me v → I v → Mi c me AnyRx v w → I w) (ops : List Op) :
    I (after c me seq0 ops).sv :=
  inv_mis (.init seq0) h0 hI (mis_after c me seq0 ops)

end Thz.Macro
