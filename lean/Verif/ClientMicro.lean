import Verif.Client
import Mathlib.Logic.Relation

/-!
# Micro-steps of the client

Proof machinery: every step of the client is a sequence of micro-steps on a view of the state, each of which says what
changes and why the code makes that change.  The first section is the vocabulary in which the properties are stated.
-/

namespace Thz.Client

open Thz Thz.Central
open Thz.Nano (Body Kind bcast)

/-! ## Vocabulary: what the log of a client says -/

/-- Accepted and not settled yet, according to this log. -/
def Open (l : List Obs) (p : Pkt) : Prop := Obs.accepted p ∈ l ∧ ∀ ok, Obs.done ok p ∉ l

/-- The oldest of the packets accepted and not settled, according to this log. -/
def Oldest (l : List Obs) (p : Pkt) : Prop := Open l p ∧ ∀ p', Open l p' → p.uid ≤ p'.uid

/-- A feedback CTA for this node. -/
def IsFeedback (c : Cfg) (me : Mac48) (f : Frame) : Prop := c.ways = 3 ∧ f.kind = .cta ∧ f.flags = 2 ∧ f.dst = me

instance (c : Cfg) (me : Mac48) (f : Frame) : Decidable (IsFeedback c me f) := by unfold IsFeedback; infer_instance

/-- How one observation changes the assigned sector. -/
def assign (c : Cfg) (me : Mac48) (a : Option UInt16) : Obs → Option UInt16
  | .rx _ f => if IsFeedback c me f then some f.sector else a
  | _ => a

/-- The sector assigned by the last feedback CTA received. -/
def assigned (c : Cfg) (me : Mac48) (l : List Obs) : Option UInt16 := l.foldl (assign c me) none

/-- In this log stands a CTA on which an RTS for `p` may be sent at `due`: in the three-way protocol, neither a dummy
CTA nor feedback, of the assigned sector if there is one, received while the packet was the oldest unsettled one; `due` is 1 to `BoSlots`
slots later. -/
def RtsWhy (c : Cfg) (me : Mac48) (l : List Obs) (p : Pkt) (due : ℤ) : Prop :=
  ∃ l1 t0 g l2 k, l = l1 ++ Obs.rx t0 g :: l2 ∧ c.ways = 3 ∧ g.kind = .cta ∧ g.flags ≠ 1 ∧ ¬ IsFeedback c me g ∧
    (assigned c me l1 = none ∨ assigned c me l1 = some g.sector) ∧ Oldest l1 p ∧
    1 ≤ k ∧ k ≤ max 1 c.boSlots ∧ due = t0 + c.slotTime * (k : Nat)

/-- In this log stands a dummy CTA which obliges the client to send this RTS at `due`. -/
def DummyWhy (c : Cfg) (me : Mac48) (l : List Obs) (f : Frame) (due : ℤ) : Prop :=
  ∃ l1 t0 g l2 k, l = l1 ++ Obs.rx t0 g :: l2 ∧ c.ways = 3 ∧ g.kind = .cta ∧ g.flags = 1 ∧
    f.kind = .rts ∧ f.flags = 1 ∧ f.src = me ∧ f.dst = g.src ∧
    1 ≤ k ∧ k ≤ max 1 c.boSlots ∧ due = t0 + c.slotTime * (k : Nat)

/-- In this log stands a frame on which DATA may be sent for `p` at `due`: a CTS for this node and the packet's
sequence number, received while the packet was unsettled, `due` the indicated time later; or, in the one-way protocol, a
CTA received while the packet was the oldest unsettled one, `due` the fairness time and 1 to `BoSlots` slots later. -/
def DataWhy (c : Cfg) (me : Mac48) (l : List Obs) (p : Pkt) (due : ℤ) : Prop :=
  (∃ l1 t0 g l2, l = l1 ++ Obs.rx t0 g :: l2 ∧ g.kind = .cts ∧ g.dst = me ∧ g.seq = p.seq ∧ Open l1 p ∧
    due = t0 + durTime c.tpn g.dur) ∨
  (∃ l1 t0 g l2 k, l = l1 ++ Obs.rx t0 g :: l2 ∧ c.ways = 1 ∧ g.kind = .cta ∧ Oldest l1 p ∧
    1 ≤ k ∧ k ≤ max 1 c.boSlots ∧ due = t0 + c.fairness + c.slotTime * (k : Nat))

/-- DATA with this sequence number went on the air. -/
def Sent (l : List Obs) (q : UInt16) : Prop := ∃ t f, Obs.handed t f ∈ l ∧ f.kind = .data ∧ f.seq = q

/-- In this log stands an ACK for this node and sequence number, after DATA with that number. -/
def AckWhy (me : Mac48) (l : List Obs) (q : UInt16) : Prop :=
  ∃ l1 t f l2, l = l1 ++ Obs.rx t f :: l2 ∧ f.kind = .ack ∧ f.dst = me ∧ f.seq = q ∧ Sent l1 q

/-- A packet with this sequence number was given up. -/
def FailWhy (l : List Obs) (q : UInt16) : Prop := ∃ t p, Obs.gaveUp t p ∈ l ∧ p.seq = q

/-- An RTS for this sequence number was planned on a CTA. -/
def Asked (c : Cfg) (me : Mac48) (l : List Obs) (q : UInt16) : Prop := ∃ p due, RtsWhy c me l p due ∧ p.seq = q

/-- An attempt for this sequence number. -/
def Tried (c : Cfg) (me : Mac48) (l : List Obs) (q : UInt16) : Prop := Sent l q ∨ Asked c me l q

/-- At time `t` a frame may go on the air.  `T`: the run is in time order. -/
def HandWhy (c : Cfg) (me : Mac48) (T : Prop) (l : List Obs) (t : ℤ) (f : Frame) : Prop :=
  ∃ due, due ≤ t ∧ (T → t = due) ∧
    ((f.kind = .rts ∧ f.flags = 0 ∧ ∃ p id, f = rtsFrame me id p ∧ RtsWhy c me l p due) ∨
     (f.kind = .rts ∧ f.flags = 1 ∧ DummyWhy c me l f due) ∨
     (f.kind = .data ∧ ∃ p, f = dataFrame me p ∧ p.dst ≠ bcast ∧ DataWhy c me l p due))

/-! ## The view -/

/-- The part of the state the invariants are about.  `asked`: the sequence number of an RTS not yet answered. -/
structure V where
  now : ℤ
  seq : UInt16
  nextUid : Nat
  queue : List Pkt
  recs : List Rec
  ackTO : List TO
  phyTx : Option Frame
  sector : Option UInt16
  asked : Option UInt16
  dataEv : Option Nat
  act : Bool
  bseq : UInt16
  pend : List (Nat × ℤ × Ev)
  nextTid : Nat
  log : List Obs

/-- The view of a state. -/
def St.v (s : St) : V :=
  { now := s.now, seq := s.seq, nextUid := s.nextUid, queue := s.queue, recs := s.recs, ackTO := s.ackTO
    phyTx := s.phyTx, sector := s.sector, asked := if s.rtsAnswered then none else some s.lastSeq
    dataEv := s.sendDataEv, act := s.backoffActive, bseq := s.backoffSeq
    pend := s.pend, nextTid := s.nextTid, log := s.log }

namespace V

def push (v : V) (d : ℤ) (e : Ev) : V :=
  { v with pend := v.pend ++ [(v.nextTid, v.now + d, e)], nextTid := v.nextTid + 1 }
def note (v : V) (o : Obs) : V := { v with log := v.log ++ [o] }
def drop (v : V) (t : Nat) : V := { v with pend := v.pend.filter (fun e => e.1 ≠ t) }
def hand (v : V) (d : ℤ) (f : Frame) : V := ({ v with phyTx := some f }.push d (.phyDone f)).note (.handed v.now f)

end V

/-- Observations that carry no obligation. -/
def Plain : Obs → Prop
  | .row _ => True
  | .refused _ => True
  | .blocked _ => True
  | .dropped _ => True
  | _ => False

/-- The reason for an outcome. -/
def DoneWhy (me : Mac48) (l : List Obs) (ok : Bool) (q : UInt16) : Prop :=
  if ok then AckWhy me l q else FailWhy l q

/-- Micro-steps.  `T`: the run is in time order; `K`: which events may run. -/
inductive Mi (c : Cfg) (me : Mac48) (T : Prop) (K : Ev → Prop) : V → V → Prop
  | tick (v : V) (d : Nat) : (T → ∀ e ∈ v.pend, v.now + d ≤ e.2.1) → Mi c me T K v { v with now := v.now + d }
  | pop (v : V) (t : Nat) (due : ℤ) (e : Ev) : (t, due, e) ∈ v.pend →
      (T → v.now ≤ due ∧ ∀ e' ∈ v.pend, due ≤ e'.2.1) → (∀ f, e ≠ .phyDone f) → K e →
      Mi c me T K v { v.drop t with now := max v.now due }
  | txEnd (v : V) (t : Nat) (due : ℤ) (f : Frame) : (t, due, Ev.phyDone f) ∈ v.pend →
      (T → v.now ≤ due ∧ ∀ e' ∈ v.pend, due ≤ e'.2.1) →
      Mi c me T K v ({ v.drop t with now := max v.now due, phyTx := none }.note (.txEnd f))
  | dropData (v : V) (t : Nat) : v.dataEv = some t → Mi c me T K v (v.drop t)
  | note (v : V) (o : Obs) : Plain o → Mi c me T K v (v.note o)
  | rx (v : V) (f : Frame) : Mi c me T K v { v.note (.rx v.now f) with
      sector := if IsFeedback c me f then some f.sector else v.sector }
  | accept (v : V) (b : Body) (dst : Mac48) : c.minSize ≤ b.size →
      Mi c me T K v ({ v with
        seq := v.seq + 1, nextUid := v.nextUid + 1, queue := v.queue ++ [(⟨v.nextUid, v.seq + 1, dst, b⟩ : Pkt)]
        recs := v.recs ++ [(⟨⟨v.nextUid, v.seq + 1, dst, b⟩, v.now, 0, 0⟩ : Rec)] }.note
          (.accepted ⟨v.nextUid, v.seq + 1, dst, b⟩))
  | handRts (v : V) (d : ℤ) (f : Frame) : f.kind = .rts → HandWhy c me T v.log v.now f → v.phyTx = none →
      Mi c me T K v (v.hand d f)
  | handData (v : V) (d a : ℤ) (p : Pkt) : HandWhy c me T v.log v.now (dataFrame me p) → v.phyTx = none →
      Mi c me T K v { (v.hand d (dataFrame me p)).push a (.ackTimeout p.seq) with
        ackTO := v.ackTO ++ [⟨p.seq, v.nextTid + 1⟩] }
  | settle (v : V) (ok : Bool) (pre : List Rec) (r : Rec) (rest : List Rec) :
      v.recs = pre ++ r :: rest → DoneWhy me v.log ok r.pkt.seq → (ok = true → v.queue ≠ []) →
      Mi c me T K v (({ v.push 0 .results with
        queue := if ok then v.queue.filter (fun p => p.uid ≠ r.pkt.uid) else v.queue
        recs := pre ++ rest }).note (.done ok r.pkt))
  | charge (v : V) (limit : UInt16) (i : Nat) (pre : List Rec) (r : Rec) (rest : List Rec) :
      v.recs = pre ++ r :: rest → (∀ x ∈ pre, x.pkt.seq ≠ r.pkt.seq) → ¬ r.retry + 1 ≥ limit →
      Tried c me v.log r.pkt.seq →
      Mi c me T K v ({ v with
        recs := pre ++ { r with retry := r.retry + 1, life := c.drawLife i (r.retry + 1) } :: rest
        act := true, bseq := r.pkt.seq }.note
        (.timedOut r.pkt (r.retry + 1)))
  | giveUp (v : V) (limit : UInt16) (pre : List Rec) (r : Rec) (rest : List Rec) :
      v.recs = pre ++ r :: rest → (∀ x ∈ pre, x.pkt.seq ≠ r.pkt.seq) →
      limit = c.rtsRetryLimit ∨ limit = c.dataRetryLimit → r.retry + 1 ≥ limit → Tried c me v.log r.pkt.seq →
      Mi c me T K v ((({ v with
          recs := pre ++ { r with retry := r.retry + 1 } :: rest
          queue := v.queue.filter (fun p => p.uid ≠ r.pkt.uid) }.note (.timedOut r.pkt (r.retry + 1))).push (c.ps 1)
        (.sendDataDone false r.pkt.seq)).note (.gaveUp v.now r.pkt))
  | life (v : V) (pre : List Rec) (r : Rec) (rest : List Rec) :
      v.recs = pre ++ r :: rest → (∀ x ∈ pre, x.pkt.seq ≠ r.pkt.seq) → v.bseq = r.pkt.seq → v.act = true →
      Mi c me T K v { v with
        recs := pre ++ { r with life := r.life - 1 } :: rest
        act := if r.life - 1 = 0 then false else v.act }
  | eraseAck (v : V) (q : UInt16) : Mi c me T K v { v with ackTO := v.ackTO.eraseP (fun t => t.seq = q) }
  | ackIn (v : V) (t : TO) (q : UInt16) : v.ackTO.find? (fun t => t.seq = q) = some t → AckWhy me v.log q →
      Mi c me T K v { (v.drop t.tid).push (c.ps 1) (.sendDataDone true q) with
        ackTO := v.ackTO.eraseP (fun t => t.seq = q) }
  | planRts (v : V) (d : ℤ) (p : Pkt) : RtsWhy c me v.log p (v.now + d) →
      Mi c me T K v { v.push d (.sendRts p) with asked := some p.seq }
  | planDummy (v : V) (d : ℤ) (f : Frame) : DummyWhy c me v.log f (v.now + d) →
      Mi c me T K v (v.push d (.dummyRts f))
  | planData (v : V) (d : ℤ) (p : Pkt) (m : Nat) : DataWhy c me v.log p (v.now + d) →
      Mi c me T K v (v.push d (.sendData p m))
  | planData1 (v : V) (d : ℤ) (p : Pkt) (m : Nat) : DataWhy c me v.log p (v.now + d) →
      Mi c me T K v { v.push d (.sendData p m) with dataEv := some v.nextTid }
  | answered (v : V) : Mi c me T K v { v with asked := none }

/-- Sequences of micro-steps. -/
abbrev Mis (c : Cfg) (me : Mac48) (T : Prop) (K : Ev → Prop) : V → V → Prop := Relation.ReflTransGen (Mi c me T K)

variable {c : Cfg} {me : Mac48} {T : Prop} {K : Ev → Prop}

theorem Mis.one {v w : V} (h : Mi c me T K v w) : Mis c me T K v w := .single h

/-! ## The basic invariant, needed to justify the steps -/

/-- Reasons for the pending events. -/
def EvWhy (c : Cfg) (me : Mac48) (l : List Obs) (due : ℤ) : Ev → Prop
  | .sendRts p => RtsWhy c me l p due
  | .dummyRts f => DummyWhy c me l f due
  | .sendData p _ => DataWhy c me l p due
  | .ackTimeout q => Sent l q
  | .sendDataDone ok q => DoneWhy me l ok q
  | _ => True

/-- The basic invariant. -/
structure Basic (c : Cfg) (me : Mac48) (v : V) : Prop where
  ev : ∀ e ∈ v.pend, EvWhy c me v.log e.2.1 e.2.2
  ack : ∀ t ∈ v.ackTO, Sent v.log t.seq
  sec : v.sector = assigned c me v.log
  asked : ∀ q, v.asked = some q → Asked c me v.log q
  recAcc : ∀ r ∈ v.recs, Obs.accepted r.pkt ∈ v.log
  recOpen : ∀ r ∈ v.recs, ∀ ok p, Obs.done ok p ∈ v.log → p.uid ≠ r.pkt.uid
  recSorted : v.recs.Pairwise (fun a b => a.pkt.uid < b.pkt.uid)
  accLt : ∀ p, Obs.accepted p ∈ v.log → p.uid < v.nextUid
  tid : (v.pend.map (·.1)).Nodup
  tidLt : ∀ e ∈ v.pend, e.1 < v.nextTid
  dataEv : ∀ t, v.dataEv = some t → t < v.nextTid ∧ ∀ e ∈ v.pend, e.1 = t → ∃ p m, e.2.2 = .sendData p m
  ackEv : ∀ t ∈ v.ackTO, t.tid < v.nextTid ∧ ∀ e ∈ v.pend, e.1 = t.tid → e.2.2 = .ackTimeout t.seq
  doneAcc : ∀ ok p, Obs.done ok p ∈ v.log → Obs.accepted p ∈ v.log
  kept : ∀ p, Open v.log p → ∃ r ∈ v.recs, r.pkt = p

theorem Basic.recIsOpen {v : V} (b : Basic c me v) (r : Rec) (h : r ∈ v.recs) : Open v.log r.pkt :=
  ⟨b.recAcc r h, fun ok hd => b.recOpen r h ok _ hd rfl⟩

/-- The packet of the first record is the oldest one. -/
theorem Basic.headOldest {v : V} (b : Basic c me v) {r : Rec} {rest : List Rec} (h : v.recs = r :: rest) : Oldest v.log r.pkt := by
  refine ⟨b.recIsOpen r (h ▸ List.mem_cons_self), fun p' hp => ?_⟩
  obtain ⟨r', hr, rfl⟩ := b.kept p' hp
  have hs := b.recSorted
  rw [h] at hs hr
  rcases List.mem_cons.1 hr with rfl | hr
  · exact Nat.le_refl _
  · exact Nat.le_of_lt ((List.pairwise_cons.1 hs).1 r' hr)

/-! ### Reasons survive when the log grows -/

theorem RtsWhy.mono {l : List Obs} {p : Pkt} {due : ℤ} (h : RtsWhy c me l p due) (x : List Obs) :
    RtsWhy c me (l ++ x) p due := by
  obtain ⟨l1, t0, g, l2, k, h1, h2⟩ := h
  exact ⟨l1, t0, g, l2 ++ x, k, by rw [h1]; simp, h2⟩

theorem DummyWhy.mono {l : List Obs} {f : Frame} {due : ℤ} (h : DummyWhy c me l f due) (x : List Obs) :
    DummyWhy c me (l ++ x) f due := by
  obtain ⟨l1, t0, g, l2, k, h1, h2⟩ := h
  exact ⟨l1, t0, g, l2 ++ x, k, by rw [h1]; simp, h2⟩

theorem DataWhy.mono {l : List Obs} {p : Pkt} {due : ℤ} (h : DataWhy c me l p due) (x : List Obs) :
    DataWhy c me (l ++ x) p due := by
  rcases h with ⟨l1, t0, g, l2, h1, h2⟩ | ⟨l1, t0, g, l2, k, h1, h2⟩
  · exact .inl ⟨l1, t0, g, l2 ++ x, by rw [h1]; simp, h2⟩
  · exact .inr ⟨l1, t0, g, l2 ++ x, k, by rw [h1]; simp, h2⟩

theorem Sent.mono {l : List Obs} {q : UInt16} (h : Sent l q) (x : List Obs) : Sent (l ++ x) q := by
  obtain ⟨t, f, h1, h2⟩ := h
  exact ⟨t, f, List.mem_append_left _ h1, h2⟩

theorem AckWhy.mono {l : List Obs} {q : UInt16} (h : AckWhy me l q) (x : List Obs) : AckWhy me (l ++ x) q := by
  obtain ⟨l1, t, f, l2, h1, h2⟩ := h
  exact ⟨l1, t, f, l2 ++ x, by rw [h1]; simp, h2⟩

theorem FailWhy.mono {l : List Obs} {q : UInt16} (h : FailWhy l q) (x : List Obs) : FailWhy (l ++ x) q := by
  obtain ⟨t, p, h1, h2⟩ := h
  exact ⟨t, p, List.mem_append_left _ h1, h2⟩

theorem DoneWhy.mono {l : List Obs} {ok : Bool} {q : UInt16} (h : DoneWhy me l ok q) (x : List Obs) :
    DoneWhy me (l ++ x) ok q := by
  cases ok
  · exact FailWhy.mono h x
  · exact AckWhy.mono h x

theorem Asked.mono {l : List Obs} {q : UInt16} (h : Asked c me l q) (x : List Obs) : Asked c me (l ++ x) q := by
  obtain ⟨p, due, h1, h2⟩ := h
  exact ⟨p, due, h1.mono x, h2⟩

theorem Tried.mono {l : List Obs} {q : UInt16} (h : Tried c me l q) (x : List Obs) : Tried c me (l ++ x) q :=
  h.imp (fun h => h.mono x) (fun h => h.mono x)

theorem EvWhy.mono {l : List Obs} {due : ℤ} {e : Ev} (h : EvWhy c me l due e) (x : List Obs) :
    EvWhy c me (l ++ x) due e := by
  cases e with
  | sendRts p => exact RtsWhy.mono h x
  | dummyRts f => exact DummyWhy.mono h x
  | sendData p m => exact DataWhy.mono h x
  | ackTimeout q => exact Sent.mono h x
  | sendDataDone ok q => exact DoneWhy.mono h x
  | results => trivial
  | phyDone f => trivial

theorem assigned_snoc (l : List Obs) (o : Obs) : assigned c me (l ++ [o]) = assign c me (assigned c me l) o := by
  unfold assigned; rw [List.foldl_append]; rfl

/-- What a micro-step does to the log: it grows. -/
theorem Mi.log {v w : V} (h : Mi c me T K v w) : ∃ x, w.log = v.log ++ x := by
  cases h <;> first
    | exact ⟨[], (List.append_nil _).symm⟩
    | exact ⟨[_], rfl⟩
    | exact ⟨[_, _], List.append_assoc _ [_] [_]⟩

theorem Mis.log {v w : V} (h : Mis c me T K v w) : ∃ x, w.log = v.log ++ x := by
  induction h with
  | refl => exact ⟨[], (List.append_nil _).symm⟩
  | tail _ h ih =>
    obtain ⟨x, hx⟩ := ih
    obtain ⟨y, hy⟩ := h.log
    exact ⟨x ++ y, by rw [hy, hx, List.append_assoc]⟩

/-! ### The basic invariant is kept -/

theorem Basic.init (seq0 last0 : UInt16) : Basic c me (init seq0 last0).v := by
  constructor <;> simp [Client.init, St.v, assigned, Open]

@[simp] theorem filterT {α : Type} (l : List α) : l.filter (fun _ => true) = l := List.filter_eq_self.2 (by simp)

/-- What a micro-step does to the pending events: some are removed, some are added. -/
theorem Mi.pend {v w : V} (h : Mi c me T K v w) :
    ∃ (P : Nat × ℤ × Ev → Bool) (new : List (Nat × ℤ × Ev)),
      w.pend = v.pend.filter P ++ new ∧ new.map (·.1) = List.range' v.nextTid new.length ∧
      w.nextTid = v.nextTid + new.length ∧ (∀ e ∈ new, EvWhy c me w.log e.2.1 e.2.2) ∧
      (w.dataEv = v.dataEv ∨ (w.dataEv = some v.nextTid ∧ ∀ e ∈ new, ∃ p m, e.2.2 = .sendData p m)) := by
  cases h with
  | tick d _ => exact ⟨fun _ => true, [], by simp, rfl, rfl, by simp, .inl rfl⟩
  | pop t due e _ _ _ _ => exact ⟨fun e => e.1 ≠ t, [], by simp [V.drop], rfl, rfl, by simp, .inl rfl⟩
  | txEnd t due f _ _ => exact ⟨fun e => e.1 ≠ t, [], by simp [V.drop, V.note], rfl, rfl, by simp, .inl rfl⟩
  | dropData t _ => exact ⟨fun e => e.1 ≠ t, [], by simp [V.drop], rfl, rfl, by simp, .inl rfl⟩
  | note o _ => exact ⟨fun _ => true, [], by simp [V.note], rfl, rfl, by simp, .inl rfl⟩
  | rx f => exact ⟨fun _ => true, [], by simp [V.note], rfl, rfl, by simp, .inl rfl⟩
  | accept bd dst _ => exact ⟨fun _ => true, [], by simp [V.note], rfl, rfl, by simp, .inl rfl⟩
  | handRts d f _ _ _ =>
    exact ⟨fun _ => true, [(v.nextTid, v.now + d, .phyDone f)], by simp [V.hand, V.note, V.push], rfl, rfl,
      by intro e he; rw [List.mem_singleton.1 he]; trivial, .inl rfl⟩
  | handData d a p _ _ =>
    refine ⟨fun _ => true, [(v.nextTid, v.now + d, .phyDone (dataFrame me p)),
      (v.nextTid + 1, v.now + a, .ackTimeout p.seq)], by simp [V.hand, V.note, V.push], rfl, rfl, ?_, .inl rfl⟩
    intro e he
    rcases List.mem_cons.1 he with he | he
    · rw [he]; trivial
    · rw [List.mem_singleton.1 he]
      exact ⟨v.now, dataFrame me p, List.mem_append_right _ List.mem_cons_self, rfl, rfl⟩
  | settle ok pre r rest _ _ _ =>
    exact ⟨fun _ => true, [(v.nextTid, v.now + 0, .results)], by simp [V.note, V.push], rfl, rfl,
      by intro e he; rw [List.mem_singleton.1 he]; trivial, .inl rfl⟩
  | charge limit i pre r rest _ _ _ _ => exact ⟨fun _ => true, [], by simp [V.note], rfl, rfl, by simp, .inl rfl⟩
  | giveUp limit pre r rest _ _ _ _ _ =>
    refine ⟨fun _ => true, [(v.nextTid, v.now + c.ps 1, .sendDataDone false r.pkt.seq)],
      by simp [V.note, V.push], rfl, rfl, ?_, .inl rfl⟩
    intro e he; rw [List.mem_singleton.1 he]
    exact ⟨v.now, r.pkt, List.mem_append_right _ List.mem_cons_self, rfl⟩
  | life pre r rest _ _ _ _ => exact ⟨fun _ => true, [], by simp, rfl, rfl, by simp, .inl rfl⟩
  | eraseAck q => exact ⟨fun _ => true, [], by simp, rfl, rfl, by simp, .inl rfl⟩
  | ackIn t q _ hw =>
    exact ⟨fun e => e.1 ≠ t.tid, [(v.nextTid, v.now + c.ps 1, .sendDataDone true q)],
      by simp [V.drop, V.push], rfl, rfl, by intro e he; rw [List.mem_singleton.1 he]; exact hw, .inl rfl⟩
  | planRts d p hw =>
    exact ⟨fun _ => true, [(v.nextTid, v.now + d, .sendRts p)], by simp [V.push], rfl, rfl,
      by intro e he; rw [List.mem_singleton.1 he]; exact hw, .inl rfl⟩
  | planDummy d f hw =>
    exact ⟨fun _ => true, [(v.nextTid, v.now + d, .dummyRts f)], by simp [V.push], rfl, rfl,
      by intro e he; rw [List.mem_singleton.1 he]; exact hw, .inl rfl⟩
  | planData d p m hw =>
    exact ⟨fun _ => true, [(v.nextTid, v.now + d, .sendData p m)], by simp [V.push], rfl, rfl,
      by intro e he; rw [List.mem_singleton.1 he]; exact hw, .inl rfl⟩
  | planData1 d p m hw =>
    exact ⟨fun _ => true, [(v.nextTid, v.now + d, .sendData p m)], by simp [V.push], rfl, rfl,
      by intro e he; rw [List.mem_singleton.1 he]; exact hw,
      .inr ⟨rfl, by intro e he; rw [List.mem_singleton.1 he]; exact ⟨p, m, rfl⟩⟩⟩
  | answered => exact ⟨fun _ => true, [], by simp, rfl, rfl, by simp, .inl rfl⟩

/-- Observations that say nothing about acceptance, outcomes, timeouts or giving up. -/
def Neutral : Obs → Prop
  | .accepted _ => False
  | .done _ _ => False
  | .timedOut _ _ => False
  | .gaveUp _ _ => False
  | _ => True

/-- What a micro-step does to packets, records and the log. -/
inductive Eff (c : Cfg) (me : Mac48) (v w : V) : Prop
  | silent (l : List Obs) : w.queue = v.queue → w.recs = v.recs → w.nextUid = v.nextUid → w.seq = v.seq →
      w.log = v.log ++ l → (∀ o ∈ l, Neutral o) → Eff c me v w
  | life (k : UInt16) (pre : List Rec) (r : Rec) (rest : List Rec) :
      v.recs = pre ++ r :: rest → w.queue = v.queue → w.recs = pre ++ { r with life := k } :: rest →
      w.nextUid = v.nextUid → w.seq = v.seq → w.log = v.log → Eff c me v w
  | accept (b : Body) (dst : Mac48) (t : ℤ) :
      w.queue = v.queue ++ [⟨v.nextUid, v.seq + 1, dst, b⟩] →
      w.recs = v.recs ++ [⟨⟨v.nextUid, v.seq + 1, dst, b⟩, t, 0, 0⟩] →
      w.nextUid = v.nextUid + 1 → w.seq = v.seq + 1 →
      w.log = v.log ++ [.accepted ⟨v.nextUid, v.seq + 1, dst, b⟩] → Eff c me v w
  | settle (ok : Bool) (pre : List Rec) (r : Rec) (rest : List Rec) :
      v.recs = pre ++ r :: rest → DoneWhy me v.log ok r.pkt.seq →
      w.queue = (if ok then v.queue.filter (fun p => p.uid ≠ r.pkt.uid) else v.queue) →
      w.recs = pre ++ rest → w.nextUid = v.nextUid → w.seq = v.seq →
      w.log = v.log ++ [.done ok r.pkt] → Eff c me v w
  | charge (life : UInt16) (pre : List Rec) (r : Rec) (rest : List Rec) :
      v.recs = pre ++ r :: rest → Tried c me v.log r.pkt.seq → w.queue = v.queue →
      w.recs = pre ++ { r with retry := r.retry + 1, life := life } :: rest → w.nextUid = v.nextUid →
      w.seq = v.seq → w.log = v.log ++ [.timedOut r.pkt (r.retry + 1)] → Eff c me v w
  | giveUp (limit : UInt16) (pre : List Rec) (r : Rec) (rest : List Rec) :
      v.recs = pre ++ r :: rest → limit = c.rtsRetryLimit ∨ limit = c.dataRetryLimit → r.retry + 1 ≥ limit →
      Tried c me v.log r.pkt.seq → w.queue = v.queue.filter (fun p => p.uid ≠ r.pkt.uid) →
      w.recs = pre ++ { r with retry := r.retry + 1 } :: rest → w.nextUid = v.nextUid →
      w.seq = v.seq → w.log = v.log ++ [.timedOut r.pkt (r.retry + 1), .gaveUp v.now r.pkt] →
      w.pend = v.pend ++ [(v.nextTid, v.now + c.ps 1, .sendDataDone false r.pkt.seq)] → w.now = v.now → Eff c me v w

theorem Mi.eff {v w : V} (h : Mi c me T K v w) : Eff c me v w := by
  cases h with
  | accept b dst _ => exact .accept b dst v.now rfl rfl rfl rfl rfl
  | settle ok pre r rest h1 h2 h3 => exact .settle ok pre r rest h1 h2 rfl rfl rfl rfl rfl
  | charge limit i pre r rest h1 _ h2 h3 => exact .charge _ pre r rest h1 h3 rfl rfl rfl rfl rfl
  | giveUp limit pre r rest h1 _ h2 h3 h4 =>
    exact .giveUp limit pre r rest h1 h2 h3 h4 rfl rfl rfl rfl (List.append_assoc _ [_] [_]) rfl rfl
  | life pre r rest h1 _ _ _ => exact .life _ pre r rest h1 rfl rfl rfl rfl rfl
  | note o ho =>
    refine .silent [o] rfl rfl rfl rfl rfl ?_
    intro x hx; rw [List.mem_singleton.1 hx]
    cases o <;> first | exact ho.elim | trivial
  | rx f => exact .silent [.rx v.now f] rfl rfl rfl rfl rfl (by intro x hx; rw [List.mem_singleton.1 hx]; trivial)
  | handRts d f _ _ _ =>
    exact .silent [.handed v.now f] rfl rfl rfl rfl rfl (by intro x hx; rw [List.mem_singleton.1 hx]; trivial)
  | handData d a p _ _ =>
    exact .silent [.handed v.now (dataFrame me p)] rfl rfl rfl rfl rfl
      (by intro x hx; rw [List.mem_singleton.1 hx]; trivial)
  | txEnd t due f _ _ =>
    exact .silent [.txEnd f] rfl rfl rfl rfl rfl (by intro x hx; rw [List.mem_singleton.1 hx]; trivial)
  | tick => exact .silent [] rfl rfl rfl rfl (List.append_nil _).symm (by simp)
  | pop => exact .silent [] rfl rfl rfl rfl (List.append_nil _).symm (by simp)
  | dropData => exact .silent [] rfl rfl rfl rfl (List.append_nil _).symm (by simp)
  | eraseAck => exact .silent [] rfl rfl rfl rfl (List.append_nil _).symm (by simp)
  | ackIn => exact .silent [] rfl rfl rfl rfl (List.append_nil _).symm (by simp)
  | planRts => exact .silent [] rfl rfl rfl rfl (List.append_nil _).symm (by simp)
  | planDummy => exact .silent [] rfl rfl rfl rfl (List.append_nil _).symm (by simp)
  | planData => exact .silent [] rfl rfl rfl rfl (List.append_nil _).symm (by simp)
  | planData1 => exact .silent [] rfl rfl rfl rfl (List.append_nil _).symm (by simp)
  | answered => exact .silent [] rfl rfl rfl rfl (List.append_nil _).symm (by simp)

/-- Changing a record without its packet changes nothing about packets. -/
theorem pkts_congr {pre rest : List Rec} {r r' : Rec} (h : r'.pkt = r.pkt) :
    (pre ++ r' :: rest).map (·.pkt) = (pre ++ r :: rest).map (·.pkt) := by simp [h]

/-- The part of the basic invariant about records, in terms of the packets of the records. -/
structure RecI (pk : List Pkt) (n : Nat) (l : List Obs) : Prop where
  acc : ∀ p ∈ pk, Obs.accepted p ∈ l
  opn : ∀ p ∈ pk, ∀ ok q, Obs.done ok q ∈ l → q.uid ≠ p.uid
  srt : pk.Pairwise (fun a b => a.uid < b.uid)
  lt : ∀ p, Obs.accepted p ∈ l → p.uid < n
  don : ∀ ok p, Obs.done ok p ∈ l → Obs.accepted p ∈ l
  kept : ∀ p, Open l p → p ∈ pk

theorem Basic.recI {v : V} (b : Basic c me v) : RecI (v.recs.map (·.pkt)) v.nextUid v.log := by
  refine ⟨?_, ?_, ?_, b.accLt, b.doneAcc, fun p hp => List.mem_map.2 (b.kept p hp)⟩
  · intro p hp; obtain ⟨r, hr, rfl⟩ := List.mem_map.1 hp; exact b.recAcc r hr
  · intro p hp; obtain ⟨r, hr, rfl⟩ := List.mem_map.1 hp; exact b.recOpen r hr
  · exact List.pairwise_map.2 b.recSorted

theorem RecI.plain {pk : List Pkt} {n : Nat} {l : List Obs} (h : RecI pk n l) (x : List Obs)
    (ha : ∀ p, Obs.accepted p ∉ x) (hd : ∀ ok p, Obs.done ok p ∉ x) : RecI pk n (l ++ x) := by
  have hA : ∀ p, (Obs.accepted p ∈ l ++ x ↔ Obs.accepted p ∈ l) := fun p =>
    ⟨fun h => (List.mem_append.1 h).elim id (fun h => absurd h (ha p)), List.mem_append_left _⟩
  have hD : ∀ ok p, (Obs.done ok p ∈ l ++ x ↔ Obs.done ok p ∈ l) := fun ok p =>
    ⟨fun h => (List.mem_append.1 h).elim id (fun h => absurd h (hd ok p)), List.mem_append_left _⟩
  constructor
  · simp only [hA]; exact h.acc
  · simp only [hD]; exact h.opn
  · exact h.srt
  · simp only [hA]; exact h.lt
  · simp only [hA, hD]; exact h.don
  · unfold Open; simp only [hA, hD]; exact h.kept

theorem RecI.mi {v w : V} (i : RecI (v.recs.map (·.pkt)) v.nextUid v.log) (h : Mi c me T K v w) :
    RecI (w.recs.map (·.pkt)) w.nextUid w.log := by
  cases h.eff with
  | silent l hq hr hu hs hl hn =>
    rw [hr, hu, hl]
    exact i.plain l (fun p h => hn _ h) (fun ok p h => hn _ h)
  | life k pre r rest h1 hq hr hu hs hl =>
    have hp : w.recs.map (·.pkt) = v.recs.map (·.pkt) := by rw [hr, h1]; exact pkts_congr rfl
    rw [hp, hu, hl]; exact i
  | charge life pre r rest h1 _ hq hr hu hs hl =>
    have hp : w.recs.map (·.pkt) = v.recs.map (·.pkt) := by rw [hr, h1]; exact pkts_congr rfl
    rw [hp, hu, hl]
    exact i.plain _ (by simp) (by simp)
  | giveUp limit pre r rest h1 _ _ _ hq hr hu hs hl _ _ =>
    have hp : w.recs.map (·.pkt) = v.recs.map (·.pkt) := by rw [hr, h1]; exact pkts_congr rfl
    rw [hp, hu, hl]
    exact i.plain _ (by simp) (by simp)
  | accept b dst t hq hr hu hs hl =>
    rw [hr, hu, hl, List.map_append]
    generalize v.recs.map (·.pkt) = pk at *
    constructor
    · intro p hp
      rcases List.mem_append.1 hp with h | h
      · exact List.mem_append_left _ (i.acc p h)
      · rw [List.mem_singleton.1 h]; exact List.mem_append_right _ List.mem_cons_self
    · intro p hp ok q hq'
      have hq2 : Obs.done ok q ∈ v.log := by simpa using hq'
      rcases List.mem_append.1 hp with h | h
      · exact i.opn p h ok q hq2
      · rw [List.mem_singleton.1 h]; exact (i.lt q (i.don ok q hq2)).ne
    · rw [List.pairwise_append]
      refine ⟨i.srt, List.pairwise_singleton _ _, ?_⟩
      intro a ha b' hb'
      rw [List.mem_singleton.1 hb']; exact i.lt a (i.acc a ha)
    · intro p hp
      rcases List.mem_append.1 hp with h | h
      · exact Nat.lt_succ_of_lt (i.lt p h)
      · have := List.mem_singleton.1 h
        rw [Obs.accepted.inj this]; exact Nat.lt_succ_self _
    · intro ok p hp
      exact List.mem_append_left _ (i.don ok p (by simpa using hp))
    · rintro p ⟨hp, hd⟩
      rcases List.mem_append.1 hp with h | h
      · exact List.mem_append_left _ (i.kept p ⟨h, fun ok h' => hd ok (List.mem_append_left _ h')⟩)
      · rw [Obs.accepted.inj (List.mem_singleton.1 h)]; exact List.mem_append_right _ (List.mem_singleton.2 rfl)
  | settle ok pre r rest h1 _ hq hr hu hs hl =>
    rw [hr, hu, hl]
    rw [h1] at i
    have hsub : ∀ p ∈ (pre ++ rest).map (·.pkt), p ∈ (pre ++ r :: rest).map (·.pkt) := by
      intro p hp; simp only [List.map_append, List.map_cons, List.mem_append, List.mem_cons] at hp ⊢; tauto
    have hnew : ∀ p ∈ (pre ++ rest).map (·.pkt), r.pkt.uid ≠ p.uid := by
      intro p hp
      have h := i.srt
      rw [List.map_append, List.map_cons, List.pairwise_append, List.pairwise_cons] at h
      rw [List.map_append] at hp
      rcases List.mem_append.1 hp with hp | hp
      · exact (h.2.2 p hp r.pkt List.mem_cons_self).ne'
      · exact (h.2.1.1 p hp).ne
    constructor
    · intro p hp; exact List.mem_append_left _ (i.acc p (hsub p hp))
    · intro p hp ok' q hq'
      rcases List.mem_append.1 hq' with h | h
      · exact i.opn p (hsub p hp) ok' q h
      · have := List.mem_singleton.1 h
        injection this with _ h2
        rw [h2]; exact hnew p hp
    · refine i.srt.sublist ?_
      rw [List.map_append, List.map_append, List.map_cons]
      exact (List.Sublist.refl _).append (List.sublist_cons_self _ _)
    · intro p hp; exact i.lt p (by simpa using hp)
    · intro ok' p hp
      refine List.mem_append_left _ ?_
      rcases List.mem_append.1 hp with h | h
      · exact i.don ok' p h
      · have := List.mem_singleton.1 h
        injection this with _ h2
        rw [h2]; exact i.acc _ (by simp)
    · rintro p ⟨hp, hd⟩
      have h := i.kept p ⟨by simpa using hp, fun ok h' => hd ok (List.mem_append_left _ h')⟩
      have hne : p ≠ r.pkt := by rintro rfl; exact hd ok (List.mem_append_right _ (List.mem_singleton.2 rfl))
      simp only [List.map_append, List.map_cons, List.mem_append, List.mem_cons] at h ⊢
      tauto

theorem Basic.mi {v w : V} (b : Basic c me v) (h : Mi c me T K v w) : Basic c me w := by
  obtain ⟨x, hx⟩ := h.log
  obtain ⟨P, new, h1, h2, h3, h4, h5⟩ := h.pend
  have hr := b.recI.mi h
  have hnew : ∀ e ∈ new, v.nextTid ≤ e.1 ∧ e.1 < v.nextTid + new.length := by
    intro e he
    have : e.1 ∈ new.map (·.1) := List.mem_map_of_mem he
    rw [h2, List.mem_range'_1] at this
    exact this
  constructor
  · intro e he
    rw [h1] at he
    rcases List.mem_append.1 he with he | he
    · rw [hx]; exact (b.ev e (List.mem_filter.1 he).1).mono x
    · exact h4 e he
  · have hm : ∀ t ∈ v.ackTO, Sent w.log t.seq := fun t ht => hx ▸ (b.ack t ht).mono x
    cases h with
    | handData d a p _ _ =>
      intro t ht
      rcases List.mem_append.1 ht with ht | ht
      · exact hm t ht
      · rw [List.mem_singleton.1 ht]
        exact ⟨v.now, dataFrame me p, List.mem_append_right _ List.mem_cons_self, rfl, rfl⟩
    | eraseAck q => exact fun t ht => hm t (List.mem_of_mem_eraseP ht)
    | ackIn t' q _ hw => exact fun t ht => hm t (List.mem_of_mem_eraseP ht)
    | _ => exact hm
  · cases h with
    | rx f =>
      show (if IsFeedback c me f then some f.sector else v.sector) = assigned c me (v.log ++ [_])
      rw [assigned_snoc, b.sec]; rfl
    | note o ho =>
      show v.sector = assigned c me (v.log ++ [o])
      rw [assigned_snoc, b.sec]
      cases o <;> first | exact ho.elim | rfl
    | giveUp limit pre r rest _ _ _ _ _ =>
      show v.sector = assigned c me ((v.log ++ [_]) ++ [_])
      rw [assigned_snoc, assigned_snoc, b.sec]; rfl
    | txEnd => show v.sector = assigned c me (v.log ++ [_]); rw [assigned_snoc, b.sec]; rfl
    | accept => show v.sector = assigned c me (v.log ++ [_]); rw [assigned_snoc, b.sec]; rfl
    | handRts => show v.sector = assigned c me (v.log ++ [_]); rw [assigned_snoc, b.sec]; rfl
    | handData => show v.sector = assigned c me (v.log ++ [_]); rw [assigned_snoc, b.sec]; rfl
    | settle => show v.sector = assigned c me (v.log ++ [_]); rw [assigned_snoc, b.sec]; rfl
    | charge => show v.sector = assigned c me (v.log ++ [_]); rw [assigned_snoc, b.sec]; rfl
    | _ => exact b.sec
  · have hm : ∀ q, v.asked = some q → Asked c me w.log q := fun q hq => hx ▸ (b.asked q hq).mono x
    cases h with
    | planRts d p hw =>
      intro q hq
      have : p.seq = q := Option.some.inj hq
      exact ⟨p, _, hw, this⟩
    | answered => intro q hq; cases hq
    | _ => exact hm
  · intro r hr'; exact hr.acc _ (List.mem_map_of_mem hr')
  · intro r hr'; exact hr.opn _ (List.mem_map_of_mem hr')
  · exact (List.pairwise_map (R := fun a b : Pkt => a.uid < b.uid)).1 hr.srt
  · exact hr.lt
  · rw [h1, List.map_append, List.nodup_append]
    refine ⟨b.tid.sublist (List.filter_sublist.map _), ?_, ?_⟩
    · rw [h2]; exact List.nodup_range'
    · intro a ha b' hb'
      obtain ⟨e, he, rfl⟩ := List.mem_map.1 ha
      obtain ⟨e', he', rfl⟩ := List.mem_map.1 hb'
      have := b.tidLt e (List.mem_filter.1 he).1
      have := (hnew e' he').1
      omega
  · intro e he
    rw [h1] at he
    rw [h3]
    rcases List.mem_append.1 he with he | he
    · have := b.tidLt e (List.mem_filter.1 he).1
      omega
    · exact (hnew e he).2
  · intro t ht
    rcases h5 with h5 | ⟨h5, h6⟩
    · rw [h5] at ht
      obtain ⟨h7, h8⟩ := b.dataEv t ht
      refine ⟨by omega, ?_⟩
      intro e he het
      rw [h1] at he
      rcases List.mem_append.1 he with he | he
      · exact h8 e (List.mem_filter.1 he).1 het
      · have := (hnew e he).1
        omega
    · rw [h5] at ht
      have ht := Option.some.inj ht
      have hlen : 0 < new.length := by
        cases h with
        | planData1 d p m hw =>
          have h9 : v.nextTid + 1 = v.nextTid + new.length := h3
          omega
        | _ => exact absurd (b.dataEv _ h5).1 (Nat.lt_irrefl _)
      refine ⟨by omega, ?_⟩
      intro e he het
      rw [h1] at he
      rcases List.mem_append.1 he with he | he
      · have := b.tidLt e (List.mem_filter.1 he).1
        omega
      · exact h6 e he
  · have hm : ∀ t ∈ v.ackTO, t.tid < w.nextTid ∧ ∀ e ∈ w.pend, e.1 = t.tid → e.2.2 = .ackTimeout t.seq := by
      intro t ht
      obtain ⟨h7, h8⟩ := b.ackEv t ht
      refine ⟨by omega, ?_⟩
      intro e he het
      rw [h1] at he
      rcases List.mem_append.1 he with he | he
      · exact h8 e (List.mem_filter.1 he).1 het
      · have := (hnew e he).1
        omega
    cases h with
    | handData d a p _ _ =>
      intro t ht
      rcases List.mem_append.1 ht with ht | ht
      · exact hm t ht
      · rw [List.mem_singleton.1 ht]
        refine ⟨Nat.lt_succ_self _, ?_⟩
        intro e he het
        have he' : e ∈ (v.pend ++ [(v.nextTid, v.now + d, Ev.phyDone (dataFrame me p))]) ++
          [(v.nextTid + 1, v.now + a, Ev.ackTimeout p.seq)] := he
        simp only [List.mem_append, List.mem_singleton] at he'
        rcases he' with (h | h) | h
        · have := b.tidLt e h
          simp only at het
          omega
        · rw [h] at het; simp only at het; omega
        · rw [h]
    | eraseAck q => exact fun t ht => hm t (List.mem_of_mem_eraseP ht)
    | ackIn t' q _ hw => exact fun t ht => hm t (List.mem_of_mem_eraseP ht)
    | _ => exact hm
  · exact hr.don
  · exact fun p hp => List.mem_map.1 (hr.kept p hp)

theorem Basic.mis {v w : V} (b : Basic c me v) (h : Mis c me T K v w) : Basic c me w := by
  induction h with
  | refl => exact b
  | tail _ h ih => exact ih.mi h

/-- More events may run. -/
theorem Mi.weaken {K' : Ev → Prop} (hk : ∀ e, K e → K' e) {v w : V} (h : Mi c me T K v w) : Mi c me T K' v w := by
  cases h with
  | pop t due e h1 h2 h3 h4 => exact .pop v t due e h1 h2 h3 (hk e h4)
  | tick d h => exact .tick v d h
  | txEnd t due f h1 h2 => exact .txEnd v t due f h1 h2
  | dropData t h => exact .dropData v t h
  | note o h => exact .note v o h
  | rx f => exact .rx v f
  | accept b dst h => exact .accept v b dst h
  | handRts d f h1 h2 h3 => exact .handRts v d f h1 h2 h3
  | handData d a p h1 h2 => exact .handData v d a p h1 h2
  | settle ok pre r rest h1 h2 h3 => exact .settle v ok pre r rest h1 h2 h3
  | charge limit i pre r rest h1 h2 h3 h4 => exact .charge v limit i pre r rest h1 h2 h3 h4
  | giveUp limit pre r rest h1 h2 h3 h4 h5 => exact .giveUp v limit pre r rest h1 h2 h3 h4 h5
  | life pre r rest h1 h2 h3 h4 => exact .life v pre r rest h1 h2 h3 h4
  | eraseAck q => exact .eraseAck v q
  | ackIn t q h1 h2 => exact .ackIn v t q h1 h2
  | planRts d p h => exact .planRts v d p h
  | planDummy d f h => exact .planDummy v d f h
  | planData d p m h => exact .planData v d p m h
  | planData1 d p m h => exact .planData1 v d p m h
  | answered => exact .answered v

theorem Mis.weaken {K' : Ev → Prop} (hk : ∀ e, K e → K' e) {v w : V} (h : Mis c me T K v w) : Mis c me T K' v w :=
  Relation.ReflTransGen.mono (fun _ _ => Mi.weaken hk) _ _ h

end Thz.Client
