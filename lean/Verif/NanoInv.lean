import Verif.NanoLog
import Mathlib.Data.List.Basic
import Mathlib.Data.List.Perm.Basic
import Mathlib.Data.List.Count
import Mathlib.Data.UInt
import Mathlib.Tactic.Linarith

/-!
# Unconditional invariants of the nano MAC (helper lemmas)
-/

namespace Thz.Nano

open scoped List

/-! ## Reading the log -/

/-- The accepted packets in a log. -/
def accs (log : List Obs) : List Pkt := log.filterMap fun | .accepted p => some p | _ => none

/-- The packets in a log that were reported as sent (`ok = true`) or discarded (`ok = false`). -/
def dones (ok : Bool) (log : List Obs) : List Pkt :=
  log.filterMap fun | .done b p => if b = ok then some p else none | _ => none

/-- The packets in a log with an outcome. -/
def outcomes (log : List Obs) : List Pkt := log.filterMap fun | .done _ p => some p | _ => none

@[simp] theorem accs_append (a b : List Obs) : accs (a ++ b) = accs a ++ accs b := List.filterMap_append
@[simp] theorem dones_append (k) (a b : List Obs) : dones k (a ++ b) = dones k a ++ dones k b :=
  List.filterMap_append
@[simp] theorem outcomes_append (a b : List Obs) : outcomes (a ++ b) = outcomes a ++ outcomes b :=
  List.filterMap_append

theorem mem_accs {log : List Obs} {p} : p ∈ accs log ↔ .accepted p ∈ log := by
  unfold accs
  rw [List.mem_filterMap]
  constructor
  · rintro ⟨o, ho, h⟩
    cases o <;> simp_all
  · intro h; exact ⟨_, h, rfl⟩

theorem mem_outcomes {log : List Obs} {p} : p ∈ outcomes log ↔ ∃ ok, .done ok p ∈ log := by
  unfold outcomes
  rw [List.mem_filterMap]
  constructor
  · rintro ⟨o, ho, h⟩
    cases o <;> simp at h
    rename_i b q
    exact ⟨b, h ▸ ho⟩
  · rintro ⟨ok, h⟩; exact ⟨_, h, rfl⟩

theorem mem_dones {log : List Obs} {p ok} : p ∈ dones ok log ↔ .done ok p ∈ log := by
  unfold dones
  rw [List.mem_filterMap]
  constructor
  · rintro ⟨o, ho, h⟩
    cases o <;> simp at h
    rename_i b q
    obtain ⟨rfl, rfl⟩ := h
    exact ho
  · intro h; exact ⟨_, h, by simp⟩

/-! ## Quiet steps: neither acceptance nor outcome nor timeout -/

/-- Observations that are neither acceptance, outcome nor timeout. -/
def Obs.quiet : Obs → Prop
  | .accepted _ | .done _ _ | .timeout _ => False
  | _ => True

/-- The bookkeeping of packets is untouched. -/
structure Quiet (s s' : St) : Prop where
  sequence : s'.sequence = s.sequence
  nextUid : s'.nextUid = s.nextUid
  queue : s'.queue = s.queue
  pktTx : s'.pktTx = s.pktTx
  ite : s'.ite = s.ite
  discarded : s'.discarded = s.discarded
  adds : Adds Obs.quiet s s'

theorem Quiet.refl {s} : Quiet s s := ⟨rfl, rfl, rfl, rfl, rfl, rfl, Adds.refl⟩

theorem Quiet.trans {a b c : St} (h1 : Quiet a b) (h2 : Quiet b c) : Quiet a c :=
  ⟨h2.1.trans h1.1, h2.2.trans h1.2, h2.3.trans h1.3, h2.4.trans h1.4, h2.5.trans h1.5, h2.6.trans h1.6,
    h1.7.trans h2.7⟩

theorem book_quiet (c : Cfg) (s : St) (tx rx : Nat) : Quiet s (s.book c tx rx).2 :=
  ⟨rfl, rfl, rfl, rfl, rfl, rfl, (book_adds c s tx rx).mono (by rintro o rfl; trivial)⟩

theorem ret_quiet (c : Cfg) (s : St) (tx rx : Nat) : Quiet s (s.ret c tx rx) :=
  ⟨rfl, rfl, rfl, rfl, rfl, rfl, (ret_adds c s tx rx).mono (by rintro o rfl; trivial)⟩

theorem emit_quiet (s : St) {o : Obs} (h : o.quiet) : Quiet s (s.emit o) :=
  ⟨rfl, rfl, rfl, rfl, rfl, rfl, Adds.one rfl h⟩

theorem schedule_quiet (s : St) (e : Ev) : Quiet s (s.schedule e) :=
  ⟨rfl, rfl, rfl, rfl, rfl, rfl, Adds.of_eq rfl⟩

theorem sendRts_quiet (me : Mac48) (p : Pkt) (s : St) : Quiet s (sendRts me p s) :=
  ⟨rfl, rfl, rfl, rfl, rfl, rfl, Adds.one rfl trivial⟩

theorem sendData_quiet (me : Mac48) (p : Pkt) (s : St) : Quiet s (sendData me p s) := by
  unfold sendData
  split_ifs <;> exact ⟨rfl, rfl, rfl, rfl, rfl, rfl, Adds.one rfl trivial⟩

theorem checkResources_quiet (c : Cfg) (me : Mac48) (p : Pkt) (s : St) :
    Quiet s (checkResources c me p s) := by
  unfold checkResources
  dsimp only
  split_ifs
  · exact (book_quiet c s _ _).trans (sendRts_quiet me p _)
  · exact (book_quiet c s _ _).trans (emit_quiet _ trivial)
  · exact (book_quiet c s _ _).trans (sendData_quiet me p _)
  · exact (book_quiet c s _ _).trans (emit_quiet _ trivial)

theorem txFirstPacket_quiet (c : Cfg) (me : Mac48) (s : St) : Quiet s (txFirstPacket c me s) := by
  unfold txFirstPacket
  split
  · exact Quiet.refl
  · exact checkResources_quiet c me _ s

theorem startNext_quiet (p : Pkt) (s : St) : Quiet s (startNext p s) := by
  unfold startNext
  split
  · exact schedule_quiet s _
  · exact Quiet.refl

theorem backoff_quiet (p : Pkt) (s : St) : Quiet s (backoff p s) :=
  (emit_quiet s (o := .backoff p) trivial).trans (schedule_quiet _ _)

theorem dataTimeout_quiet (c : Cfg) (q : UInt16) (s : St) : Quiet s (dataTimeout c q s) :=
  (ret_quiet c s 18 c.frameLength).trans ⟨rfl, rfl, rfl, rfl, rfl, rfl, Adds.of_eq rfl⟩

theorem receiveRts_quiet (c : Cfg) (me : Mac48) (f : Frame) (s : St) : Quiet s (receiveRts c me f s) := by
  unfold receiveRts
  dsimp only
  split_ifs
  · exact book_quiet c s _ _
  · refine (book_quiet c s 0 f.size).trans ((book_quiet c _ (2 * f.size) c.frameLength).trans ?_)
    exact Quiet.trans (schedule_quiet _ (.dataTimeout f.seq))
      ⟨rfl, rfl, rfl, rfl, rfl, rfl, Adds.one (o := .tx ⟨.cts, me, f.src, f.seq, ⟨0, 0⟩⟩) (by simp [sendCts]) trivial⟩
  · exact (book_quiet c s _ _).trans (book_quiet c _ _ _)

theorem clearCts_quiet (q : UInt16) (s : St) : Quiet s (clearCts q s) := by
  unfold clearCts
  split <;> exact ⟨rfl, rfl, rfl, rfl, rfl, rfl, Adds.of_eq rfl⟩

theorem clearData_quiet (q : UInt16) (s : St) : Quiet s (clearData q s) := by
  unfold clearData
  split <;> exact ⟨rfl, rfl, rfl, rfl, rfl, rfl, Adds.of_eq rfl⟩

theorem receiveCts_quiet (me : Mac48) (f : Frame) (s : St) : Quiet s (receiveCts me f s) := by
  unfold receiveCts
  split_ifs
  · exact Quiet.refl
  · refine (clearCts_quiet f.seq s).trans ?_
    unfold answerCts
    split
    · exact sendData_quiet me _ _
    · exact Quiet.refl

theorem filterUp_quiet (f : Frame) (s : St) : Quiet s (filterUp f s) := by
  unfold filterUp
  dsimp only
  split_ifs
  · exact ⟨rfl, rfl, rfl, rfl, rfl, rfl, Adds.one rfl trivial⟩
  · exact ⟨rfl, rfl, rfl, rfl, rfl, rfl, Adds.of_eq rfl⟩

theorem acceptData_quiet (me : Mac48) (f : Frame) (s : St) : Quiet s (acceptData me f s) :=
  (clearData_quiet f.seq s).trans ((emit_quiet _ (o := .tx ⟨.ack, me, f.src, f.seq, ⟨0, 0⟩⟩) trivial).trans (filterUp_quiet f _))

theorem receiveData_quiet (c : Cfg) (me : Mac48) (f : Frame) (s : St) : Quiet s (receiveData c me f s) := by
  unfold receiveData
  dsimp only
  split_ifs
  · exact filterUp_quiet f s
  · exact Quiet.refl
  · exact (book_quiet c s _ _).trans (acceptData_quiet me f _)
  · exact book_quiet c s _ _
  · exact acceptData_quiet me f s

theorem harvest_quiet (c : Cfg) (me : Mac48) (s : St) : Quiet s (harvest c me s) := by
  unfold harvest
  dsimp only
  have h : Quiet s { s with energy := (c.energy.harvestStep s.energy).2 } :=
    ⟨rfl, rfl, rfl, rfl, rfl, rfl, Adds.of_eq rfl⟩
  split_ifs
  · exact h.trans (txFirstPacket_quiet c me _)
  · exact h

theorem energyInit_quiet (c : Cfg) (me : Mac48) (s : St) : Quiet s (energyInit c me s) :=
  (show Quiet s { s with energy := c.energy.initial } from ⟨rfl, rfl, rfl, rfl, rfl, rfl, Adds.of_eq rfl⟩).trans (harvest_quiet c me _)

/-! ## Completion -/

theorem completeAll_eq (ok : Bool) (l : List PktTx) (s : St) :
    completeAll ok l s = { s with
      queue := s.queue.filter (fun q => ∀ t ∈ l, q.uid ≠ t.pkt.uid),
      log := (l.map (fun t => Obs.done ok t.pkt)).reverse ++ s.log,
      ite := if ok then s.ite + l.length else s.ite,
      discarded := if ok then s.discarded else s.discarded + l.length } := by
  induction l generalizing s with
  | nil => cases ok <;> simp [completeAll]
  | cons t ts ih =>
    unfold completeAll
    dsimp only
    rw [ih]
    cases ok <;>
      simp [St.emit, List.filter_filter, Bool.and_comm, Nat.add_assoc, Nat.add_comm 1]

theorem sendDataDone_pktTx (ok : Bool) (p : Pkt) (s : St) :
    (sendDataDone ok p s).pktTx = s.pktTx.filter (fun t => t.pkt.seq ≠ p.seq) := by
  unfold sendDataDone
  dsimp only
  rw [completeAll_eq]
  simp [(startNext_quiet p s).pktTx]

/-- The entries completed by `SendDataDone`. -/
def hits (q : UInt16) (l : List PktTx) : List PktTx := l.filter (fun t => t.pkt.seq = q)

theorem sendDataDone_queue (ok : Bool) (p : Pkt) (s : St) :
    (sendDataDone ok p s).queue = s.queue.filter (fun q => ∀ t ∈ hits p.seq s.pktTx, q.uid ≠ t.pkt.uid) := by
  unfold sendDataDone hits
  dsimp only
  rw [completeAll_eq]
  simp [(startNext_quiet p s).pktTx, (startNext_quiet p s).queue]

theorem sendDataDone_log (ok : Bool) (p : Pkt) (s : St) :
    (sendDataDone ok p s).log =
      ((hits p.seq s.pktTx).map (fun t => Obs.done ok t.pkt)).reverse ++ s.log := by
  unfold sendDataDone hits
  dsimp only
  rw [completeAll_eq]
  simp [(startNext_quiet p s).pktTx, (startNext_frame p s).1]

theorem sendDataDone_ite (ok : Bool) (p : Pkt) (s : St) :
    (sendDataDone ok p s).ite = if ok then s.ite + (hits p.seq s.pktTx).length else s.ite := by
  unfold sendDataDone hits
  dsimp only
  rw [completeAll_eq]
  simp [(startNext_quiet p s).pktTx, (startNext_quiet p s).ite]

theorem sendDataDone_discarded (ok : Bool) (p : Pkt) (s : St) :
    (sendDataDone ok p s).discarded =
      if ok then s.discarded else s.discarded + (hits p.seq s.pktTx).length := by
  unfold sendDataDone hits
  dsimp only
  rw [completeAll_eq]
  simp [(startNext_quiet p s).pktTx, (startNext_quiet p s).discarded]

theorem sendDataDone_frame (ok : Bool) (p : Pkt) (s : St) :
    (sendDataDone ok p s).sequence = s.sequence ∧ (sendDataDone ok p s).nextUid = s.nextUid := by
  unfold sendDataDone
  dsimp only
  rw [completeAll_eq]
  exact ⟨(startNext_quiet p s).sequence, (startNext_quiet p s).nextUid⟩

theorem sendDataDone_rest (ok : Bool) (p : Pkt) (s : St) :
    (sendDataDone ok p s).pend = (startNext p s).pend ∧ (sendDataDone ok p s).ackTO = s.ackTO ∧
    (sendDataDone ok p s).ctsTO = s.ctsTO ∧ (sendDataDone ok p s).nextTid = (startNext p s).nextTid ∧
    (sendDataDone ok p s).energy = s.energy ∧ (sendDataDone ok p s).seqList = s.seqList := by
  unfold sendDataDone
  dsimp only
  rw [completeAll_eq]
  unfold startNext
  split <;> exact ⟨rfl, rfl, rfl, rfl, rfl, rfl⟩

/-! ## The unconditional invariant -/

/-- Bookkeeping of packets. -/
structure Inv0 (s : St) : Prop where
  /-- the sequence counter is the number of accepted packets modulo 65536 -/
  sequence : s.sequence = UInt16.ofNat s.nextUid
  /-- the accepted packets, oldest first, are numbered 0, 1, 2, ... -/
  uids : (accs s.log).reverse.map (·.uid) = List.range s.nextUid
  /-- the sequence number of an accepted packet -/
  seqs : ∀ p ∈ accs s.log, p.seq = UInt16.ofNat (p.uid + 1)
  /-- the two lists of packets agree -/
  qmap : s.pktTx.map (·.pkt) = s.queue
  /-- the queue is in order of acceptance -/
  qsort : s.queue.Pairwise (fun p q => p.uid < q.uid)
  /-- every accepted packet has one outcome or is queued -/
  perm : (accs s.log).Perm (outcomes s.log ++ s.queue)
  ite : s.ite = (dones true s.log).length
  discarded : s.discarded = (dones false s.log).length

theorem accs_quiet {l : List Obs} (h : ∀ o ∈ l, o.quiet) : accs l = [] := by
  unfold accs
  rw [List.filterMap_eq_nil_iff]
  intro o ho
  have := h o ho
  cases o <;> simp_all [Obs.quiet]

theorem outcomes_quiet {l : List Obs} (h : ∀ o ∈ l, o.quiet) : outcomes l = [] := by
  unfold outcomes
  rw [List.filterMap_eq_nil_iff]
  intro o ho
  have := h o ho
  cases o <;> simp_all [Obs.quiet]

theorem dones_quiet {l : List Obs} (k) (h : ∀ o ∈ l, o.quiet) : dones k l = [] := by
  unfold dones
  rw [List.filterMap_eq_nil_iff]
  intro o ho
  have := h o ho
  cases o <;> simp_all [Obs.quiet]

theorem Inv0.quiet {s s' : St} (h : Inv0 s) (q : Quiet s s') : Inv0 s' := by
  obtain ⟨new, e, hn⟩ := q.adds
  have e1 : accs s'.log = accs s.log := by rw [e, accs_append, accs_quiet hn]; rfl
  have e2 : outcomes s'.log = outcomes s.log := by rw [e, outcomes_append, outcomes_quiet hn]; rfl
  have e3 : ∀ k, dones k s'.log = dones k s.log := by
    intro k; rw [e, dones_append, dones_quiet k hn]; rfl
  constructor
  · rw [q.sequence, q.nextUid]; exact h.sequence
  · rw [e1, q.nextUid]; exact h.uids
  · rw [e1]; exact h.seqs
  · rw [q.pktTx, q.queue]; exact h.qmap
  · rw [q.queue]; exact h.qsort
  · rw [e1, e2, q.queue]; exact h.perm
  · rw [e3, q.ite]; exact h.ite
  · rw [e3, q.discarded]; exact h.discarded

/-- Emitting a timeout does not matter for this invariant. -/
theorem Inv0.timeout {s : St} (h : Inv0 s) (q : UInt16) : Inv0 (s.emit (.timeout q)) :=
  ⟨h.1, h.2, h.3, h.4, h.5, h.6, h.7, h.8⟩

/-- `CtsTimeout` up to the search in `m_pktTx` (model/thz-mac-nano.cc:803-826). -/
def ctsPre (c : Cfg) (p : Pkt) (s : St) : St :=
  let s := (s.emit (.timeout p.seq)).ret c c.frameLength (2 * 18)
  { s with ctsTO := s.ctsTO.eraseP (fun t => t.seq = p.seq) }

/-- `AckTimeout` up to the search in `m_pktTx` (model/thz-mac-nano.cc:853-877). -/
def ackPre (c : Cfg) (q : UInt16) (s : St) : St :=
  let s := (s.emit (.timeout q)).ret c 0 18
  { s with ackTO := s.ackTO.eraseP (fun t => t.seq = q) }

theorem ctsTimeout_eq (c : Cfg) (p : Pkt) (s : St) :
    ctsTimeout c p s = retryOrDiscard c p.seq (fun _ => p) (ctsPre c p s) := rfl

theorem ackTimeout_eq (c : Cfg) (q : UInt16) (s : St) :
    ackTimeout c q s = retryOrDiscard c q (fun r => r) (ackPre c q s) := rfl

theorem ctsPre_adds (c : Cfg) (p : Pkt) (s : St) :
    Adds (fun o => o = .timeout p.seq ∨ ∃ tx rx, o = .ret tx rx) s (ctsPre c p s) :=
  ⟨[.ret c.frameLength (2 * 18), .timeout p.seq], rfl, by simp⟩

theorem ackPre_adds (c : Cfg) (q : UInt16) (s : St) :
    Adds (fun o => o = .timeout q ∨ ∃ tx rx, o = .ret tx rx) s (ackPre c q s) :=
  ⟨[.ret 0 18, .timeout q], rfl, by simp⟩

theorem Inv0.ctsPre {s : St} (h : Inv0 s) (c : Cfg) (p : Pkt) : Inv0 (ctsPre c p s) :=
  ⟨h.1, h.2, h.3, h.4, h.5, h.6, h.7, h.8⟩

theorem Inv0.ackPre {s : St} (h : Inv0 s) (c : Cfg) (q : UInt16) : Inv0 (ackPre c q s) :=
  ⟨h.1, h.2, h.3, h.4, h.5, h.6, h.7, h.8⟩

theorem Inv0.bump {s : St} (h : Inv0 s) (q : UInt16) : Inv0 { s with pktTx := bumpRetry q s.pktTx } :=
  ⟨h.1, h.2, h.3, by rw [bumpRetry_map]; exact h.4, h.5, h.6, h.7, h.8⟩

theorem Inv0.mem_uid {s : St} (h : Inv0 s) {p} (hp : p ∈ accs s.log) : p.uid < s.nextUid := by
  have : p.uid ∈ (accs s.log).reverse.map (·.uid) :=
    List.mem_map.mpr ⟨p, List.mem_reverse.mpr hp, rfl⟩
  rw [h.uids] at this
  exact List.mem_range.mp this

theorem Inv0.nodup {s : St} (h : Inv0 s) : (accs s.log).Nodup := by
  have h1 : ((accs s.log).reverse.map (·.uid)).Nodup := by rw [h.uids]; exact List.nodup_range
  exact List.nodup_reverse.mp (List.Nodup.of_map _ h1)

theorem Inv0.uid_inj {s : St} (h : Inv0 s) {p q} (hp : p ∈ accs s.log) (hq : q ∈ accs s.log)
    (e : p.uid = q.uid) : p = q := by
  have h1 : ((accs s.log).reverse.map (·.uid)).Nodup := by rw [h.uids]; exact List.nodup_range
  exact List.inj_on_of_nodup_map h1 (List.mem_reverse.mpr hp) (List.mem_reverse.mpr hq) e

theorem Inv0.queue_acc {s : St} (h : Inv0 s) {p} (hp : p ∈ s.queue) : p ∈ accs s.log :=
  h.perm.mem_iff.mpr (List.mem_append.mpr (Or.inr hp))

theorem Inv0.outcome_acc {s : St} (h : Inv0 s) {p} (hp : p ∈ outcomes s.log) : p ∈ accs s.log :=
  h.perm.mem_iff.mpr (List.mem_append.mpr (Or.inl hp))

theorem Inv0.queue_not_outcome {s : St} (h : Inv0 s) {p} (hp : p ∈ s.queue) : p ∉ outcomes s.log := by
  intro ho
  have h1 := (h.perm.nodup_iff.mp h.nodup)
  exact (List.nodup_append.mp h1).2.2 p ho p hp rfl

theorem Inv0.mem_queue_iff {s : St} (h : Inv0 s) {p} :
    p ∈ s.queue ↔ p ∈ accs s.log ∧ p ∉ outcomes s.log := by
  constructor
  · exact fun hp => ⟨h.queue_acc hp, h.queue_not_outcome hp⟩
  · rintro ⟨h1, h2⟩
    rcases List.mem_append.mp (h.perm.mem_iff.mp h1) with h3 | h3
    · exact absurd h3 h2
    · exact h3

theorem Inv0.mem_pktTx {s : St} (h : Inv0 s) {t} (ht : t ∈ s.pktTx) : t.pkt ∈ s.queue := by
  rw [← h.qmap]; exact List.mem_map_of_mem ht

theorem Inv0.pktTx_of_queue {s : St} (h : Inv0 s) {p} (hp : p ∈ s.queue) : ∃ t ∈ s.pktTx, t.pkt = p := by
  rw [← h.qmap] at hp; simpa using hp

theorem Inv0.pktTx_sort {s : St} (h : Inv0 s) : s.pktTx.Pairwise (fun a b => a.pkt.uid < b.pkt.uid) := by
  have := h.qsort
  rw [← h.qmap, List.pairwise_map] at this
  exact this

/-- The queue that `SendDataDone` leaves. -/
theorem Inv0.sendDataDone_queue' {s : St} (h : Inv0 s) (ok : Bool) (p : Pkt) :
    (sendDataDone ok p s).queue = s.queue.filter (fun q => q.seq ≠ p.seq) := by
  rw [sendDataDone_queue]
  apply List.filter_congr
  intro q hq
  simp only [decide_eq_decide]
  constructor
  · intro hx e
    obtain ⟨t, ht, rfl⟩ := h.pktTx_of_queue hq
    exact hx t (by simp [hits, ht, e]) rfl
  · intro hx t ht e
    simp only [hits, List.mem_filter, decide_eq_true_eq] at ht
    have := h.uid_inj (h.queue_acc hq) (h.queue_acc (h.mem_pktTx ht.1)) e
    exact hx (this ▸ ht.2)

theorem outcomes_map_done (ok : Bool) (l : List PktTx) :
    outcomes (l.map (fun t => Obs.done ok t.pkt)) = l.map (·.pkt) := by
  induction l with
  | nil => rfl
  | cons t ts ih => simp only [List.map_cons, outcomes] at ih ⊢; simp [ih]

theorem dones_map_done (k ok : Bool) (l : List PktTx) :
    (dones k (l.map (fun t => Obs.done ok t.pkt))).length = if ok = k then l.length else 0 := by
  induction l with
  | nil => cases ok <;> cases k <;> rfl
  | cons t ts ih =>
    cases ok <;> cases k <;> simp_all [dones]

theorem accs_map_done (ok : Bool) (l : List PktTx) :
    accs (l.map (fun t => Obs.done ok t.pkt)) = [] := by
  induction l with
  | nil => rfl
  | cons t ts ih => simp only [List.map_cons, accs] at ih ⊢; simp [ih]

theorem Inv0.sendDataDone {s : St} (h : Inv0 s) (ok : Bool) (p : Pkt) : Inv0 (sendDataDone ok p s) := by
  have hlog : accs (Nano.sendDataDone ok p s).log = accs s.log := by
    rw [sendDataDone_log, ← List.map_reverse, accs_append, accs_map_done]; rfl
  constructor
  · rw [(sendDataDone_frame ok p s).1, (sendDataDone_frame ok p s).2]; exact h.sequence
  · rw [hlog, (sendDataDone_frame ok p s).2]; exact h.uids
  · rw [hlog]; exact h.seqs
  · rw [sendDataDone_pktTx, h.sendDataDone_queue', ← h.qmap, List.filter_map]
    rfl
  · rw [h.sendDataDone_queue']; exact h.qsort.filter _
  · rw [hlog, h.sendDataDone_queue', sendDataDone_log, ← List.map_reverse, outcomes_append,
      outcomes_map_done, List.map_reverse]
    refine h.perm.trans ?_
    have e1 : (hits p.seq s.pktTx).map (·.pkt) = s.queue.filter (fun q => q.seq = p.seq) := by
      rw [← h.qmap, List.filter_map]; rfl
    rw [e1]
    have e2 : (s.queue.filter (fun q => q.seq = p.seq) ++ s.queue.filter (fun q => q.seq ≠ p.seq)).Perm
        s.queue := by
      have := List.filter_append_perm (fun q : Pkt => decide (q.seq = p.seq)) s.queue
      simpa using this
    have e3 := List.Perm.append_left (outcomes s.log) e2.symm
    refine e3.trans ?_
    rw [← List.append_assoc]
    refine List.Perm.append_right _ ?_
    exact List.perm_append_comm.trans (List.Perm.append_right _ (List.reverse_perm _).symm)
  · rw [sendDataDone_ite, sendDataDone_log, ← List.map_reverse, dones_append, List.length_append,
      dones_map_done, h.ite]
    cases ok <;> simp [Nat.add_comm]
  · rw [sendDataDone_discarded, sendDataDone_log, ← List.map_reverse, dones_append, List.length_append,
      dones_map_done, h.discarded]
    cases ok <;> simp [Nat.add_comm]

theorem Inv0.retryOrDiscard {s : St} (h : Inv0 s) (c : Cfg) (q : UInt16) (g : Pkt → Pkt) :
    Inv0 (retryOrDiscard c q g s) := by
  unfold Nano.retryOrDiscard
  split
  · exact h
  · dsimp only
    split_ifs
    · exact (h.bump q).sendDataDone false _
    · exact (h.bump q).quiet (backoff_quiet _ _)

/-- The state after acceptance, before anything is sent (model/thz-mac-nano.cc:258-270, 282 or 287). -/
def accept (s : St) (b : Body) (d : Mac48) : St :=
  { s.emit (.accepted (newPkt s b d)) with
      sequence := s.sequence + 1, nextUid := s.nextUid + 1, queue := s.queue ++ [newPkt s b d],
      pktTx := s.pktTx ++ [⟨newPkt s b d, 0⟩] }

/-- `Enqueue` in three cases: dropped, accepted and left alone, accepted and the queue's front tried. -/
theorem enqueue_cases (c : Cfg) (me : Mac48) (b : Body) (d : Mac48) (s : St) :
    (enqueue c me b d s).2 = s ∨
    (((enqueue c me b d s).2 = accept s b d ∧ (enqueue c me b d s).1 = true) ∧
      ∃ t ∈ s.pktTx, t.pkt.seq < s.sequence + 1 ∧ t.pkt.dst = d) ∨
    (((enqueue c me b d s).2 = txFirstPacket c me (accept s b d) ∧ (enqueue c me b d s).1 = true) ∧
      ∀ t ∈ s.pktTx, ¬ (t.pkt.seq < s.sequence + 1 ∧ t.pkt.dst = d)) := by
  unfold enqueue
  dsimp only
  split_ifs with h1 h2 h3
  · exact Or.inl rfl
  · exact Or.inl rfl
  · refine Or.inr (Or.inl ⟨⟨rfl, rfl⟩, ?_⟩)
    obtain ⟨t, ht, h4⟩ := List.any_eq_true.mp h3
    exact ⟨t, ht, of_decide_eq_true h4⟩
  · refine Or.inr (Or.inr ⟨⟨rfl, rfl⟩, ?_⟩)
    intro t ht h4
    exact h3 (List.any_eq_true.mpr ⟨t, ht, decide_eq_true h4⟩)

theorem Inv0.accept {s : St} (h : Inv0 s) (b : Body) (d : Mac48) : Inv0 (accept s b d) := by
  have hl : (Nano.accept s b d).log = .accepted (newPkt s b d) :: s.log := rfl
  have ha : accs (Nano.accept s b d).log = newPkt s b d :: accs s.log := rfl
  have ho : outcomes (Nano.accept s b d).log = outcomes s.log := rfl
  constructor
  · show s.sequence + 1 = UInt16.ofNat (s.nextUid + 1)
    rw [h.sequence]
    simp
  · rw [ha]
    simp only [List.reverse_cons, List.map_append, h.uids]
    show _ = List.range (s.nextUid + 1)
    rw [List.range_succ]
    rfl
  · rw [ha]
    intro p hp
    rcases List.mem_cons.mp hp with rfl | hp
    · show s.sequence + 1 = UInt16.ofNat (s.nextUid + 1)
      rw [h.sequence]
      simp
    · exact h.seqs p hp
  · show (s.pktTx ++ [(⟨newPkt s b d, 0⟩ : PktTx)]).map (·.pkt) = s.queue ++ [newPkt s b d]
    simp [h.qmap]
  · show (s.queue ++ [newPkt s b d]).Pairwise _
    rw [List.pairwise_append]
    refine ⟨h.qsort, List.pairwise_singleton _ _, ?_⟩
    intro p hp q hq
    rw [List.mem_singleton.mp hq]
    exact h.mem_uid (h.queue_acc hp)
  · rw [ha, ho]
    show (newPkt s b d :: accs s.log).Perm (outcomes s.log ++ (s.queue ++ [newPkt s b d]))
    rw [← List.append_assoc]
    exact (List.Perm.cons _ h.perm).trans (List.perm_append_singleton _ _).symm
  · exact h.ite
  · exact h.discarded

theorem Inv0.step {s : St} (h : Inv0 s) (c : Cfg) (me : Mac48) (op : Op) : Inv0 (step c me s op) := by
  cases op with
  | enqueue b d =>
    show Inv0 (enqueue c me b d s).2
    rcases enqueue_cases c me b d s with e | ⟨⟨e, -⟩, -⟩ | ⟨⟨e, -⟩, -⟩
    · rw [e]; exact h
    · rw [e]; exact h.accept b d
    · rw [e]; exact (h.accept b d).quiet (txFirstPacket_quiet c me _)
  | recv f ok =>
    show Inv0 (receivePacketDone c me f ok s)
    unfold receivePacketDone
    split_ifs
    · exact h
    · split
      · exact h.quiet (receiveRts_quiet c me f s)
      · exact h.quiet (receiveCts_quiet me f s)
      · exact h.quiet (receiveData_quiet c me f s)
      · unfold receiveAck
        split_ifs
        · split
          · rename_i a _
            have h1 : Inv0 (s.cancel a.tid) := h.quiet ⟨rfl, rfl, rfl, rfl, rfl, rfl, Adds.of_eq rfl⟩
            have h2 := h1.sendDataDone true a.pkt
            exact h2.quiet ⟨rfl, rfl, rfl, rfl, rfl, rfl, Adds.of_eq rfl⟩
          · exact h
        · exact h
      · exact h
  | fire tid =>
    show Inv0 (fire c me tid s)
    unfold fire
    split
    · rename_i e _
      have h1 : Inv0 { s with pend := s.pend.filter (fun e => e.1 ≠ tid) } :=
        h.quiet ⟨rfl, rfl, rfl, rfl, rfl, rfl, Adds.of_eq rfl⟩
      unfold runEv
      split
      · rename_i p _
        rw [ctsTimeout_eq]
        exact Inv0.retryOrDiscard (h1.ctsPre c p) c p.seq _
      · rename_i q _
        rw [ackTimeout_eq]
        exact Inv0.retryOrDiscard (h1.ackPre c q) c q _
      · exact h1.quiet (dataTimeout_quiet c _ _)
      · exact h1.quiet (checkResources_quiet c me _ _)
    · exact h
  | harvest => exact h.quiet (harvest_quiet c me s)
  | einit => exact h.quiet (energyInit_quiet c me s)

theorem Inv0.init (e0 : ℚ) : Inv0 (St.init e0) :=
  ⟨by simp [St.init], by simp [St.init, accs], by simp [St.init, accs], rfl, by simp [St.init],
    by simp [St.init, accs, outcomes], by simp [St.init, dones], by simp [St.init, dones]⟩

theorem Inv0.run {s : St} (h : Inv0 s) (c : Cfg) (me : Mac48) (ops : List Op) : Inv0 (run c me s ops) := by
  induction ops generalizing s with
  | nil => exact h
  | cons o os ih => exact ih (h.step c me o)

end Thz.Nano
