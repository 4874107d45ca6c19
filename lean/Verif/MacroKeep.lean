import Verif.MacroTx

/-!
# Answers and the waiting for answers in the macro MAC (helper lemmas)

Which functions of the macro MAC touch the scheduled acknowledgements, the acknowledgement timeouts and the scheduled successes, and
when the MAC is in a state in which it can transmit.
-/

namespace Thz.Macro

open Thz
open Thz.Nano (Body Kind bcast)

variable {c : Cfg} {me : Mac48}

/-- Scheduled acknowledgements, acknowledgement timeouts, scheduled successes. -/
def keep : Ev → Bool
  | .ackTimeout _ => true
  | .sendAck _ _ => true
  | .sendDataDone true _ => true
  | _ => false

/-- Those among the pending events. -/
def kept (l : List (Nat × ℤ × Ev)) : List (Nat × ℤ × Ev) := l.filter (fun e => keep e.2.2)

theorem kept_append (a b : List (Nat × ℤ × Ev)) : kept (a ++ b) = kept a ++ kept b := List.filter_append ..

theorem mem_kept {l : List (Nat × ℤ × Ev)} {e : Nat × ℤ × Ev} : e ∈ kept l ↔ e ∈ l ∧ keep e.2.2 = true := by
  unfold kept; rw [List.mem_filter]

theorem kept_filter {l : List (Nat × ℤ × Ev)} {q : Nat × ℤ × Ev → Bool} (h : ∀ e ∈ kept l, q e = true) :
    kept (l.filter q) = kept l := by
  unfold kept at *
  rw [List.filter_filter]
  apply List.filter_congr
  intro x hx
  by_cases hk : keep x.2.2 = true
  · rw [hk, h x (List.mem_filter.2 ⟨hx, hk⟩)]; rfl
  · simp only [Bool.not_eq_true] at hk
    rw [hk]; rfl

/-- The event numbers the MAC may cancel, other than acknowledgement timeouts. -/
def St.canc (s : St) : List Nat := s.ctsTO.map (·.tid) ++ s.boEv.toList

/-- Event numbers are below the counter and unique; what the MAC may cancel is what it thinks it is. -/
structure TidK (s : St) : Prop where
  lt : ∀ e ∈ s.pend, e.1 < s.nextTid
  uniq : (s.pend.map (·.1)).Nodup
  can : ∀ t ∈ s.canc, t < s.nextTid ∧ ∀ e ∈ s.pend, e.1 = t → keep e.2.2 = false
  ack : ∀ x ∈ s.ackTO, x.tid < s.nextTid ∧ ∀ e ∈ s.pend, e.1 = x.tid → e.2.2 = .ackTimeout x.seq

theorem TidK.init (q : UInt16) : TidK (init q) :=
  ⟨(by intro e h; cases h), (by simp [Macro.init]), (by intro t h; simp [St.canc, Macro.init] at h), (by
    intro t h; simp [Macro.init] at h)⟩

theorem TidK.sched {s : St} (h : TidK s) (d : ℤ) (e : Ev) : TidK (s.sched d e) := by
  refine ⟨?_, ?_, ?_, ?_⟩
  · intro x hx
    rcases List.mem_append.1 hx with h1 | h1
    · exact Nat.lt_succ_of_lt (h.lt x h1)
    · rw [List.mem_singleton.1 h1]; exact Nat.lt_succ_self _
  · show ((s.pend ++ [(s.nextTid, s.now + d, e)]).map (·.1)).Nodup
    rw [List.map_append]
    refine List.nodup_append.2 ⟨h.uniq, by simp, ?_⟩
    rintro x hx y hy rfl
    obtain ⟨z, hz, rfl⟩ := List.mem_map.1 hx
    have := h.lt z hz
    simp only [List.map_cons, List.map_nil, List.mem_singleton] at hy
    omega
  · intro t ht
    obtain ⟨h1, h2⟩ := h.can t ht
    refine ⟨Nat.lt_succ_of_lt h1, fun x hx hxt => ?_⟩
    rcases List.mem_append.1 hx with h3 | h3
    · exact h2 x h3 hxt
    · rw [List.mem_singleton.1 h3] at hxt
      have : s.nextTid = t := hxt
      omega
  · intro y hy
    obtain ⟨h1, h2⟩ := h.ack y hy
    refine ⟨Nat.lt_succ_of_lt h1, fun x hx hxt => ?_⟩
    rcases List.mem_append.1 hx with h3 | h3
    · exact h2 x h3 hxt
    · rw [List.mem_singleton.1 h3] at hxt
      have : s.nextTid = y.tid := hxt
      omega

/-- Fewer events, fewer that may be cancelled. -/
theorem TidK.less {s s' : St} (hp : TidK s) (h5 : s'.pend.Sublist s.pend) (h6 : s'.nextTid = s.nextTid)
    (h7 : ∀ t ∈ s'.canc, t ∈ s.canc) (h8 : ∀ x ∈ s'.ackTO, x ∈ s.ackTO) : TidK s' := by
  refine ⟨?_, hp.uniq.sublist (h5.map _), ?_, ?_⟩
  · rw [h6]; exact fun e he => hp.lt e (h5.subset he)
  · intro t ht
    rw [h6]
    exact ⟨(hp.can t (h7 t ht)).1, fun e he => (hp.can t (h7 t ht)).2 e (h5.subset he)⟩
  · intro x hx
    rw [h6]
    exact ⟨(hp.ack x (h8 x hx)).1, fun e he => (hp.ack x (h8 x hx)).2 e (h5.subset he)⟩

/-- Is this a unicast DATA frame handed over? -/
def uniData : Obs → Bool
  | .handed f => decide (f.kind = .data ∧ f.dst ≠ bcast)
  | _ => false

/-- The answers and the waiting for answers are left alone; no unicast DATA frame is handed over; the MAC stays able to transmit
unless it transmits. -/
structure Kq (s s' : St) : Prop where
  now : s'.now = s.now
  phy : s'.phyTx = none → s.phyTx = none
  state : s.state = .idle ∨ s.state = .waitTx → s'.phyTx = none → s'.state = .idle ∨ s'.state = .waitTx
  ack : s'.ackTO = s.ackTO
  log : ∃ l, s'.log = s.log ++ l ∧ ∀ o ∈ l, uniData o = false
  ok : TidK s → TidK s' ∧ kept s'.pend = kept s.pend

theorem Kq.refl {s : St} : Kq s s := ⟨rfl, id, fun h _ => h, rfl, ⟨[], by simp, by simp⟩, fun h => ⟨h, rfl⟩⟩

theorem Kq.trans {a b d : St} (h : Kq a b) (h' : Kq b d) : Kq a d := by
  refine ⟨h'.now.trans h.now, fun e => h.phy (h'.phy e), fun e e' => h'.state (h.state e (h'.phy e')) e', h'.ack.trans h.ack, ?_,
    fun hp => ?_⟩
  · obtain ⟨l, e, q⟩ := h.log
    obtain ⟨l', e', q'⟩ := h'.log
    refine ⟨l ++ l', by rw [e', e, List.append_assoc], fun o ho => ?_⟩
    rcases List.mem_append.1 ho with ho | ho
    · exact q o ho
    · exact q' o ho
  · obtain ⟨h1, e1⟩ := h.ok hp
    obtain ⟨h2, e2⟩ := h'.ok h1
    exact ⟨h2, e2.trans e1⟩

/-- Changes to other parts of the state; the events that may be cancelled become fewer. -/
theorem Kq.same {s s' : St} (h1 : s'.now = s.now) (h2 : s'.phyTx = s.phyTx)
    (h3 : s'.state = s.state ∨ s'.state = .idle ∨ s'.state = .waitTx) (h4 : s'.log = s.log) (h5 : s'.pend = s.pend)
    (h6 : s'.nextTid = s.nextTid) (h7 : ∀ t ∈ s'.canc, t ∈ s.canc) (h8 : s'.ackTO = s.ackTO) : Kq s s' :=
  ⟨h1, by rw [h2]; exact id, fun h _ => h3.elim (fun h3 => by rw [h3]; exact h) id, h8, ⟨[], by rw [h4]; simp, by simp⟩, fun hp =>
    ⟨hp.less (by rw [h5]) h6 h7 (by rw [h8]; exact fun _ h => h), by rw [h5]⟩⟩

/-- `Kq.same` for the usual case. -/
theorem Kq.same' {s s' : St} (h1 : s'.now = s.now) (h2 : s'.phyTx = s.phyTx)
    (h3 : s'.state = s.state ∨ s'.state = .idle ∨ s'.state = .waitTx) (h4 : s'.log = s.log) (h5 : s'.pend = s.pend)
    (h6 : s'.nextTid = s.nextTid) (h7 : s'.canc = s.canc) (h8 : s'.ackTO = s.ackTO) : Kq s s' :=
  .same h1 h2 h3 h4 h5 h6 (by rw [h7]; exact fun _ h => h) h8

theorem kept_sched (s : St) (d : ℤ) (e : Ev) (he : keep e = false) : kept (s.sched d e).pend = kept s.pend := by
  show kept (s.pend ++ [(s.nextTid, s.now + d, e)]) = _
  rw [kept_append]
  have : kept [(s.nextTid, s.now + d, e)] = [] := by simp [kept, he]
  rw [this, List.append_nil]

theorem Kq.sched (s : St) (d : ℤ) (e : Ev) (he : keep e = false) : Kq s (s.sched d e) :=
  ⟨rfl, id, fun h _ => h, rfl, ⟨[], (List.append_nil _).symm, by simp⟩, fun hp => ⟨hp.sched d e, kept_sched s d e he⟩⟩

/-- Schedule and remember the event, so that it may be cancelled. -/
theorem Kq.schedSave (s s' : St) (d : ℤ) (e : Ev) (he : keep e = false) (h1 : s'.now = s.now) (h2 : s'.phyTx = s.phyTx)
    (h3 : s'.state = s.state) (h4 : s'.log = s.log) (h5 : s'.pend = s.pend ++ [(s.nextTid, s.now + d, e)])
    (h6 : s'.nextTid = s.nextTid + 1) (h7 : ∀ t ∈ s'.canc, t ∈ s.canc ∨ t = s.nextTid) (h8 : s'.ackTO = s.ackTO) : Kq s s' := by
  refine ⟨h1, by rw [h2]; exact id, fun h _ => by rw [h3]; exact h, h8, ⟨[], by rw [h4]; simp, by simp⟩, fun hp => ?_⟩
  have hs := hp.sched d e
  refine ⟨⟨?_, ?_, ?_, ?_⟩, ?_⟩
  · rw [h5, h6]; exact hs.lt
  · rw [h5]; exact hs.uniq
  · intro t ht
    rw [h5, h6]
    rcases h7 t ht with h | h
    · exact hs.can t h
    · refine ⟨by omega, fun x hx hxt => ?_⟩
      rcases List.mem_append.1 hx with h3 | h3
      · have h8 : x.1 < s.nextTid := hp.lt _ h3
        omega
      · rw [List.mem_singleton.1 h3]; exact he
  · rw [h8, h5, h6]; exact hs.ack
  · rw [h5]; exact kept_sched s d e he

theorem Kq.emit (s : St) (o : Obs) (ho : uniData o = false) : Kq s (s.emit o) :=
  ⟨rfl, id, fun h _ => h, rfl, ⟨[o], rfl, by simpa using ho⟩, fun hp => ⟨⟨hp.lt, hp.uniq, hp.can, hp.ack⟩, rfl⟩⟩

theorem Kq.schedCca (s : St) (d : ℤ) (e : Ev) (he : keep e = false) : Kq s (s.schedCca d e) :=
  (Kq.sched s d e he).trans (.same' rfl rfl (.inl rfl) rfl rfl rfl rfl rfl)

theorem Kq.cancel (s : St) (t : Nat) (ht : t ∈ s.canc) : Kq s (s.cancel t) := by
  refine ⟨rfl, id, fun h _ => h, rfl, ⟨[], (List.append_nil _).symm, by simp⟩, fun hp =>
    ⟨hp.less List.filter_sublist rfl (fun _ h => h) (fun _ h => h), ?_⟩⟩
  refine kept_filter (fun e he => ?_)
  obtain ⟨he1, he2⟩ := mem_kept.1 he
  have : e.1 ≠ t := by
    intro h
    rw [(hp.can t ht).2 e he1 h] at he2
    cases he2
  simpa using this

theorem kq_cca (c : Cfg) (s : St) : Kq s (cca c s) := by
  unfold cca
  split_ifs
  · exact .refl
  all_goals exact .schedCca _ _ _ rfl

theorem kq_backoffStart (c : Cfg) (s : St) : Kq s (backoffStart c s) := by
  unfold backoffStart
  dsimp only
  have h : Kq s (drawBackoff c s) := by unfold drawBackoff; split <;> exact .same' rfl rfl (.inl rfl) rfl rfl rfl rfl rfl
  split_ifs
  · exact h.trans (.schedCca _ _ _ rfl)
  · refine h.trans (Kq.schedSave _ _ (drawBackoff c s).boRemain .granted rfl rfl rfl rfl rfl rfl rfl ?_ rfl)
    intro t ht
    simp only [St.canc, List.mem_append, Option.toList_some, List.mem_singleton] at ht ⊢
    rcases ht with ht | ht
    · exact .inl (.inl ht)
    · exact .inr ht

theorem kq_busy (c : Cfg) (s : St) : Kq s (channelBecomesBusy c s) := by
  unfold channelBecomesBusy
  split_ifs
  · refine Kq.trans (b := { s with pend := s.pend.filter (fun e => some e.1 ≠ s.boEv), boRemain := residual c s }) ?_ (kq_cca _ _)
    refine ⟨rfl, id, fun h _ => h, rfl, ⟨[], (List.append_nil _).symm, by simp⟩, fun hp =>
      ⟨hp.less List.filter_sublist rfl (fun _ h => h) (fun _ h => h), ?_⟩⟩
    refine kept_filter (fun e he => ?_)
    obtain ⟨he1, he2⟩ := mem_kept.1 he
    have : some e.1 ≠ s.boEv := by
      intro h
      rw [(hp.can e.1 (by simp [St.canc, ← h])).2 e he1 rfl] at he2
      cases he2
    simpa using this
  · exact kq_cca _ _

theorem kq_updateNav (c : Cfg) (d : ℤ) (s : St) : Kq s (updateNav c d s) := by
  unfold updateNav; split <;> exact .same' rfl rfl (.inl rfl) rfl rfl rfl rfl rfl

theorem kq_updateLocalNav (c : Cfg) (d : ℤ) (s : St) : Kq s (updateLocalNav c d s) := .same' rfl rfl (.inl rfl) rfl rfl rfl rfl rfl

theorem kq_idle (s : St) : Kq s { s with state := .idle } := .same' rfl rfl (.inr (.inl rfl)) rfl rfl rfl rfl rfl

theorem kq_waitTx (s : St) : Kq s { s with state := .waitTx } := .same' rfl rfl (.inr (.inr rfl)) rfl rfl rfl rfl rfl

theorem kq_startOver (c : Cfg) (s : St) : Kq s (startOver c s) :=
  Kq.trans (b := { s with boStart := 0, boRemain := 0 }) (.same' rfl rfl (.inl rfl) rfl rfl rfl rfl rfl) (kq_cca _ _)

/-- A frame that is not a unicast DATA frame. -/
theorem kq_sendPacket (c : Cfg) (f : Frame) (s : St) (hf : uniData (.handed f) = false) : Kq s (sendPacket c f s).2 := by
  unfold sendPacket
  split_ifs with h1 h2
  · refine ⟨rfl, fun h => (by cases h), fun _ h => (by cases h), rfl, ⟨[.handed f], rfl, by simpa using hf⟩, fun hp => ⟨?_, ?_⟩⟩
    · have h : TidK ({ s with state := .tx, pktTx := some f, phyTx := some f } : St) := ⟨hp.lt, hp.uniq, hp.can, hp.ack⟩
      have h' := h.sched (c.frameDur f) (.phyDone f)
      exact ⟨h'.lt, h'.uniq, h'.can, h'.ack⟩
    · exact kept_sched s (c.frameDur f) (.phyDone f) rfl
  · exact Kq.trans (b := { s with state := .idle }) (kq_idle _) (Kq.emit _ _ rfl)
  · exact .refl

theorem kq_enqueue (c : Cfg) (b : Body) (d : Mac48) (g : UInt16) (s : St) : Kq s (enqueue c b d g s).2 := by
  unfold enqueue
  split_ifs
  · exact .emit _ _ rfl
  · dsimp only
    refine (Kq.trans (.same' ?_ ?_ (.inl ?_) ?_ ?_ ?_ ?_ ?_) (Kq.sched _ _ _ rfl)).trans (Kq.emit _ _ rfl) <;> rfl

theorem kq_settle (ok : Bool) (r : Rec) (s : St) : Kq s (settle ok r s) := by
  unfold settle
  dsimp only
  have h := Kq.sched s 0 .results rfl
  split_ifs
  · refine (h.trans (.same' ?_ ?_ (.inr (.inl ?_)) ?_ ?_ ?_ ?_ ?_)).trans (Kq.emit _ _ rfl) <;> rfl
  · refine (h.trans (.same' ?_ ?_ (.inr (.inl ?_)) ?_ ?_ ?_ ?_ ?_)).trans (Kq.emit _ _ rfl) <;> rfl

theorem kq_doneLoop (ok : Bool) (q : UInt16) (rest : List Rec) : ∀ (pre : List Rec) (s : St),
    Kq s (doneLoop ok q pre rest s) := by
  induction hn : rest.length using Nat.strong_induction_on generalizing rest with
  | _ n ih =>
    intro pre s
    match rest with
    | [] => exact .same' rfl rfl (.inl rfl) rfl rfl rfl rfl rfl
    | r :: rest =>
      unfold doneLoop
      split_ifs
      · exact (Kq.sched s 0 .results rfl).trans (.same' rfl rfl (.inr (.inl rfl)) rfl rfl rfl rfl rfl)
      · match rest with
        | [] => exact (kq_settle ok r s).trans (.same' rfl rfl (.inl rfl) rfl rfl rfl rfl rfl)
        | r' :: rest' =>
          exact (kq_settle ok r s).trans (ih _ (by simp only [List.length_cons] at hn; omega) rest' rfl _ _)
      · exact ih _ (by simp only [List.length_cons] at hn; omega) rest rfl _ _

theorem kq_sendDataDone (ok : Bool) (q : UInt16) (s : St) : Kq s (sendDataDone ok q s) := kq_doneLoop _ _ _ _ _

theorem kq_results (s : St) : Kq s (resultsRecord s) := by
  unfold resultsRecord
  split
  · exact .same' rfl rfl (.inl rfl) rfl rfl rfl rfl rfl
  · exact .emit _ _ rfl

theorem kq_sendPacketDone (c : Cfg) (f : Frame) (s : St) :
    Kq (({ s with phyTx := none } : St).emit (.txEnd f)) (sendPacketDone c f s) := by
  unfold sendPacketDone
  dsimp only
  have h2 := kq_idle (({ s with phyTx := none } : St).emit (.txEnd f))
  split
  · exact .refl
  · split
    · exact h2
    · exact h2
    · split
      · exact (h2.trans (kq_sendDataDone _ _ _)).trans (kq_cca _ _)
      · exact h2
    · exact h2.trans (kq_cca _ _)

theorem kq_backoff (c : Cfg) (k : UInt16) (s : St) : Kq s (backoff c k s) :=
  Kq.trans (b := { s with retry := k, rngIdx := s.rngIdx + 1 }) (.same' rfl rfl (.inl rfl) rfl rfl rfl rfl rfl) (Kq.sched _ _ _ rfl)

theorem kq_charge (c : Cfg) (r : Rec) (s : St) : Kq s (charge c r s) := by
  unfold charge
  dsimp only
  have h := Kq.emit s (.timedOut r.pkt r.retry) rfl
  split
  · refine (h.trans (.same' ?_ ?_ (.inl ?_) ?_ ?_ ?_ ?_ ?_)).trans (Kq.sched _ _ _ rfl) <;> rfl
  · exact h.trans (kq_backoff _ _ _)

theorem kq_foldl_charge (c : Cfg) (l : List Rec) (s : St) : Kq s (l.foldl (fun s r => charge c r s) s) := by
  induction l generalizing s with
  | nil => exact .refl
  | cons r l ih => exact (kq_charge c r s).trans (ih _)

theorem kq_timeoutLoop (c : Cfg) (q : UInt16) (s : St) : Kq s (timeoutLoop c q s) :=
  Kq.trans (b := { s with state := .idle, recs := s.recs.map (Rec.bump q) }) (.same' rfl rfl (.inr (.inl rfl)) rfl rfl rfl rfl rfl)
    (kq_foldl_charge _ _ _)

theorem kq_ctsTimeout (c : Cfg) (q : UInt16) (s : St) : Kq s (ctsTimeout c q s) :=
  Kq.trans (b := { s with ctsTO := s.ctsTO.eraseP (fun t => t.seq = q) }) (.same rfl rfl (.inl rfl) rfl rfl rfl (by
    intro t ht
    simp only [St.canc, List.mem_append] at ht ⊢
    rcases ht with ht | ht
    · exact .inl ((List.eraseP_sublist.map _).subset ht)
    · exact .inr ht) rfl) (kq_timeoutLoop _ _ _)

theorem kq_receiveRts (c : Cfg) (me : Mac48) (f : Frame) (g : UInt16) (s : St) : Kq s (receiveRts c me f g s) := by
  unfold receiveRts
  split_ifs
  · exact ((kq_updateNav _ _ _).trans (kq_idle (updateNav c (durOf c g) s))).trans (kq_cca _ _)
  · exact kq_cca _ _
  · exact Kq.trans (b := { updateLocalNav c (durOf c g) s with state := .waitTx }) (.same' rfl rfl (.inr (.inr rfl)) rfl rfl rfl rfl rfl)
      (Kq.sched _ _ _ rfl)

theorem kq_sendCts (c : Cfg) (me d : Mac48) (t : ℤ) (q : UInt16) (s : St) : Kq s (sendCts c me d t q s) := by
  unfold sendCts
  have h := kq_sendPacket c (ctsFrame c me d t q) s (by simp [uniData, ctsFrame])
  split
  · rename_i s' e
    rw [e] at h
    exact h.trans (kq_updateLocalNav _ _ _)
  · rename_i s' e
    rw [e] at h; exact h

theorem kq_sendAck (c : Cfg) (me d : Mac48) (q : UInt16) (s : St) : Kq s (sendAck c me d q s) :=
  (kq_updateLocalNav c _ s).trans (kq_sendPacket c (ackFrame me d q) _ (by simp [uniData, ackFrame]))

theorem kq_forward (f : Frame) (s : St) : Kq s (forwardIfNew f s) := by
  unfold forwardIfNew
  dsimp only
  split
  · exact Kq.trans (b := { s with seqList := (isNewSequence s.seqList f.src f.seq).2 }) (.same' rfl rfl (.inl rfl) rfl rfl rfl rfl rfl)
      (Kq.emit _ _ rfl)
  · exact .same' rfl rfl (.inl rfl) rfl rfl rfl rfl rfl

theorem kq_receiveCts (c : Cfg) (me : Mac48) (f : Frame) (s : St) : Kq s (receiveCts c me f s) := by
  unfold receiveCts
  split
  · exact ((kq_updateNav c (durOf c f.dur) s).trans (kq_idle _)).trans (kq_cca c _)
  · dsimp only
    have h : Kq s (updateLocalNav c (durOf c f.dur) { s with pktData := findPkt f.seq s.recs s.pktData }) :=
      .same' rfl rfl (.inl rfl) rfl rfl rfl rfl rfl
    split
    · rename_i t p h1 h2
      have hm : t ∈ s.ctsTO := List.mem_of_find?_eq_some h1
      refine (h.trans (Kq.cancel _ t.tid ?_)).trans ((kq_waitTx _).trans ((Kq.sched _ _ _ rfl).trans
        (.same rfl rfl (.inl rfl) rfl rfl rfl ?_ rfl)))
      · simp only [St.canc, List.mem_append]
        exact .inl (List.mem_map_of_mem hm)
      · intro t ht
        simp only [St.canc, List.mem_append] at ht ⊢
        rcases ht with ht | ht
        · exact .inl ((List.eraseP_sublist.map _).subset ht)
        · exact .inr ht
    · exact h

theorem kq_sendRts (c : Cfg) (me : Mac48) (p : Pkt) (s : St) : Kq s (sendRts c me p s) := by
  have h := kq_sendPacket c (rtsFrame me p) s (by simp [uniData, rtsFrame])
  unfold sendRts
  split
  · rename_i s' e
    rw [e] at h
    refine (h.trans (kq_updateLocalNav c (ctsTimeoutDur c) s')).trans
      (Kq.schedSave _ _ (ctsTimeoutDur c) (.ctsTimeout p.seq) rfl rfl rfl rfl rfl rfl rfl ?_ rfl)
    intro t ht
    simp only [St.canc, List.mem_append, List.map_append, List.map_cons, List.map_nil, List.mem_singleton] at ht ⊢
    rcases ht with (ht | ht) | ht
    · exact .inl (.inl ht)
    · exact .inr ht
    · exact .inl (.inr ht)
  · rename_i s' e
    rw [e] at h
    exact h.trans (kq_startOver c s')

/-- A unicast DATA frame is handed over and the timeout for its acknowledgement starts. -/
structure Ka (c : Cfg) (me : Mac48) (p : Pkt) (s s' : St) : Prop where
  uni : p.dst ≠ bcast
  now : s'.now = s.now
  free : s.phyTx = none
  phy : s'.phyTx ≠ none
  log : s'.log = s.log ++ [.handed (dataFrame me p)]
  ok : ∃ t, s'.ackTO = s.ackTO ++ [⟨p.seq, t⟩] ∧
    (TidK s → TidK s' ∧ kept s'.pend = kept s.pend ++ [(t, s.now + ackTimeoutDur c p, .ackTimeout p.seq)])

/-- Quiet, or a unicast DATA frame is handed over. -/
def Kx (c : Cfg) (me : Mac48) (s s' : St) : Prop := Kq s s' ∨ ∃ p, Ka c me p s s'

/-- The state after a unicast DATA frame was handed over. -/
theorem ka_sendData (c : Cfg) (me : Mac48) (p : Pkt) (s : St) (hu : p.dst ≠ bcast) (hf : s.phyTx = none) :
    Ka c me p s
      { (updateLocalNav c (ackTimeoutDur c p) ((({ s with state := .tx, pktTx := some (dataFrame me p), phyTx := some (dataFrame me p) } : St).sched
          (c.frameDur (dataFrame me p)) (.phyDone (dataFrame me p))).emit (.handed (dataFrame me p)))).sched (ackTimeoutDur c p) (.ackTimeout p.seq) with
        ackTO := s.ackTO ++ [⟨p.seq, s.nextTid + 1⟩] } := by
  refine ⟨hu, rfl, hf, by simp [St.sched, updateLocalNav, St.emit], rfl, s.nextTid + 1, rfl, fun hp => ⟨?_, ?_⟩⟩
  · have h0 : TidK ({ s with state := .tx, pktTx := some (dataFrame me p), phyTx := some (dataFrame me p) } : St) :=
      ⟨hp.lt, hp.uniq, hp.can, hp.ack⟩
    have h1 := h0.sched (c.frameDur (dataFrame me p)) (.phyDone (dataFrame me p))
    have h2 : TidK (updateLocalNav c (ackTimeoutDur c p) ((({ s with state := .tx, pktTx := some (dataFrame me p), phyTx := some (dataFrame me p) } : St).sched
          (c.frameDur (dataFrame me p)) (.phyDone (dataFrame me p))).emit (.handed (dataFrame me p)))) :=
      ⟨h1.lt, h1.uniq, h1.can, h1.ack⟩
    have h3 := h2.sched (ackTimeoutDur c p) (.ackTimeout p.seq)
    refine ⟨h3.lt, h3.uniq, h3.can, fun x hx => ?_⟩
    rcases List.mem_append.1 hx with hx | hx
    · exact h3.ack x hx
    · rw [List.mem_singleton.1 hx]
      refine ⟨Nat.lt_succ_self _, fun e he het => ?_⟩
      rcases List.mem_append.1 he with h | h
      · have h4 : e.1 < s.nextTid + 1 := h2.lt e h
        have h5 : e.1 = s.nextTid + 1 := het
        omega
      · rw [List.mem_singleton.1 h]
  · show kept ((s.pend ++ [(s.nextTid, s.now + _, .phyDone _)]) ++ [(s.nextTid + 1, s.now + ackTimeoutDur c p, .ackTimeout p.seq)]) = _
    rw [kept_append, kept_append]
    have h1 : kept [(s.nextTid, s.now + c.frameDur (dataFrame me p), Ev.phyDone (dataFrame me p))] = [] := by simp [kept, keep]
    have h2 : kept [(s.nextTid + 1, s.now + ackTimeoutDur c p, Ev.ackTimeout p.seq)] = [(s.nextTid + 1, s.now + ackTimeoutDur c p, .ackTimeout p.seq)] := by
      simp [kept, keep]
    rw [h1, h2, List.append_nil]

theorem Ka.before {p : Pkt} {a b d : St} (h1 : b.now = a.now) (h2 : b.phyTx = a.phyTx) (h3 : b.log = a.log) (h4 : b.ackTO = a.ackTO)
    (h5 : b.pend = a.pend) (h6 : b.nextTid = a.nextTid) (h7 : b.canc = a.canc) (h : Ka c me p b d) : Ka c me p a d := by
  obtain ⟨t, g1, g2⟩ := h.ok
  refine ⟨h.uni, h.now.trans h1, by rw [← h2]; exact h.free, h.phy, by rw [h.log, h3], t, by rw [g1, h4], fun hp => ?_⟩
  have := g2 (hp.less (by rw [h5]) h6 (by rw [h7]; exact fun _ h => h) (by rw [h4]; exact fun _ h => h))
  rw [h5, h1] at this
  exact this

theorem kx_sendData (c : Cfg) (me : Mac48) (p : Pkt) (s : St) : Kx c me s (sendData c me p s) := by
  unfold sendData
  split
  · exact .inl (kq_idle _)
  · by_cases hb : p.dst = bcast
    · have h := kq_sendPacket c (dataFrame me p) { s with pktData := some p } (by simp [uniData, dataFrame, hb])
      have h0 : Kq s { s with pktData := some p } := .same' rfl rfl (.inl rfl) rfl rfl rfl rfl rfl
      refine .inl (h0.trans ?_)
      split
      · rename_i s' e
        rw [e] at h
        rw [if_pos hb]
        exact h.trans (kq_updateLocalNav _ _ _)
      · rename_i s' e
        rw [e] at h
        exact h.trans (kq_startOver c s')
    · unfold sendPacket
      split_ifs with h1 h2
      · dsimp only
        try rw [if_neg hb]
        exact .inr ⟨p, Ka.before (b := { s with pktData := some p }) rfl rfl rfl rfl rfl rfl rfl (ka_sendData c me p { s with pktData := some p } hb h2)⟩
      · exact .inl ((((Kq.same' rfl rfl (.inl rfl) rfl rfl rfl rfl rfl : Kq s { s with pktData := some p }).trans (kq_idle _)).trans
          (Kq.emit _ (.refused _) rfl)).trans (kq_startOver c _))
      · exact .inl ((Kq.same' rfl rfl (.inl rfl) rfl rfl rfl rfl rfl : Kq s { s with pktData := some p }).trans (kq_startOver c _))

theorem kx_granted (c : Cfg) (me : Mac48) (s : St) : Kx c me s (granted c me s) := by
  unfold granted
  split
  · exact .inl .refl
  · rename_i p rest e
    dsimp only
    have h0 : Kq s { s with boStart := 0, boRemain := 0, pktData := some p, state := .waitTx } :=
      .same' rfl rfl (.inr (.inr rfl)) rfl rfl rfl rfl rfl
    split
    · exact .inl (h0.trans (kq_sendRts c me p _))
    · rcases kx_sendData c me p { s with boStart := 0, boRemain := 0, pktData := some p, state := .waitTx } with h | ⟨p', h⟩
      · exact .inl (h0.trans h)
      · exact .inr ⟨p', Ka.before (b := { s with boStart := 0, boRemain := 0, pktData := some p, state := .waitTx }) rfl rfl rfl rfl rfl rfl rfl h⟩

/-! ## One operation -/

theorem TidK.pop {s : St} (hp : TidK s) (t : Nat) (n : ℤ) : TidK { s with pend := s.pend.filter (fun e => e.1 ≠ t), now := n } :=
  hp.less List.filter_sublist rfl (fun _ h => h) (fun _ h => h)

/-- The acknowledgement that is scheduled on reception of DATA. -/
theorem kq_receiveData (c : Cfg) (me : Mac48) (f : Frame) (s : St) :
    ((f.dst = bcast ∨ f.dst ≠ me) ∧ Kq s (receiveData c me f s)) ∨
    (f.dst ≠ bcast ∧ f.dst = me ∧ Kq (({ updateLocalNav c (durOf c f.dur) s with state := .waitTx } : St).sched c.sifs (.sendAck f.src f.seq))
      (receiveData c me f s)) := by
  unfold receiveData
  split_ifs with h1 h2
  · exact .inl ⟨.inl h1, ((kq_idle s).trans (kq_forward f _)).trans (kq_cca c _)⟩
  · exact .inl ⟨.inr h2, ((kq_updateNav _ _ _).trans (kq_idle (updateNav c (durOf c f.dur) s))).trans (kq_cca _ _)⟩
  · exact .inr ⟨h1, by_contra h2, kq_forward f _⟩

/-- The success that is scheduled on reception of an ACK. -/
theorem kq_receiveAck (c : Cfg) (me : Mac48) (f : Frame) (s : St) :
    ((f.dst = me → ∀ x ∈ s.ackTO, x.seq ≠ f.seq) ∧ Kq s (receiveAck c me f s)) ∨
    ∃ x, f.dst = me ∧ x ∈ s.ackTO ∧ x.seq = f.seq ∧
      receiveAck c me f s = { (({ s with state := .idle } : St).cancel x.tid).sched (c.ps 1) (.sendDataDone true f.seq) with
        ackTO := s.ackTO.eraseP (fun t => t.seq = f.seq) } := by
  unfold receiveAck
  dsimp only
  have h := kq_idle s
  split
  · rename_i hd
    split
    · rename_i t ht
      exact .inr ⟨t, hd, List.mem_of_find?_eq_some ht, by simpa using List.find?_some ht, rfl⟩
    · rename_i ht
      refine .inl ⟨fun _ x hx => ?_, h.trans (kq_cca _ _)⟩
      have := List.find?_eq_none.1 ht x hx
      simpa using this
  · rename_i hd
    exact .inl ⟨fun h => absurd h hd, h.trans (kq_cca _ _)⟩

theorem TidK.ackIn {s : St} (hp : TidK s) (x : TO) (d : ℤ) (q : UInt16) :
    TidK { (({ s with state := .idle } : St).cancel x.tid).sched d (.sendDataDone true q) with
        ackTO := s.ackTO.eraseP (fun t => t.seq = q) } := by
  have h1 : TidK (({ s with state := .idle } : St).cancel x.tid) := hp.less List.filter_sublist rfl (fun _ h => h) (fun _ h => h)
  have h2 := h1.sched d (.sendDataDone true q)
  exact h2.less (List.Sublist.refl _) rfl (fun _ h => h) (fun y hy => List.eraseP_sublist.subset hy)

theorem kept_ackIn (s : St) (x : TO) (d : ℤ) (q : UInt16) :
    kept ({ (({ s with state := .idle } : St).cancel x.tid).sched d (.sendDataDone true q) with
        ackTO := s.ackTO.eraseP (fun t => t.seq = q) } : St).pend =
      (kept s.pend).filter (fun e => e.1 ≠ x.tid) ++ [(s.nextTid, s.now + d, .sendDataDone true q)] := by
  show kept (s.pend.filter (fun e => e.1 ≠ x.tid) ++ [(s.nextTid, s.now + d, .sendDataDone true q)]) = _
  rw [kept_append]
  congr 1
  unfold kept
  rw [List.filter_filter, List.filter_filter]
  congr 1
  funext e
  exact Bool.and_comm _ _

theorem fire_eq (c : Cfg) (me : Mac48) (s : St) {tid : Nat} {x : Nat × ℤ × Ev} (h : s.pend.find? (fun e => e.1 = tid) = some x) :
    step c me s (.fire tid) = runEv c me x.2.2 { s with pend := s.pend.filter (fun e => e.1 ≠ tid), now := max s.now x.2.1 } := by
  show fire c me tid s = _
  unfold fire
  rw [h]

theorem fire_none (c : Cfg) (me : Mac48) (s : St) {tid : Nat} (h : s.pend.find? (fun e => e.1 = tid) = none) :
    step c me s (.fire tid) = s := by
  show fire c me tid s = _
  unfold fire
  rw [h]

/-- The parts of an operation: `s1` is the state before the quiet part. -/
inductive Kop (c : Cfg) (me : Mac48) (s : St) : Op → St → Prop
  | quiet (o : Op) (s' : St) (ho : ∀ t, o ≠ .fire t) (hd : ∀ f g, o = .rxDone f true g → f.kind = .data → f.dst = bcast ∨ f.dst ≠ me)
      (hn : s.ackTO = s'.ackTO) (hlog : ∃ l, s'.log = s.log ++ l ∧ ∀ x ∈ l, uniData x = false)
      (ha : ∀ f g, o = .rxDone f true g → f.kind = .ack → f.dst = me → ∀ x ∈ s.ackTO, x.seq ≠ f.seq)
      (hst : o ≠ .rxStart → s.state = .idle ∨ s.state = .waitTx → s'.phyTx = none → s'.state = .idle ∨ s'.state = .waitTx)
      (hk : TidK s → TidK s' ∧ kept s'.pend = kept s.pend) : Kop c me s o s'
  | data (f : Frame) (g : UInt16) (s' : St) (hf : f.kind = .data ∧ f.dst ≠ bcast ∧ f.dst = me) (hn : s.ackTO = s'.ackTO)
      (hlog : ∃ l, s'.log = s.log ++ l ∧ ∀ x ∈ l, uniData x = false)
      (hst : s'.phyTx = none → s'.state = .idle ∨ s'.state = .waitTx)
      (hk : TidK s → TidK s' ∧ kept s'.pend = kept s.pend ++ [(s.nextTid, s.now + c.sifs, .sendAck f.src f.seq)]) :
      Kop c me s (.rxDone f true g) s'
  | ack (f : Frame) (g : UInt16) (x : TO) (hf : f.kind = .ack ∧ f.dst = me) (hx : x ∈ s.ackTO ∧ x.seq = f.seq) (s' : St)
      (ha : s'.ackTO = s.ackTO.eraseP (fun t => t.seq = f.seq)) (hlog : ∃ l, s'.log = s.log ++ l ∧ ∀ x ∈ l, uniData x = false)
      (hst : s'.state = .idle)
      (hk : TidK s → TidK s' ∧ kept s'.pend = (kept s.pend).filter (fun e => e.1 ≠ x.tid) ++
        [(s.nextTid, s.now + c.ps 1, .sendDataDone true f.seq)]) : Kop c me s (.rxDone f true g) s'
  | none (tid : Nat) (hf : s.pend.find? (fun e => e.1 = tid) = none) : Kop c me s (.fire tid) s
  | fire (tid : Nat) (x : Nat × ℤ × Ev) (s' : St) (hf : s.pend.find? (fun e => e.1 = tid) = some x)
      (hn : s'.ackTO = match x.2.2 with
        | .ackTimeout q => s.ackTO.eraseP (fun t => t.seq = q)
        | _ => s.ackTO)
      (hlog : ∃ l, s'.log = s.log ++ l ∧ ∀ x ∈ l, uniData x = false)
      (hst : s.state = .idle ∨ s.state = .waitTx → s'.phyTx = none → s'.state = .idle ∨ s'.state = .waitTx)
      (hk : TidK s → TidK s' ∧ kept s'.pend = (kept s.pend).filter (fun e => e.1 ≠ tid)) : Kop c me s (.fire tid) s'
  | send (tid : Nat) (x : Nat × ℤ × Ev) (s' : St) (p : Pkt) (t : Nat) (hf : s.pend.find? (fun e => e.1 = tid) = some x)
      (hu : p.dst ≠ bcast) (hfree : s.phyTx = none) (hphy : s'.phyTx ≠ none) (hlog : s'.log = s.log ++ [.handed (dataFrame me p)])
      (hn : s'.ackTO = s.ackTO ++ [⟨p.seq, t⟩])
      (hk : TidK s → TidK s' ∧ kept s'.pend = (kept s.pend).filter (fun e => e.1 ≠ tid) ++
        [(t, max s.now x.2.1 + ackTimeoutDur c p, .ackTimeout p.seq)]) : Kop c me s (.fire tid) s'

theorem kept_pop (l : List (Nat × ℤ × Ev)) (t : Nat) : kept (l.filter (fun e => e.1 ≠ t)) = (kept l).filter (fun e => e.1 ≠ t) := by
  unfold kept
  rw [List.filter_filter, List.filter_filter]
  congr 1
  funext e
  exact Bool.and_comm _ _

theorem kop_fire {s s' : St} {tid : Nat} {x : Nat × ℤ × Ev} (hf : s.pend.find? (fun e => e.1 = tid) = some x)
    (hx : ∀ q, x.2.2 ≠ .ackTimeout q)
    (h : Kq { s with pend := s.pend.filter (fun e => e.1 ≠ tid), now := max s.now x.2.1 } s') : Kop c me s (.fire tid) s' := by
  refine .fire tid x s' hf ?_ h.log h.state (fun hp => ?_)
  · rw [h.ack]
    split
    · rename_i q e; exact absurd e (hx q)
    · rfl
  · obtain ⟨h1, h2⟩ := h.ok (hp.pop tid _)
    exact ⟨h1, by rw [h2]; exact kept_pop _ _⟩

theorem kop_send {s s' : St} {tid : Nat} {x : Nat × ℤ × Ev} (hf : s.pend.find? (fun e => e.1 = tid) = some x)
    (hx : ∀ q, x.2.2 ≠ .ackTimeout q)
    (h : Kx c me { s with pend := s.pend.filter (fun e => e.1 ≠ tid), now := max s.now x.2.1 } s') : Kop c me s (.fire tid) s' := by
  rcases h with h | ⟨p, h⟩
  · exact kop_fire hf hx h
  · obtain ⟨t, h1, h2⟩ := h.ok
    refine .send tid x s' p t hf h.uni h.free h.phy h.log h1 (fun hp => ?_)
    obtain ⟨h3, h4⟩ := h2 (hp.pop tid _)
    exact ⟨h3, by rw [h4]; congr 1; exact kept_pop _ _⟩

theorem kop_quiet {s s' : St} {o : Op} (ho : ∀ t, o ≠ .fire t) (hd : ∀ f ok g, o ≠ .rxDone f ok g) (h : Kq s s') : Kop c me s o s' :=
  .quiet o s' ho (fun _ _ e => absurd e (hd _ _ _)) h.ack.symm h.log (fun _ _ e => absurd e (hd _ _ _)) (fun _ => h.state) h.ok

theorem kq_rx {s s' : St} (f : Frame) (h : Kq (({ s with state := .idle } : St).emit (.rx f)) s') : Kq s s' :=
  ((kq_idle s).trans (Kq.emit _ (.rx f) rfl)).trans h

/-- Every operation has these parts. -/
theorem kop_step (c : Cfg) (me : Mac48) (s : St) (o : Op) : Kop c me s o (step c me s o) := by
  cases o with
  | enqueue b d g => exact kop_quiet (by simp) (by simp) (kq_enqueue c b d g s)
  | sense b => exact kop_quiet (by simp) (by simp) (.same' rfl rfl (.inl rfl) rfl rfl rfl rfl rfl)
  | advance d =>
    exact .quiet _ _ (by simp) (by simp) rfl ⟨[], (List.append_nil _).symm, by simp⟩ (by simp) (fun _ h _ => h)
      (fun hp => ⟨⟨hp.lt, hp.uniq, hp.can, hp.ack⟩, rfl⟩)
  | rxStart =>
    have h1 := kq_busy c s
    have h : (receivePacket c s).ackTO = s.ackTO ∧ (∃ l, (receivePacket c s).log = s.log ++ l ∧ ∀ x ∈ l, uniData x = false) ∧
        (TidK s → TidK (receivePacket c s) ∧ kept (receivePacket c s).pend = kept s.pend) := by
      unfold receivePacket
      dsimp only
      split
      · exact ⟨h1.ack, h1.log, h1.ok⟩
      · refine ⟨h1.ack, h1.log, fun hp => ?_⟩
        obtain ⟨h2, h3⟩ := h1.ok hp
        exact ⟨⟨h2.lt, h2.uniq, h2.can, h2.ack⟩, h3⟩
    exact .quiet _ _ (by simp) (by simp) h.1.symm h.2.1 (by simp) (fun h => absurd rfl h) h.2.2
  | rxDone f ok g =>
    show Kop c me s _ (receivePacketDone c me f ok g s)
    have mk : ∀ {s'}, Kq s s' → (f.kind = .data → f.dst = bcast ∨ f.dst ≠ me) →
        (f.kind = .ack → f.dst = me → ∀ x ∈ s.ackTO, x.seq ≠ f.seq) → Kop c me s (.rxDone f ok g) s' := fun h h1 h2 =>
      .quiet _ _ (by simp) (fun f' g' e hk => by cases e; exact h1 hk) h.ack.symm h.log (fun f' g' e hk => by cases e; exact h2 hk)
        (fun _ => h.state) h.ok
    unfold receivePacketDone
    dsimp only
    cases ok with
    | false =>
      exact .quiet _ _ (by simp) (by simp) rfl ⟨[], (List.append_nil _).symm, by simp⟩ (by simp) (fun _ _ _ => .inl rfl)
        (kq_idle s).ok
    | true =>
      simp only [Bool.true_eq_false, if_false]
      split
      · rename_i e
        exact mk (kq_rx f (kq_receiveRts c me f g _)) (by rw [e]; simp) (by rw [e]; simp)
      · rename_i e
        exact mk (kq_rx f (kq_receiveCts c me f _)) (by rw [e]; simp) (by rw [e]; simp)
      · rename_i e
        rcases kq_receiveData c me f (({ s with state := .idle } : St).emit (.rx f)) with ⟨h1, h2⟩ | ⟨h1, h2, h3⟩
        · exact mk (kq_rx f h2) (fun _ => h1) (by rw [e]; simp)
        · refine .data f g _ ⟨e, h1, h2⟩ h3.ack.symm ?_ (h3.state (.inr rfl)) (fun hp => ?_)
          · obtain ⟨l, e1, e2⟩ := h3.log
            refine ⟨.rx f :: l, ?_, ?_⟩
            · rw [e1]
              show (s.log ++ [_]) ++ l = _
              simp
            · intro o ho
              rcases List.mem_cons.1 ho with rfl | ho
              · rfl
              · exact e2 o ho
          · have h4 : TidK ({ updateLocalNav c (durOf c f.dur) (({ s with state := .idle } : St).emit (.rx f)) with state := .waitTx } : St) :=
              ⟨hp.lt, hp.uniq, hp.can, hp.ack⟩
            obtain ⟨h5, h6⟩ := h3.ok (h4.sched c.sifs (.sendAck f.src f.seq))
            refine ⟨h5, ?_⟩
            rw [h6]
            show kept (s.pend ++ [(s.nextTid, s.now + c.sifs, .sendAck f.src f.seq)]) = _
            rw [kept_append]
            congr 1
      · rename_i e
        rcases kq_receiveAck c me f (({ s with state := .idle } : St).emit (.rx f)) with ⟨h1, h2⟩ | ⟨x, h1, h2, h3, h4⟩
        · exact mk (kq_rx f h2) (by rw [e]; simp) (fun _ => h1)
        · refine Kop.ack (s := s) f g x ⟨e, h1⟩ ⟨h2, h3⟩ (receiveAck c me f (({ s with state := .idle } : St).emit (.rx f))) (by rw [h4]; rfl) ⟨[.rx f], by rw [h4]; rfl, by simp [uniData]⟩ (by rw [h4]; rfl)
            (fun hp => ?_)
          rw [h4]
          constructor
          · have h5 : TidK (({ s with state := .idle } : St).emit (.rx f)) := ⟨hp.lt, hp.uniq, hp.can, hp.ack⟩
            exact h5.ackIn x _ _
          · exact kept_ackIn (({ s with state := .idle } : St).emit (.rx f)) x (c.ps 1) f.seq
      · rename_i e
        exact mk (kq_rx f (kq_cca c _)) (by rw [e]; simp) (by rw [e]; simp)
  | fire tid =>
    cases hf : s.pend.find? (fun e => e.1 = tid) with
    | none => rw [fire_none c me s hf]; exact .none tid hf
    | some x =>
      rw [fire_eq c me s hf]
      obtain ⟨t, due, e⟩ := x
      dsimp only
      unfold runEv
      cases e with
      | cca => exact kop_fire hf (by simp) (kq_cca _ _)
      | backoffStart => exact kop_fire hf (by simp) (kq_backoffStart _ _)
      | granted => exact kop_send hf (by simp) (kx_granted _ _ _)
      | ctsTimeout x => exact kop_fire hf (by simp) (kq_ctsTimeout _ _ _)
      | ackTimeout q =>
        set s1 : St := { s with pend := s.pend.filter (fun e => e.1 ≠ tid), now := max s.now due } with hs1
        have h : Kq { s1 with ackTO := s1.ackTO.eraseP (fun t => t.seq = q) } (ackTimeout c q s1) := kq_timeoutLoop _ _ _
        refine .fire tid _ _ hf h.ack h.log h.state (fun hp => ?_)
        obtain ⟨h1, h2⟩ := h.ok ((hp.pop tid _).less (List.Sublist.refl _) rfl (fun _ h => h) (fun y hy => List.eraseP_sublist.subset hy))
        exact ⟨h1, by rw [h2]; exact kept_pop _ _⟩
      | sendCts d y x => exact kop_fire hf (by simp) (kq_sendCts _ _ _ _ _ _)
      | sendData p => exact kop_send hf (by simp) (kx_sendData _ _ _ _)
      | sendAck d x => exact kop_fire hf (by simp) (kq_sendAck _ _ _ _ _)
      | sendDataDone ok x => exact kop_fire hf (by simp) (kq_sendDataDone _ _ _)
      | results => exact kop_fire hf (by simp) (kq_results _)
      | phyDone f =>
        set s1 : St := { s with pend := s.pend.filter (fun e => e.1 ≠ tid), now := max s.now due } with hs1
        have h := kq_sendPacketDone c f s1
        refine .fire tid _ _ hf h.ack ?_ h.state (fun hp => ?_)
        · obtain ⟨l, e1, e2⟩ := h.log
          refine ⟨.txEnd f :: l, ?_, ?_⟩
          · show (sendPacketDone c f s1).log = _
            rw [e1]
            show (s.log ++ [_]) ++ l = _
            simp
          · intro o ho
            rcases List.mem_cons.1 ho with rfl | ho
            · rfl
            · exact e2 o ho
        · have h0 := hp.pop tid (max s.now due)
          obtain ⟨h1, h2⟩ := h.ok ⟨h0.lt, h0.uniq, h0.can, h0.ack⟩
          exact ⟨h1, by rw [h2]; exact kept_pop _ _⟩

end Thz.Macro
