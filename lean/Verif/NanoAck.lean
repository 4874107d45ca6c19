import Verif.NanoLive

/-!
# Waiting for an acknowledgement

Shape of a step of the nano MAC: all that it does other than sending DATA, then possibly the sending of one DATA frame
(`step_shape`).  A packet whose acknowledgement is awaited (`Waiting`) stays so until its timeout runs or the acknowledgement comes,
which makes it a success (`waiting_step`).
-/

namespace Thz.Nano

open Thz

/-- Between `s` and `s'` no DATA frame is sent and no wait for an acknowledgement begins. -/
structure NoData (c : Cfg) (s s' : St) : Prop where
  tid : s.nextTid ≤ s'.nextTid
  pend : ∀ e ∈ s'.pend, e ∈ s.pend ∨ (s.nextTid ≤ e.1 ∧ (∀ q, e.2 ≠ .ackTimeout q) ∧ (c.rts = false → ∀ p, e.2 ≠ .ctsTimeout p))
  ack : ∀ a ∈ s'.ackTO, a ∈ s.ackTO
  log : Adds (fun o => ∀ f, o = .tx f → f.kind ≠ .data) s s'

theorem NoData.refl {c : Cfg} {s : St} : NoData c s s := ⟨le_refl _, fun _ h => .inl h, fun _ h => h, Adds.refl⟩

theorem NoData.trans {c : Cfg} {s s1 s2 : St} (h1 : NoData c s s1) (h2 : NoData c s1 s2) : NoData c s s2 where
  tid := h1.tid.trans h2.tid
  pend := by
    intro e he
    rcases h2.pend e he with h | ⟨h, h'⟩
    · exact h1.pend e h
    · exact .inr ⟨h1.tid.trans h, h'⟩
  ack := fun a ha => h1.ack a (h2.ack a ha)
  log := h1.log.trans h2.log

/-- Nothing is scheduled. -/
theorem NoData.still {c : Cfg} {s s' : St} (h1 : s'.nextTid = s.nextTid) (h2 : ∀ e ∈ s'.pend, e ∈ s.pend) (h3 : ∀ a ∈ s'.ackTO, a ∈ s.ackTO)
    (h4 : Adds (fun o => ∀ f, o = .tx f → f.kind ≠ .data) s s') : NoData c s s' :=
  ⟨by rw [h1], fun e he => .inl (h2 e he), h3, h4⟩

/-- One event is scheduled. -/
theorem NoData.sched {c : Cfg} {s s' : St} {ev : Ev} (h1 : s'.nextTid = s.nextTid + 1) (h2 : s'.pend = s.pend ++ [(s.nextTid, ev)])
    (h3 : ∀ a ∈ s'.ackTO, a ∈ s.ackTO) (h4 : Adds (fun o => ∀ f, o = .tx f → f.kind ≠ .data) s s')
    (h5 : ∀ q, ev ≠ .ackTimeout q) (h6 : c.rts = false → ∀ p, ev ≠ .ctsTimeout p) : NoData c s s' := by
  refine ⟨by omega, ?_, h3, h4⟩
  intro e he
  rw [h2] at he
  rcases List.mem_append.1 he with he | he
  · exact .inl he
  · rw [List.mem_singleton.1 he]
    exact .inr ⟨le_refl _, h5, h6⟩

/-- No packet completes. -/
def NoDone (s s' : St) : Prop := Adds (fun o => ∀ ok p, o ≠ .done ok p) s s'

/-- All that a step does other than sending DATA, then possibly the sending of one DATA frame. -/
def Shape (c : Cfg) (me : Mac48) (s s' : St) : Prop :=
  NoData c s s' ∨ ∃ s1 p, NoData c s s1 ∧ NoDone s s1 ∧ s' = sendData me p s1

theorem Shape.after {c : Cfg} {me : Mac48} {s s1 s' : St} (h : Shape c me s1 s') (h1 : NoData c s s1) (h2 : NoDone s s1) : Shape c me s s' := by
  rcases h with h | ⟨s2, p, h3, h4, h5⟩
  · exact .inl (h1.trans h)
  · exact .inr ⟨s2, p, h1.trans h3, Adds.trans h2 h4, h5⟩

theorem noData_book {c : Cfg} (s : St) (tx rx : Nat) : NoData c s (s.book c tx rx).2 :=
  .still rfl (fun _ h => h) (fun _ h => h) (Adds.one rfl (by simp))

theorem noDone_book {c : Cfg} (s : St) (tx rx : Nat) : NoDone s (s.book c tx rx).2 := Adds.one rfl (by simp)

theorem noData_emit {c : Cfg} (s : St) {o : Obs} (ho : ∀ f, o = .tx f → f.kind ≠ .data) : NoData c s (s.emit o) :=
  .still rfl (fun _ h => h) (fun _ h => h) (Adds.one rfl ho)

theorem noDone_emit (s : St) {o : Obs} (ho : ∀ ok p, o ≠ .done ok p) : NoDone s (s.emit o) := Adds.one rfl ho

theorem shape_checkResources (c : Cfg) (me : Mac48) (p : Pkt) (s : St) : Shape c me s (checkResources c me p s) := by
  unfold checkResources
  dsimp only
  split_ifs with h1 h2 h2
  · refine .inl ((noData_book s (p.size + 18) (2 * 18)).trans ?_)
    refine .sched (ev := .ctsTimeout p) rfl rfl (fun _ h => h) (Adds.one rfl (by simp)) (by simp) ?_
    intro hc
    rw [hc] at h1
    exact absurd h1.2 (by simp)
  · exact .inl ((noData_book s _ _).trans (noData_emit _ (by simp)))
  · exact .inr ⟨_, p, noData_book s _ _, noDone_book s _ _, rfl⟩
  · exact .inl ((noData_book s _ _).trans (noData_emit _ (by simp)))

theorem shape_txFirstPacket (c : Cfg) (me : Mac48) (s : St) : Shape c me s (txFirstPacket c me s) := by
  unfold txFirstPacket
  split
  · exact .inl .refl
  · exact shape_checkResources c me _ s

theorem shape_harvest (c : Cfg) (me : Mac48) (s : St) : Shape c me s (harvest c me s) := by
  unfold harvest
  dsimp only
  split_ifs
  · exact (shape_txFirstPacket c me _).after (.still rfl (fun _ h => h) (fun _ h => h) (Adds.of_eq rfl)) (Adds.of_eq rfl)
  · exact .inl (.still rfl (fun _ h => h) (fun _ h => h) (Adds.of_eq rfl))

theorem shape_enqueue (c : Cfg) (me : Mac48) (b : Body) (d : Mac48) (s : St) : Shape c me s (enqueue c me b d s).2 := by
  unfold enqueue
  dsimp only
  split_ifs
  · exact .inl .refl
  · exact .inl .refl
  · exact .inl (.still rfl (fun _ h => h) (fun _ h => h) (Adds.one rfl (by simp)))
  · exact (shape_txFirstPacket c me _).after (.still rfl (fun _ h => h) (fun _ h => h) (Adds.one rfl (by simp))) (Adds.one rfl (by simp))

theorem noData_startNext {c : Cfg} (p : Pkt) (s : St) : NoData c s (startNext p s) := by
  unfold startNext
  split
  · exact .sched (ev := .checkResources _) rfl rfl (fun _ h => h) (Adds.of_eq rfl) (by simp) (by simp)
  · exact .refl

theorem noData_sendDataDone {c : Cfg} (ok : Bool) (p : Pkt) (s : St) : NoData c s (sendDataDone ok p s) := by
  obtain ⟨h1, h2, -, h3, -⟩ := sendDataDone_rest ok p s
  have h := noData_startNext (c := c) p s
  refine ⟨by rw [h3]; exact h.tid, by rw [h1]; exact h.pend, by rw [h2]; exact fun _ h => h, ?_⟩
  exact (sendDataDone_adds ok p s).mono (by rintro o ⟨t, -, -, rfl⟩; simp)

theorem noData_retryOrDiscard {c : Cfg} (q : UInt16) (g : Pkt → Pkt) (s : St) : NoData c s (retryOrDiscard c q g s) := by
  unfold retryOrDiscard
  split
  · exact .refl
  · dsimp only
    have h : NoData c s { s with pktTx := bumpRetry q s.pktTx } := .still rfl (fun _ h => h) (fun _ h => h) (Adds.of_eq rfl)
    split_ifs
    · exact h.trans (noData_sendDataDone false _ _)
    · exact h.trans (.sched (ev := .checkResources _) rfl rfl (fun _ h => h) (Adds.one rfl (by simp)) (by simp) (by simp))

theorem noData_ctsTimeout {c : Cfg} (p : Pkt) (s : St) : NoData c s (ctsTimeout c p s) := by
  unfold ctsTimeout
  exact NoData.trans (s1 := ctsPre c p s) (.still rfl (fun _ h => h) (fun _ h => h)
    ⟨[.ret c.frameLength (2 * 18), .timeout p.seq], rfl, by simp⟩) (noData_retryOrDiscard _ _ _)

theorem noData_ackTimeout {c : Cfg} (q : UInt16) (s : St) : NoData c s (ackTimeout c q s) := by
  unfold ackTimeout
  exact NoData.trans (s1 := ackPre c q s) (.still rfl (fun _ h => h) (fun _ h => List.mem_of_mem_eraseP h)
    ⟨[.ret 0 18, .timeout q], rfl, by simp⟩) (noData_retryOrDiscard _ _ _)

theorem noData_dataTimeout {c : Cfg} (q : UInt16) (s : St) : NoData c s (dataTimeout c q s) :=
  .still rfl (fun _ h => h) (fun _ h => h) (Adds.one rfl (by simp))

theorem shape_fire (c : Cfg) (me : Mac48) (tid : Nat) (s : St) : Shape c me s (fire c me tid s) := by
  unfold fire
  split
  · have h : NoData c s { s with pend := s.pend.filter (fun e => e.1 ≠ tid) } :=
      .still rfl (fun _ h => List.mem_of_mem_filter h) (fun _ h => h) (Adds.of_eq rfl)
    unfold runEv
    split
    · exact .inl (h.trans (noData_ctsTimeout _ _))
    · exact .inl (h.trans (noData_ackTimeout _ _))
    · exact .inl (h.trans (noData_dataTimeout _ _))
    · exact (shape_checkResources c me _ _).after h (Adds.of_eq rfl)
  · exact .inl .refl

theorem noData_receiveRts (c : Cfg) (me : Mac48) (f : Frame) (s : St) : NoData c s (receiveRts c me f s) := by
  unfold receiveRts
  dsimp only
  split_ifs
  · exact noData_book s _ _
  · refine ((noData_book s 0 f.size).trans (noData_book _ (2 * f.size) c.frameLength)).trans ?_
    exact .sched (ev := .dataTimeout f.seq) rfl rfl (fun _ h => h) (Adds.one rfl (by simp)) (by simp) (by simp)
  · exact (noData_book s _ _).trans (noData_book _ _ _)

theorem shape_receiveCts (c : Cfg) (me : Mac48) (f : Frame) (s : St) : Shape c me s (receiveCts me f s) := by
  unfold receiveCts
  split_ifs
  · exact .inl .refl
  have h : NoData c s (clearCts f.seq s) ∧ (clearCts f.seq s).log = s.log := by
    unfold clearCts
    split
    · exact ⟨.still rfl (fun _ h => List.mem_of_mem_filter h) (fun _ h => h) (Adds.of_eq rfl), rfl⟩
    · exact ⟨.refl, rfl⟩
  unfold answerCts
  split
  · exact .inr ⟨_, _, h.1, Adds.of_eq h.2, rfl⟩
  · exact .inl h.1

theorem noData_filterUp {c : Cfg} (f : Frame) (s : St) : NoData c s (filterUp f s) := by
  unfold filterUp
  dsimp only
  split_ifs
  · exact .still rfl (fun _ h => h) (fun _ h => h) (Adds.one rfl (by simp))
  · exact .still rfl (fun _ h => h) (fun _ h => h) (Adds.of_eq rfl)

theorem noData_clearData {c : Cfg} (q : UInt16) (s : St) : NoData c s (clearData q s) := by
  unfold clearData
  split
  · exact .still rfl (fun _ h => List.mem_of_mem_filter h) (fun _ h => h) (Adds.of_eq rfl)
  · exact .refl

theorem noData_acceptData {c : Cfg} (me : Mac48) (f : Frame) (s : St) : NoData c s (acceptData me f s) := by
  unfold acceptData
  exact ((noData_clearData _ _).trans (noData_emit _ (by simp))).trans (noData_filterUp _ _)

theorem noData_receiveData {c : Cfg} (me : Mac48) (f : Frame) (s : St) : NoData c s (receiveData c me f s) := by
  unfold receiveData
  dsimp only
  split_ifs
  · exact noData_filterUp _ _
  · exact .refl
  · exact (noData_book s _ _).trans (noData_acceptData _ _ _)
  · exact noData_book s _ _
  · exact noData_acceptData _ _ _

theorem noData_receiveAck {c : Cfg} (me : Mac48) (f : Frame) (s : St) : NoData c s (receiveAck me f s) := by
  unfold receiveAck
  split_ifs
  · split
    · rename_i a ha
      dsimp only
      refine NoData.trans (s1 := s.cancel a.tid) (.still rfl (fun _ h => List.mem_of_mem_filter h) (fun _ h => h) (Adds.of_eq rfl)) ?_
      refine NoData.trans (noData_sendDataDone true a.pkt _) ?_
      exact .still rfl (fun _ h => h) (fun _ h => List.mem_of_mem_eraseP h) (Adds.of_eq rfl)
    · exact .refl
  · exact .refl

/-- Every step has this shape. -/
theorem step_shape (c : Cfg) (me : Mac48) (s : St) (op : Op) : Shape c me s (step c me s op) := by
  cases op with
  | enqueue b d => exact shape_enqueue c me b d s
  | fire tid => exact shape_fire c me tid s
  | harvest => exact shape_harvest c me s
  | einit => exact (shape_harvest c me _).after (.still rfl (fun _ h => h) (fun _ h => h) (Adds.of_eq rfl)) (Adds.of_eq rfl)
  | recv f ok =>
    show Shape c me s (receivePacketDone c me f ok s)
    unfold receivePacketDone
    split_ifs
    · exact .inl .refl
    · split
      · exact .inl (noData_receiveRts c me f s)
      · exact shape_receiveCts c me f s
      · exact .inl (noData_receiveData me f s)
      · exact .inl (noData_receiveAck me f s)
      · exact .inl .refl

/-! ## Consequences -/

theorem tid_mono (c : Cfg) (me : Mac48) (s : St) (op : Op) : s.nextTid ≤ (step c me s op).nextTid := by
  rcases step_shape c me s op with h | ⟨s1, p, h1, -, e⟩
  · exact h.tid
  · rw [e]
    refine h1.tid.trans ?_
    unfold sendData
    split_ifs
    · exact le_refl _
    · exact Nat.le_succ _

/-- New events have new numbers. -/
theorem new_events (c : Cfg) (me : Mac48) (s : St) (op : Op) : ∀ e ∈ (step c me s op).pend, e ∈ s.pend ∨ s.nextTid ≤ e.1 := by
  intro e he
  rcases step_shape c me s op with h | ⟨s1, p, h1, -, e'⟩
  · exact (h.pend e he).imp_right (·.1)
  · rw [e'] at he
    unfold sendData at he
    split_ifs at he
    · exact (h1.pend e he).imp_right (·.1)
    · rcases List.mem_append.1 (show e ∈ s1.pend ++ [(s1.nextTid, Ev.ackTimeout p.seq)] from he) with he | he
      · exact (h1.pend e he).imp_right (·.1)
      · rw [List.mem_singleton.1 he]
        exact .inr h1.tid

/-- Without RTS there is never a wait for a CTS. -/
theorem noCts_step {c : Cfg} (hc : c.rts = false) (me : Mac48) {s : St} (op : Op) (h : ∀ i p, (i, Ev.ctsTimeout p) ∉ s.pend) :
    ∀ i p, (i, Ev.ctsTimeout p) ∉ (step c me s op).pend := by
  intro i r he
  rcases step_shape c me s op with h' | ⟨s1, p, h1, -, e'⟩
  · rcases h'.pend _ he with h2 | ⟨-, -, h2⟩
    · exact h i r h2
    · exact h2 hc r rfl
  · rw [e'] at he
    have he' : (i, Ev.ctsTimeout r) ∈ s1.pend := by
      unfold sendData at he
      split_ifs at he
      · exact he
      · rcases List.mem_append.1 (show (i, Ev.ctsTimeout r) ∈ s1.pend ++ [(s1.nextTid, Ev.ackTimeout p.seq)] from he) with he | he
        · exact he
        · simp at he
    rcases h1.pend _ he' with h2 | ⟨-, -, h2⟩
    · exact h i r h2
    · exact h2 hc r rfl

/-- A DATA frame sent in a step: a wait for its acknowledgement begins (unless it is a broadcast) and no packet completes. -/
theorem data_sent {c : Cfg} {me : Mac48} {s : St} {op : Op} {f : Frame} {new : List Obs} (hl : (step c me s op).log = new ++ s.log) (hf : .tx f ∈ new)
    (hk : f.kind = .data) :
    (∃ p, f = dataFrame me p ∧ (p.dst ≠ bcast → ∃ a ∈ (step c me s op).ackTO, a.seq = p.seq)) ∧
    ∀ ok r, .done ok r ∈ (step c me s op).log → .done ok r ∈ s.log := by
  rcases step_shape c me s op with h | ⟨s1, p, h1, h2, e⟩
  · exfalso
    obtain ⟨k, hk1, hk2⟩ := h.log
    rw [hl] at hk1
    rw [← List.append_cancel_right hk1] at hk2
    exact hk2 _ hf f rfl hk
  · obtain ⟨k1, e1, k3⟩ := h1.log
    obtain ⟨k2, e2, k4⟩ := h2
    have elog : (sendData me p s1).log = .tx (dataFrame me p) :: s1.log := by
      unfold sendData
      split_ifs <;> rfl
    have e3 : new = .tx (dataFrame me p) :: k1 := by
      have : new ++ s.log = (.tx (dataFrame me p) :: k1) ++ s.log := by
        rw [← hl, e, elog, e1]; rfl
      exact List.append_cancel_right this
    refine ⟨⟨p, ?_, ?_⟩, ?_⟩
    · rw [e3] at hf
      rcases List.mem_cons.1 hf with hf | hf
      · simpa using hf
      · exact absurd hk (k3 _ hf f rfl)
    · intro hb
      rw [e]
      unfold sendData
      rw [if_neg hb]
      exact ⟨⟨p.seq, s1.nextTid, p⟩, List.mem_append_right _ (List.mem_singleton.2 rfl), rfl⟩
    · intro ok r hr
      rw [e, elog, e2] at hr
      rcases List.mem_cons.1 hr with hr | hr
      · cases hr
      · rcases List.mem_append.1 hr with hr | hr
        · exact absurd rfl (k4 _ hr ok r)
        · exact hr

/-- A new wait for an acknowledgement: DATA is sent in this step. -/
theorem new_wait {c : Cfg} {me : Mac48} {s : St} (hT : Tids s) {op : Op} {new : List Obs} (hl : (step c me s op).log = new ++ s.log) {i : Nat}
    {q : UInt16} (he : (i, Ev.ackTimeout q) ∈ (step c me s op).pend) (hn : (i, Ev.ackTimeout q) ∉ s.pend) :
    ∃ p, p.seq = q ∧ .tx (dataFrame me p) ∈ new ∧ ⟨q, i, p⟩ ∈ (step c me s op).ackTO ∧ ∀ a ∈ (step c me s op).ackTO, a.tid = i → a.pkt = p := by
  rcases step_shape c me s op with h | ⟨s1, p, h1, h2, e⟩
  · rcases h.pend _ he with h3 | ⟨-, h3, -⟩
    · exact absurd h3 hn
    · exact absurd rfl (h3 q)
  · obtain ⟨k1, e1, k3⟩ := h1.log
    have elog : (sendData me p s1).log = .tx (dataFrame me p) :: s1.log := by
      unfold sendData
      split_ifs <;> rfl
    have e3 : new = .tx (dataFrame me p) :: k1 := by
      have : new ++ s.log = (.tx (dataFrame me p) :: k1) ++ s.log := by
        rw [← hl, e, elog, e1]; rfl
      exact List.append_cancel_right this
    have hold : (i, Ev.ackTimeout q) ∉ s1.pend := by
      intro hc
      rcases h1.pend _ hc with h3 | ⟨-, h3, -⟩
      · exact hn h3
      · exact h3 q rfl
    rw [e] at he ⊢
    unfold sendData at he ⊢
    by_cases hb : p.dst = bcast
    · rw [if_pos hb] at he
      exact absurd he hold
    · rw [if_neg hb] at he ⊢
      rcases List.mem_append.1 (show (i, Ev.ackTimeout q) ∈ s1.pend ++ [(s1.nextTid, Ev.ackTimeout p.seq)] from he) with he | he
      · exact absurd he hold
      · simp only [List.mem_singleton, Prod.mk.injEq, Ev.ackTimeout.injEq] at he
        obtain ⟨rfl, rfl⟩ := he
        refine ⟨p, rfl, by rw [e3]; exact List.mem_cons_self, List.mem_append_right _ (List.mem_singleton.2 rfl), ?_⟩
        intro a ha hi
        rcases List.mem_append.1 ha with ha | ha
        · have h3 := (hT.ack a (h1.ack a ha)).1
          have h4 := h1.tid
          omega
        · rw [List.mem_singleton.1 ha]

/-! ## A packet whose acknowledgement is awaited -/

/-- An acknowledgement of packet `p` is awaited, and the packet is still to be completed. -/
def Waiting (p : Pkt) (s : St) : Prop := (∃ a ∈ s.ackTO, a.seq = p.seq) ∧ ∃ t ∈ s.pktTx, t.pkt = p

theorem Waiting.more {p : Pkt} {s s' : St} (h : Waiting p s) (h1 : ∀ a ∈ s.ackTO, a ∈ s'.ackTO) (h2 : ∀ t ∈ s.pktTx, t ∈ s'.pktTx) :
    Waiting p s' := by
  obtain ⟨⟨a, ha, e⟩, t, ht, e'⟩ := h
  exact ⟨⟨a, h1 a ha, e⟩, t, h2 t ht, e'⟩

theorem Waiting.sendData {p r : Pkt} {me : Mac48} {s : St} (h : Waiting p s) : Waiting p (sendData me r s) := by
  unfold Nano.sendData
  split_ifs
  · exact h
  · exact h.more (fun a ha => List.mem_append_left _ ha) (fun _ h => h)

theorem Waiting.checkResources {p r : Pkt} {c : Cfg} {me : Mac48} {s : St} (h : Waiting p s) : Waiting p (checkResources c me r s) := by
  unfold Nano.checkResources
  dsimp only
  split_ifs
  · exact h
  · exact h
  · exact Waiting.sendData (s := (s.book c r.size 17).2) h
  · exact h

theorem Waiting.txFirstPacket {p : Pkt} {c : Cfg} {me : Mac48} {s : St} (h : Waiting p s) : Waiting p (txFirstPacket c me s) := by
  unfold Nano.txFirstPacket
  split
  · exact h
  · exact h.checkResources

theorem Waiting.harvest {p : Pkt} {c : Cfg} {me : Mac48} {s : St} (h : Waiting p s) : Waiting p (harvest c me s) := by
  unfold Nano.harvest
  dsimp only
  split_ifs
  · exact Waiting.txFirstPacket (s := { s with energy := _ }) h
  · exact h

theorem Waiting.sendDataDone {p r : Pkt} {ok : Bool} {s : St} (h : Waiting p s) (hr : p.seq ≠ r.seq) : Waiting p (sendDataDone ok r s) := by
  obtain ⟨h1, t, h2, h3⟩ := h
  refine ⟨by rw [(sendDataDone_rest ok r s).2.1]; exact h1, t, ?_, h3⟩
  rw [sendDataDone_pktTx, List.mem_filter]
  exact ⟨h2, by rw [h3]; exact decide_eq_true hr⟩

theorem bumpRetry_pkt {q : UInt16} : ∀ {l : List PktTx} {t : PktTx}, t ∈ l → ∃ t' ∈ bumpRetry q l, t'.pkt = t.pkt
  | u :: l, t, h => by
    unfold bumpRetry
    split_ifs with hu
    · rcases List.mem_cons.1 h with rfl | h
      · exact ⟨_, List.mem_cons_self, rfl⟩
      · exact ⟨t, List.mem_cons_of_mem _ h, rfl⟩
    · rcases List.mem_cons.1 h with rfl | h
      · exact ⟨_, List.mem_cons_self, rfl⟩
      · obtain ⟨t', h1, h2⟩ := bumpRetry_pkt h
        exact ⟨t', List.mem_cons_of_mem _ h1, h2⟩

theorem Waiting.retryOrDiscard {p : Pkt} {c : Cfg} {q : UInt16} {s : St} (h : Waiting p s) (hq : p.seq ≠ q) :
    Waiting p (retryOrDiscard c q (fun r => r) s) := by
  unfold Nano.retryOrDiscard
  split
  · exact h
  · rename_i t ht
    dsimp only
    have hb : Waiting p { s with pktTx := bumpRetry q s.pktTx } := by
      obtain ⟨h1, t, h2, h3⟩ := h
      obtain ⟨t', h4, h5⟩ := bumpRetry_pkt (q := q) h2
      exact ⟨h1, t', h4, h5.trans h3⟩
    have e : t.pkt.seq = q := by simpa using List.find?_some ht
    split_ifs
    · exact hb.sendDataDone (by rw [e]; exact hq)
    · exact hb

theorem mem_eraseP_seq {q : UInt16} {l : List AckTO} {a : AckTO} (h : a ∈ l) (hq : a.seq ≠ q) :
    a ∈ l.eraseP (fun t => t.seq = q) :=
  (List.mem_eraseP_of_neg (by simpa using hq)).2 h

theorem Waiting.erase {p : Pkt} {q : UInt16} {s : St} (h : Waiting p s) (hq : p.seq ≠ q) :
    Waiting p { s with ackTO := s.ackTO.eraseP (fun t => t.seq = q) } := by
  obtain ⟨⟨a, h1, h2⟩, h3⟩ := h
  exact ⟨⟨a, mem_eraseP_seq h1 (by rw [h2]; exact hq), h2⟩, h3⟩

theorem Waiting.filterUp {p : Pkt} {f : Frame} {s : St} (h : Waiting p s) : Waiting p (filterUp f s) := by
  unfold Nano.filterUp
  dsimp only
  split_ifs <;> exact h

theorem Waiting.acceptData {p : Pkt} {me : Mac48} {f : Frame} {s : St} (h : Waiting p s) : Waiting p (acceptData me f s) := by
  unfold Nano.acceptData
  refine Waiting.filterUp ?_
  show Waiting p (clearData f.seq s)
  unfold clearData
  split <;> exact h

/-- The acknowledgement that `p` waits for. -/
def isAckFor (me : Mac48) (p : Pkt) : Op → Prop
  | .recv f ok => ok = true ∧ f.kind = .ack ∧ f.dst = me ∧ f.seq = p.seq
  | _ => False

/-- A packet whose acknowledgement is awaited stays so unless its timeout runs; the acknowledgement makes it a success. -/
theorem waiting_step {c : Cfg} {me : Mac48} {s : St} {p : Pkt} {op : Op} (hT : Tids s) (h : Waiting p s)
    (hcts : ∀ i r, (i, Ev.ctsTimeout r) ∉ s.pend) (hfire : ∀ tid, op = .fire tid → (tid, Ev.ackTimeout p.seq) ∉ s.pend) :
    (Waiting p (step c me s op) ∧ ¬ isAckFor me p op) ∨ .done true p ∈ (step c me s op).log := by
  cases op with
  | enqueue b d =>
    refine .inl ⟨?_, fun h => h⟩
    show Waiting p (enqueue c me b d s).2
    unfold enqueue
    dsimp only
    split_ifs
    · exact h
    · exact h
    · exact h.more (fun _ h => h) (fun t ht => List.mem_append_left _ ht)
    · refine Waiting.txFirstPacket ?_
      exact h.more (fun _ h => h) (fun t ht => List.mem_append_left _ ht)
  | harvest => exact .inl ⟨h.harvest, fun h => h⟩
  | einit => exact .inl ⟨Waiting.harvest (s := { s with energy := _ }) h, fun h => h⟩
  | fire tid =>
    refine .inl ⟨?_, fun h => h⟩
    show Waiting p (fire c me tid s)
    unfold fire
    split
    · rename_i e he
      have hm := List.mem_of_find?_eq_some he
      have ht : e.1 = tid := by simpa using List.find?_some he
      obtain ⟨i, ev⟩ := e
      dsimp only at ht
      subst ht
      have h' : Waiting p { s with pend := s.pend.filter (fun e => e.1 ≠ i) } := h
      unfold runEv
      cases ev with
      | ctsTimeout r => exact absurd hm (hcts _ _)
      | ackTimeout q =>
        have hq : p.seq ≠ q := by
          rintro rfl
          exact hfire _ rfl hm
        exact Waiting.retryOrDiscard (Waiting.erase (s := (({ s with pend := s.pend.filter (fun e => e.1 ≠ i) } : St).emit (.timeout q)).ret c 0 18) h' hq) hq
      | dataTimeout q => exact h'
      | checkResources r => exact h'.checkResources
    · exact h
  | recv f ok =>
    show (Waiting p (receivePacketDone c me f ok s) ∧ _) ∨ _ ∈ (receivePacketDone c me f ok s).log
    unfold receivePacketDone
    by_cases hok : ok = false
    · rw [if_pos hok]
      exact .inl ⟨h, fun hc => by rw [hok] at hc; exact absurd hc.1 (by simp)⟩
    rw [if_neg hok]
    have hnot : f.kind ≠ .ack → ¬ isAckFor me p (.recv f ok) := fun hk hc => hk hc.2.1
    cases hk : f.kind with
    | rts =>
      refine .inl ⟨?_, hnot (by rw [hk]; simp)⟩
      show Waiting p (receiveRts c me f s)
      unfold receiveRts
      dsimp only
      split_ifs <;> exact h
    | cts =>
      refine .inl ⟨?_, hnot (by rw [hk]; simp)⟩
      show Waiting p (receiveCts me f s)
      unfold receiveCts
      split_ifs
      · exact h
      have h' : Waiting p (clearCts f.seq s) := by
        unfold clearCts
        split <;> exact h
      unfold answerCts
      split
      · exact h'.sendData
      · exact h'
    | data =>
      refine .inl ⟨?_, hnot (by rw [hk]; simp)⟩
      show Waiting p (receiveData c me f s)
      unfold receiveData
      dsimp only
      split_ifs
      · exact h.filterUp
      · exact h
      · exact Waiting.acceptData (s := (s.book c 18 f.body.size).2) h
      · exact h
      · exact h.acceptData
    | cta => exact .inl ⟨h, hnot (by rw [hk]; simp)⟩
    | ack =>
      show (Waiting p (receiveAck me f s) ∧ _) ∨ _ ∈ (receiveAck me f s).log
      unfold receiveAck
      by_cases hd : f.dst = me
      swap
      · rw [if_neg hd]
        exact .inl ⟨h, fun hc => hd hc.2.2.1⟩
      rw [if_pos hd]
      split
      · rename_i a ha
        have hm := List.mem_of_find?_eq_some ha
        have e : a.seq = f.seq := by simpa using List.find?_some ha
        have e' : a.pkt.seq = f.seq := (hT.seq a hm).symm.trans e
        dsimp only
        by_cases hq : p.seq = f.seq
        · right
          show _ ∈ (sendDataDone true a.pkt (s.cancel a.tid)).log
          rw [sendDataDone_log]
          refine List.mem_append_left _ (List.mem_reverse.2 ?_)
          obtain ⟨-, t, h2, h3⟩ := h
          refine List.mem_map.2 ⟨t, ?_, by rw [h3]⟩
          unfold hits
          exact List.mem_filter.2 ⟨h2, by rw [h3, e', hq]; simp⟩
        · left
          refine ⟨?_, fun hc => hq hc.2.2.2.symm⟩
          refine Waiting.erase (s := sendDataDone true a.pkt (s.cancel a.tid)) ?_ hq
          exact Waiting.sendDataDone (s := s.cancel a.tid) h (by rw [e']; exact hq)
      · rename_i hn
        left
        refine ⟨h, ?_⟩
        rintro ⟨-, -, -, hc⟩
        obtain ⟨⟨a, h1, h2⟩, -⟩ := h
        have := List.find?_eq_none.1 hn a h1
        rw [h2, hc] at this
        simp at this

end Thz.Nano
