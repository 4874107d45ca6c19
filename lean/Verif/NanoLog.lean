import Verif.Nano
import Mathlib.Tactic.Common

/-!
# What each function of the nano MAC adds to the log (helper lemmas)
-/

namespace Thz.Nano

/-- `s'` has the log of `s` plus new observations that satisfy `P`. -/
def Adds (P : Obs → Prop) (s s' : St) : Prop :=
  ∃ new, s'.log = new ++ s.log ∧ ∀ o ∈ new, P o

theorem Adds.refl {P s} : Adds P s s := ⟨[], rfl, by simp⟩

theorem Adds.of_eq {P} {s s' : St} (h : s'.log = s.log) : Adds P s s' := ⟨[], by simp [h], by simp⟩

theorem Adds.trans {P} {s1 s2 s3 : St} (h1 : Adds P s1 s2) (h2 : Adds P s2 s3) : Adds P s1 s3 := by
  obtain ⟨n1, e1, p1⟩ := h1
  obtain ⟨n2, e2, p2⟩ := h2
  refine ⟨n2 ++ n1, by simp [e1, e2], ?_⟩
  intro o ho
  rcases List.mem_append.mp ho with h | h
  · exact p2 o h
  · exact p1 o h

theorem Adds.mono {P Q : Obs → Prop} {s s' : St} (h : Adds P s s') (hPQ : ∀ o, P o → Q o) : Adds Q s s' := by
  obtain ⟨n, e, p⟩ := h
  exact ⟨n, e, fun o ho => hPQ o (p o ho)⟩

theorem Adds.one {P : Obs → Prop} {s s' : St} {o : Obs} (h : s'.log = o :: s.log) (hp : P o) : Adds P s s' :=
  ⟨[o], by simp [h], by simpa using hp⟩

theorem Adds.mem {P} {s s' : St} (h : Adds P s s') {o} (ho : o ∈ s'.log) : P o ∨ o ∈ s.log := by
  obtain ⟨n, e, p⟩ := h
  rw [e] at ho
  rcases List.mem_append.mp ho with h | h
  · exact Or.inl (p o h)
  · exact Or.inr h

theorem Adds.sub {P} {s s' : St} (h : Adds P s s') {o} (ho : o ∈ s.log) : o ∈ s'.log := by
  obtain ⟨n, e, p⟩ := h
  rw [e]
  exact List.mem_append.mpr (Or.inr ho)

/-- The new part is determined by the two logs. -/
theorem Adds.new {P} {s s' : St} (h : Adds P s s') {new : List Obs} (e : s'.log = new ++ s.log) :
    ∀ o ∈ new, P o := by
  obtain ⟨n, e', p⟩ := h
  have : n = new := List.append_cancel_right (e'.symm.trans e)
  exact this ▸ p

/-! ## Frames that a packet gives rise to -/

/-- The DATA frame of a packet. -/
def dataFrame (me : Mac48) (p : Pkt) : Frame := ⟨.data, me, p.dst, p.seq, p.body⟩

/-- The RTS frame of a packet. -/
def rtsFrame (me : Mac48) (p : Pkt) : Frame := ⟨.rts, me, p.dst, p.seq, ⟨0, 0⟩⟩

/-! ## Frame conditions -/

@[simp] theorem emit_log (s : St) (o : Obs) : (s.emit o).log = o :: s.log := rfl
@[simp] theorem schedule_log (s : St) (e : Ev) : (s.schedule e).log = s.log := rfl
@[simp] theorem cancel_log (s : St) (t : Nat) : (s.cancel t).log = s.log := rfl

theorem book_adds (c : Cfg) (s : St) (tx rx : Nat) :
    Adds (fun o => o = .book (s.book c tx rx).1 tx rx) s (s.book c tx rx).2 := Adds.one rfl rfl

theorem ret_adds (c : Cfg) (s : St) (tx rx : Nat) :
    Adds (fun o => o = .ret tx rx) s (s.ret c tx rx) := Adds.one rfl rfl

theorem sendRts_adds (me : Mac48) (p : Pkt) (s : St) :
    Adds (fun o => o = .tx (rtsFrame me p)) s (sendRts me p s) := Adds.one rfl rfl

theorem sendData_adds (me : Mac48) (p : Pkt) (s : St) :
    Adds (fun o => o = .tx (dataFrame me p)) s (sendData me p s) := by
  unfold sendData
  split_ifs <;> exact Adds.one rfl rfl

/-- What an attempt to send `p` may add. -/
def AttemptObs (me : Mac48) (p : Pkt) (o : Obs) : Prop :=
  (∃ g tx rx, o = .book g tx rx) ∨ o = .starved p ∨
    (o = .tx (rtsFrame me p) ∧ p.dst ≠ bcast) ∨ o = .tx (dataFrame me p)

theorem checkResources_adds (c : Cfg) (me : Mac48) (p : Pkt) (s : St) :
    Adds (AttemptObs me p) s (checkResources c me p s) := by
  unfold checkResources
  split_ifs with h
  · refine Adds.trans ((book_adds c s (p.size + 18) (2 * 18)).mono ?_) ?_
    · intro o ho; exact Or.inl ⟨_, _, _, ho⟩
    · dsimp only
      split_ifs
      · exact (sendRts_adds me p _).mono fun o ho => Or.inr (Or.inr (Or.inl ⟨ho, h.1⟩))
      · exact Adds.one rfl (Or.inr (Or.inl rfl))
  · refine Adds.trans ((book_adds c s p.size 17).mono ?_) ?_
    · intro o ho; exact Or.inl ⟨_, _, _, ho⟩
    · dsimp only
      split_ifs
      · exact (sendData_adds me p _).mono fun o ho => Or.inr (Or.inr (Or.inr ho))
      · exact Adds.one rfl (Or.inr (Or.inl rfl))

theorem txFirstPacket_adds (c : Cfg) (me : Mac48) (s : St) :
    Adds (fun o => ∃ p, s.queue.head? = some p ∧ AttemptObs me p o) s (txFirstPacket c me s) := by
  unfold txFirstPacket
  split
  · exact Adds.refl
  · rename_i p ps h
    exact (checkResources_adds c me p s).mono fun o ho => ⟨p, by simp [h], ho⟩

theorem completeAll_adds (ok : Bool) (l : List PktTx) (s : St) :
    Adds (fun o => ∃ t ∈ l, o = .done ok t.pkt) s (completeAll ok l s) := by
  induction l generalizing s with
  | nil => exact Adds.refl
  | cons t ts ih =>
    unfold completeAll
    refine Adds.trans (s2 := s.emit (.done ok t.pkt)) (Adds.one rfl ⟨t, by simp, rfl⟩) ?_
    dsimp only
    refine Adds.trans (Adds.of_eq ?_) ((ih _).mono fun o ⟨t', h1, h2⟩ => ⟨t', by simp [h1], h2⟩)
    cases ok <;> rfl

theorem startNext_frame (p : Pkt) (s : St) :
    (startNext p s).log = s.log ∧ (startNext p s).pktTx = s.pktTx ∧ (startNext p s).queue = s.queue := by
  unfold startNext
  split <;> exact ⟨rfl, rfl, rfl⟩

theorem sendDataDone_adds (ok : Bool) (p : Pkt) (s : St) :
    Adds (fun o => ∃ t ∈ s.pktTx, t.pkt.seq = p.seq ∧ o = .done ok t.pkt) s (sendDataDone ok p s) := by
  unfold sendDataDone
  obtain ⟨h1, h2, -⟩ := startNext_frame p s
  refine Adds.trans (Adds.of_eq h1) ?_
  dsimp only
  refine Adds.mono (completeAll_adds ok _ _) ?_
  rintro o ⟨t, ht, rfl⟩
  obtain ⟨h3, h4⟩ := List.mem_filter.mp ht
  exact ⟨t, h2 ▸ h3, by simpa using h4, rfl⟩

theorem bumpRetry_map (q : UInt16) (l : List PktTx) : (bumpRetry q l).map (·.pkt) = l.map (·.pkt) := by
  induction l with
  | nil => rfl
  | cons t ts ih => unfold bumpRetry; split_ifs <;> simp [ih]

theorem bumpRetry_mem {q : UInt16} {l : List PktTx} {t} (h : t ∈ bumpRetry q l) :
    ∃ t' ∈ l, t'.pkt = t.pkt := by
  have : t.pkt ∈ (bumpRetry q l).map (·.pkt) := List.mem_map_of_mem h
  rw [bumpRetry_map] at this
  simpa using this

theorem retryOrDiscard_adds (c : Cfg) (q : UInt16) (g : Pkt → Pkt) (s : St)
    (hg : ∀ p, p.seq = q → (g p).seq = q) :
    Adds (fun o => ∃ t ∈ s.pktTx, t.pkt.seq = q ∧ (o = .done false t.pkt ∨ o = .backoff t.pkt)) s
      (retryOrDiscard c q g s) := by
  unfold retryOrDiscard
  split
  · exact Adds.refl
  · rename_i t ht
    have h1 := List.mem_of_find?_eq_some ht
    have h2 : t.pkt.seq = q := by simpa using List.find?_some ht
    dsimp only
    split_ifs
    · refine Adds.trans (s2 := { s with pktTx := bumpRetry q s.pktTx }) (Adds.of_eq rfl) ?_
      refine (sendDataDone_adds false _ _).mono ?_
      rintro o ⟨t', ht', h3, rfl⟩
      obtain ⟨t'', h4, h5⟩ := bumpRetry_mem ht'
      rw [hg _ h2] at h3
      exact ⟨t'', h4, by rw [h5, h3], Or.inl (by rw [h5])⟩
    · exact Adds.one rfl ⟨t, h1, h2, Or.inr rfl⟩

/-- What a CTS or ACK timeout for `q` may add. -/
def TimeoutObs (s : St) (q : UInt16) (o : Obs) : Prop :=
  o = .timeout q ∨ (∃ tx rx, o = .ret tx rx) ∨
    ∃ t ∈ s.pktTx, t.pkt.seq = q ∧ (o = .done false t.pkt ∨ o = .backoff t.pkt)

theorem ctsTimeout_adds (c : Cfg) (p : Pkt) (s : St) :
    Adds (TimeoutObs s p.seq) s (ctsTimeout c p s) := by
  unfold ctsTimeout
  refine Adds.trans (s2 := (s.emit (.timeout p.seq)).ret c c.frameLength (2 * 18)) ?_ ?_
  · exact ⟨[.ret c.frameLength (2 * 18), .timeout p.seq], rfl, by
      simp only [List.mem_cons, List.not_mem_nil, or_false]
      rintro o (rfl | rfl)
      · exact Or.inr (Or.inl ⟨_, _, rfl⟩)
      · exact Or.inl rfl⟩
  · exact (retryOrDiscard_adds c p.seq _ _ (fun _ _ => rfl)).mono
      (fun o h => Or.inr (Or.inr h))

theorem ackTimeout_adds (c : Cfg) (q : UInt16) (s : St) :
    Adds (TimeoutObs s q) s (ackTimeout c q s) := by
  unfold ackTimeout
  refine Adds.trans (s2 := (s.emit (.timeout q)).ret c 0 18) ?_ ?_
  · exact ⟨[.ret 0 18, .timeout q], rfl, by
      simp only [List.mem_cons, List.not_mem_nil, or_false]
      rintro o (rfl | rfl)
      · exact Or.inr (Or.inl ⟨_, _, rfl⟩)
      · exact Or.inl rfl⟩
  · exact (retryOrDiscard_adds c q _ _ (fun _ h => h)).mono
      (fun o h => Or.inr (Or.inr h))

theorem dataTimeout_adds (c : Cfg) (q : UInt16) (s : St) :
    Adds (fun o => ∃ tx rx, o = .ret tx rx) s (dataTimeout c q s) :=
  Adds.one rfl ⟨_, _, rfl⟩

/-- What the reception of an RTS may add. -/
def RtsObs (me : Mac48) (f : Frame) (o : Obs) : Prop :=
  (∃ g tx rx, o = .book g tx rx) ∨
    (f.dst = me ∧ o = .tx ⟨.cts, me, f.src, f.seq, ⟨0, 0⟩⟩)

theorem receiveRts_adds (c : Cfg) (me : Mac48) (f : Frame) (s : St) :
    Adds (RtsObs me f) s (receiveRts c me f s) := by
  unfold receiveRts
  dsimp only
  have hb : ∀ (s : St) tx rx, Adds (RtsObs me f) s (s.book c tx rx).2 := fun s tx rx =>
    (book_adds c s tx rx).mono fun o ho => Or.inl ⟨_, _, _, ho⟩
  split_ifs with h1 h2
  · exact hb _ _ _
  · refine (hb s 0 f.size).trans ((hb _ (2 * f.size) c.frameLength).trans ?_)
    refine Adds.one (o := .tx ⟨.cts, me, f.src, f.seq, ⟨0, 0⟩⟩) ?_ (Or.inr ⟨not_not.mp h1, rfl⟩)
    simp [sendCts]
  · exact (hb s 0 f.size).trans (hb _ (2 * f.size) c.frameLength)

theorem clearCts_frame (q : UInt16) (s : St) :
    (clearCts q s).log = s.log ∧ (clearCts q s).pktTx = s.pktTx ∧ (clearCts q s).queue = s.queue := by
  unfold clearCts
  split <;> exact ⟨rfl, rfl, rfl⟩

theorem receiveCts_adds (me : Mac48) (f : Frame) (s : St) :
    Adds (fun o => f.dst = me ∧ ∃ t ∈ s.pktTx, t.pkt.seq = f.seq ∧ t.pkt.dst = f.src ∧
      o = .tx (dataFrame me t.pkt)) s (receiveCts me f s) := by
  unfold receiveCts
  split_ifs with h1
  · exact Adds.refl
  · obtain ⟨e1, e2, -⟩ := clearCts_frame f.seq s
    refine Adds.trans (Adds.of_eq e1) ?_
    unfold answerCts
    split
    · rename_i t ht
      refine (sendData_adds me t.pkt _).mono ?_
      rintro o rfl
      have h2 := List.mem_of_find?_eq_some ht
      have h3 := List.find?_some ht
      simp only [decide_eq_true_eq] at h3
      exact ⟨not_not.mp h1, t, e2 ▸ h2, h3.1, h3.2, rfl⟩
    · exact Adds.refl

theorem clearData_frame (q : UInt16) (s : St) :
    (clearData q s).log = s.log ∧ (clearData q s).pktTx = s.pktTx ∧ (clearData q s).queue = s.queue ∧
      (clearData q s).seqList = s.seqList := by
  unfold clearData
  split <;> exact ⟨rfl, rfl, rfl, rfl⟩

theorem filterUp_adds (f : Frame) (s : St) :
    Adds (fun o => o = .up f.body f.src f.dst f.seq ∧ (isNewSequence s.seqList f.src f.seq).1 = true)
      s (filterUp f s) := by
  unfold filterUp
  dsimp only
  split_ifs with h
  · exact Adds.one rfl ⟨rfl, h⟩
  · exact Adds.of_eq rfl

theorem acceptData_adds (me : Mac48) (f : Frame) (s : St) :
    ∃ ups, (acceptData me f s).log = ups ++ .tx ⟨.ack, me, f.src, f.seq, ⟨0, 0⟩⟩ :: s.log ∧
      ups = if (isNewSequence s.seqList f.src f.seq).1 then [.up f.body f.src f.dst f.seq] else [] := by
  unfold acceptData filterUp sendAck
  obtain ⟨h1, -, -, h2⟩ := clearData_frame f.seq s
  refine ⟨_, ?_, rfl⟩
  simp only [St.emit, h2]
  split_ifs <;> simp [h1]

/-- What the reception of a DATA frame may add. -/
def DataObs (me : Mac48) (f : Frame) (o : Obs) : Prop :=
  (∃ g tx rx, o = .book g tx rx) ∨
    ((f.dst = me ∨ f.dst = bcast) ∧ o = .up f.body f.src f.dst f.seq) ∨
    (f.dst = me ∧ f.dst ≠ bcast ∧ o = .tx ⟨.ack, me, f.src, f.seq, ⟨0, 0⟩⟩)

theorem acceptData_adds' (me : Mac48) (f : Frame) (s : St) (h1 : f.dst ≠ bcast) (h2 : f.dst = me) :
    Adds (DataObs me f) s (acceptData me f s) := by
  obtain ⟨ups, h3, h4⟩ := acceptData_adds me f s
  refine ⟨ups ++ [.tx ⟨.ack, me, f.src, f.seq, ⟨0, 0⟩⟩], by simp [h3], ?_⟩
  intro o ho
  rcases List.mem_append.mp ho with h | h
  · refine Or.inr (Or.inl ⟨Or.inl h2, ?_⟩)
    rw [h4] at h
    split_ifs at h
    · simpa using h
    · simp at h
  · exact Or.inr (Or.inr ⟨h2, h1, by simpa using h⟩)

theorem receiveData_adds (c : Cfg) (me : Mac48) (f : Frame) (s : St) :
    Adds (DataObs me f) s (receiveData c me f s) := by
  unfold receiveData
  dsimp only
  split_ifs with h1 h2 h3 h4
  · exact (filterUp_adds f s).mono fun o ho => Or.inr (Or.inl ⟨Or.inr h1, ho.1⟩)
  · exact Adds.refl
  · exact ((book_adds c s _ _).mono fun o ho => Or.inl ⟨_, _, _, ho⟩).trans
      (acceptData_adds' me f _ h1 (not_not.mp h2))
  · exact (book_adds c s _ _).mono fun o ho => Or.inl ⟨_, _, _, ho⟩
  · exact acceptData_adds' me f s h1 (not_not.mp h2)

theorem receiveAck_adds (me : Mac48) (f : Frame) (s : St) :
    Adds (fun o => f.dst = me ∧ ∃ a ∈ s.ackTO, a.seq = f.seq ∧ ∃ t ∈ s.pktTx, t.pkt.seq = a.pkt.seq ∧
      o = .done true t.pkt) s (receiveAck me f s) := by
  unfold receiveAck
  split_ifs with h1
  · split
    · rename_i a ha
      dsimp only
      refine Adds.trans (s2 := s.cancel a.tid) (Adds.of_eq rfl) ?_
      refine (sendDataDone_adds true a.pkt (s.cancel a.tid)).mono ?_
      rintro o ⟨t, h2, h3, h4⟩
      exact ⟨h1, a, List.mem_of_find?_eq_some ha, by simpa using List.find?_some ha, t, h2, h3, h4⟩
    · exact Adds.refl
  · exact Adds.refl

/-! ## One step -/

/-- Everything a step of the node may observe. -/
def StepObs (me : Mac48) (s : St) : Op → Obs → Prop
  | .enqueue b d, o => o = .accepted (newPkt s b d) ∨
      ∃ p, (s.queue ++ [newPkt s b d]).head? = some p ∧ AttemptObs me p o
  | .recv f ok, o => ok = true ∧
      ((f.kind = .rts ∧ RtsObs me f o) ∨
       (f.kind = .cts ∧ f.dst = me ∧ ∃ t ∈ s.pktTx, t.pkt.seq = f.seq ∧ t.pkt.dst = f.src ∧
          o = .tx (dataFrame me t.pkt)) ∨
       (f.kind = .data ∧ DataObs me f o) ∨
       (f.kind = .ack ∧ f.dst = me ∧ ∃ a ∈ s.ackTO, a.seq = f.seq ∧ ∃ t ∈ s.pktTx,
          t.pkt.seq = a.pkt.seq ∧ o = .done true t.pkt))
  | .fire tid, o =>
      (∃ p, (tid, Ev.ctsTimeout p) ∈ s.pend ∧ TimeoutObs s p.seq o) ∨
      (∃ q, (tid, Ev.ackTimeout q) ∈ s.pend ∧ TimeoutObs s q o) ∨
      (∃ q, (tid, Ev.dataTimeout q) ∈ s.pend ∧ ∃ tx rx, o = .ret tx rx) ∨
      (∃ p, (tid, Ev.checkResources p) ∈ s.pend ∧ AttemptObs me p o)
  | .harvest, o => ∃ p, s.queue.head? = some p ∧ AttemptObs me p o
  | .einit, o => ∃ p, s.queue.head? = some p ∧ AttemptObs me p o

theorem enqueue_adds (c : Cfg) (me : Mac48) (b : Body) (d : Mac48) (s : St) :
    Adds (StepObs me s (.enqueue b d)) s (enqueue c me b d s).2 := by
  unfold enqueue
  dsimp only
  split_ifs
  · exact Adds.refl
  · exact Adds.refl
  · exact Adds.one rfl (Or.inl rfl)
  · refine Adds.trans (Adds.one (o := .accepted (newPkt s b d)) ?_ (Or.inl rfl))
      ((txFirstPacket_adds c me _).mono fun o ho => Or.inr ho)
    rfl

theorem step_adds (c : Cfg) (me : Mac48) (s : St) (op : Op) :
    Adds (StepObs me s op) s (step c me s op) := by
  cases op with
  | enqueue b d => exact enqueue_adds c me b d s
  | recv f ok =>
    show Adds _ s (receivePacketDone c me f ok s)
    unfold receivePacketDone
    cases ok with
    | false => exact Adds.refl
    | true =>
      rw [if_neg (by simp)]
      cases hk : f.kind with
      | cta => exact Adds.refl
      | rts => exact (receiveRts_adds c me f s).mono fun o h => ⟨rfl, Or.inl ⟨hk, h⟩⟩
      | cts => exact (receiveCts_adds me f s).mono fun o h => ⟨rfl, Or.inr (Or.inl ⟨hk, h⟩)⟩
      | data => exact (receiveData_adds c me f s).mono fun o h => ⟨rfl, Or.inr (Or.inr (Or.inl ⟨hk, h⟩))⟩
      | ack => exact (receiveAck_adds me f s).mono fun o h => ⟨rfl, Or.inr (Or.inr (Or.inr ⟨hk, h⟩))⟩
  | fire tid =>
    show Adds _ s (fire c me tid s)
    unfold fire
    split
    · rename_i e he
      have h1 := List.mem_of_find?_eq_some he
      have h2 : e.1 = tid := by simpa using List.find?_some he
      obtain ⟨t, ev⟩ := e
      simp only at h2
      subst h2
      refine Adds.trans (s2 := { s with pend := s.pend.filter (fun e => e.1 ≠ t) }) (Adds.of_eq rfl) ?_
      unfold runEv
      cases ev with
      | ctsTimeout p => exact (ctsTimeout_adds c p _).mono fun o h => Or.inl ⟨p, h1, h⟩
      | ackTimeout q => exact (ackTimeout_adds c q _).mono fun o h => Or.inr (Or.inl ⟨q, h1, h⟩)
      | dataTimeout q =>
        exact (dataTimeout_adds c q _).mono fun o h => Or.inr (Or.inr (Or.inl ⟨q, h1, h⟩))
      | checkResources p =>
        exact (checkResources_adds c me p _).mono fun o h => Or.inr (Or.inr (Or.inr ⟨p, h1, h⟩))
    · exact Adds.refl
  | harvest =>
    unfold step harvest
    dsimp only
    split_ifs
    · exact Adds.trans (Adds.of_eq rfl) (txFirstPacket_adds c me _)
    · exact Adds.of_eq rfl
  | einit =>
    unfold step energyInit harvest
    dsimp only
    split_ifs
    · exact Adds.trans (Adds.of_eq rfl) (txFirstPacket_adds c me _)
    · exact Adds.of_eq rfl

theorem run_adds (c : Cfg) (me : Mac48) (s : St) (ops : List Op) :
    Adds (fun _ => True) s (run c me s ops) := by
  induction ops generalizing s with
  | nil => exact Adds.refl
  | cons o os ih => exact ((step_adds c me s o).mono fun _ _ => trivial).trans (ih _)

theorem run_append (c : Cfg) (me : Mac48) (s : St) (o1 o2 : List Op) :
    run c me s (o1 ++ o2) = run c me (run c me s o1) o2 := by simp [run]

end Thz.Nano
