import Verif.NanoOrd

/-!
# Pending events of the nano MAC (helper lemmas for the no-stall property)
-/

namespace Thz.Nano

/-! ## Event ids -/

/-- Event ids are unique and the timeout lists refer to their own events. -/
structure Tids (s : St) : Prop where
  lt : ∀ e ∈ s.pend, e.1 < s.nextTid
  uniq : ∀ i e e', (i, e) ∈ s.pend → (i, e') ∈ s.pend → e = e'
  seq : ∀ a ∈ s.ackTO, a.seq = a.pkt.seq
  ack : ∀ a ∈ s.ackTO, a.tid < s.nextTid ∧ ∀ e, (a.tid, e) ∈ s.pend → e = .ackTimeout a.seq
  cts : ∀ a ∈ s.ctsTO, a.tid < s.nextTid ∧ ∀ e, (a.tid, e) ∈ s.pend → ∃ p, e = .ctsTimeout p ∧ p.seq = a.seq
  dat : ∀ a ∈ s.dataTO, a.tid < s.nextTid ∧ ∀ e, (a.tid, e) ∈ s.pend → e = .dataTimeout a.seq

/-- Steps that schedule nothing. -/
theorem Tids.shrink {s s' : St} (h : Tids s) (hp : ∀ e ∈ s'.pend, e ∈ s.pend) (hn : s'.nextTid = s.nextTid)
    (h1 : ∀ a ∈ s'.ackTO, a ∈ s.ackTO) (h2 : ∀ a ∈ s'.ctsTO, a ∈ s.ctsTO)
    (h3 : ∀ a ∈ s'.dataTO, a ∈ s.dataTO) : Tids s' := by
  constructor
  · intro e he; rw [hn]; exact h.lt e (hp e he)
  · intro i e e' he he'; exact h.uniq i e e' (hp _ he) (hp _ he')
  · intro a ha; exact h.seq a (h1 a ha)
  · intro a ha; rw [hn]; exact ⟨(h.ack a (h1 a ha)).1, fun e he => (h.ack a (h1 a ha)).2 e (hp _ he)⟩
  · intro a ha; rw [hn]; exact ⟨(h.cts a (h2 a ha)).1, fun e he => (h.cts a (h2 a ha)).2 e (hp _ he)⟩
  · intro a ha; rw [hn]; exact ⟨(h.dat a (h3 a ha)).1, fun e he => (h.dat a (h3 a ha)).2 e (hp _ he)⟩

/-- Steps that schedule one event. -/
theorem Tids.grow {s s' : St} (h : Tids s) (ev : Ev) (hp : s'.pend = s.pend ++ [(s.nextTid, ev)])
    (hn : s'.nextTid = s.nextTid + 1)
    (h1 : ∀ a ∈ s'.ackTO, a ∈ s.ackTO ∨ (a.tid = s.nextTid ∧ ev = .ackTimeout a.seq ∧ a.seq = a.pkt.seq))
    (h2 : ∀ a ∈ s'.ctsTO, a ∈ s.ctsTO ∨ (a.tid = s.nextTid ∧ ∃ p, ev = .ctsTimeout p ∧ p.seq = a.seq))
    (h3 : ∀ a ∈ s'.dataTO, a ∈ s.dataTO ∨ (a.tid = s.nextTid ∧ ev = .dataTimeout a.seq)) : Tids s' := by
  have hm : ∀ i e, (i, e) ∈ s'.pend → ((i, e) ∈ s.pend ∧ i < s.nextTid) ∨ (i = s.nextTid ∧ e = ev) := by
    intro i e he
    rw [hp] at he
    rcases List.mem_append.mp he with h' | h'
    · exact Or.inl ⟨h', h.lt _ h'⟩
    · simp only [List.mem_singleton, Prod.mk.injEq] at h'
      exact Or.inr h'
  constructor
  · rintro ⟨i, e⟩ he
    rw [hn]
    rcases hm i e he with h' | h'
    · exact Nat.lt_succ_of_lt h'.2
    · simp [h'.1]
  · intro i e e' he he'
    rcases hm i e he with h' | h' <;> rcases hm i e' he' with h'' | h''
    · exact h.uniq i e e' h'.1 h''.1
    · omega
    · omega
    · rw [h'.2, h''.2]
  · intro a ha
    rcases h1 a ha with h' | h'
    · exact h.seq a h'
    · exact h'.2.2
  · intro a ha
    rw [hn]
    rcases h1 a ha with h' | h'
    · refine ⟨Nat.lt_succ_of_lt (h.ack a h').1, ?_⟩
      intro e he
      rcases hm _ e he with h'' | h''
      · exact (h.ack a h').2 e h''.1
      · have := (h.ack a h').1; omega
    · refine ⟨by omega, ?_⟩
      intro e he
      rcases hm _ e he with h'' | h''
      · omega
      · rw [h''.2, h'.2.1]
  · intro a ha
    rw [hn]
    rcases h2 a ha with h' | h'
    · refine ⟨Nat.lt_succ_of_lt (h.cts a h').1, ?_⟩
      intro e he
      rcases hm _ e he with h'' | h''
      · exact (h.cts a h').2 e h''.1
      · have := (h.cts a h').1; omega
    · refine ⟨by omega, ?_⟩
      intro e he
      rcases hm _ e he with h'' | h''
      · omega
      · rw [h''.2]; exact h'.2
  · intro a ha
    rw [hn]
    rcases h3 a ha with h' | h'
    · refine ⟨Nat.lt_succ_of_lt (h.dat a h').1, ?_⟩
      intro e he
      rcases hm _ e he with h'' | h''
      · exact (h.dat a h').2 e h''.1
      · have := (h.dat a h').1; omega
    · refine ⟨by omega, ?_⟩
      intro e he
      rcases hm _ e he with h'' | h''
      · omega
      · rw [h''.2, h'.2]

theorem Tids.same {s s' : St} (h : Tids s) (hp : s'.pend = s.pend) (hn : s'.nextTid = s.nextTid)
    (h1 : s'.ackTO = s.ackTO) (h2 : s'.ctsTO = s.ctsTO) (h3 : s'.dataTO = s.dataTO) : Tids s' :=
  h.shrink (by rw [hp]; exact fun _ h => h) hn (by rw [h1]; exact fun _ h => h)
    (by rw [h2]; exact fun _ h => h) (by rw [h3]; exact fun _ h => h)

theorem Tids.book {s : St} (h : Tids s) (c : Cfg) (tx rx : Nat) : Tids (s.book c tx rx).2 :=
  h.same rfl rfl rfl rfl rfl

theorem Tids.sendRts {s : St} (h : Tids s) (me : Mac48) (p : Pkt) : Tids (sendRts me p s) := by
  refine h.grow (.ctsTimeout p) rfl rfl (fun a ha => Or.inl ha) ?_ (fun a ha => Or.inl ha)
  intro a ha
  rcases List.mem_append.mp (show a ∈ s.ctsTO ++ [⟨p.seq, s.nextTid⟩] from ha) with h' | h'
  · exact Or.inl h'
  · rw [List.mem_singleton.mp h']; exact Or.inr ⟨rfl, p, rfl, rfl⟩

theorem Tids.sendData {s : St} (h : Tids s) (me : Mac48) (p : Pkt) : Tids (sendData me p s) := by
  unfold Nano.sendData
  split_ifs
  · exact h.same rfl rfl rfl rfl rfl
  · refine h.grow (.ackTimeout p.seq) rfl rfl ?_ (fun a ha => Or.inl ha) (fun a ha => Or.inl ha)
    intro a ha
    rcases List.mem_append.mp (show a ∈ s.ackTO ++ [⟨p.seq, s.nextTid, p⟩] from ha) with h' | h'
    · exact Or.inl h'
    · rw [List.mem_singleton.mp h']; exact Or.inr ⟨rfl, rfl, rfl⟩

theorem Tids.checkResources {s : St} (h : Tids s) (c : Cfg) (me : Mac48) (p : Pkt) :
    Tids (checkResources c me p s) := by
  unfold Nano.checkResources
  dsimp only
  split_ifs
  · exact (h.book c _ _).sendRts me p
  · exact (h.book c (p.size + 18) (2 * 18)).same rfl rfl rfl rfl rfl
  · exact (h.book c _ _).sendData me p
  · exact (h.book c p.size 18).same rfl rfl rfl rfl rfl

theorem Tids.txFirstPacket {s : St} (h : Tids s) (c : Cfg) (me : Mac48) : Tids (txFirstPacket c me s) := by
  unfold Nano.txFirstPacket
  split
  · exact h
  · exact h.checkResources c me _

theorem Tids.schedChk {s : St} (h : Tids s) (p : Pkt) : Tids (s.schedule (.checkResources p)) :=
  h.grow _ rfl rfl (fun _ h => Or.inl h) (fun _ h => Or.inl h) (fun _ h => Or.inl h)

theorem Tids.startNext {s : St} (h : Tids s) (p : Pkt) : Tids (startNext p s) := by
  unfold Nano.startNext
  split
  · exact h.schedChk _
  · exact h

theorem Tids.sendDataDone {s : St} (h : Tids s) (ok : Bool) (p : Pkt) : Tids (sendDataDone ok p s) := by
  unfold Nano.sendDataDone
  dsimp only
  rw [completeAll_eq]
  exact (h.startNext p).same rfl rfl rfl rfl rfl

theorem Tids.retryOrDiscard {s : St} (h : Tids s) (c : Cfg) (q : UInt16) (g : Pkt → Pkt) :
    Tids (retryOrDiscard c q g s) := by
  unfold Nano.retryOrDiscard
  split
  · exact h
  · have hb : Tids { s with pktTx := bumpRetry q s.pktTx } := h.same rfl rfl rfl rfl rfl
    dsimp only
    split_ifs
    · exact hb.sendDataDone false _
    · unfold Nano.backoff
      rename_i t _ _
      have hb2 : Tids ({ s with pktTx := bumpRetry q s.pktTx }.emit (.backoff t.pkt)) :=
        hb.same rfl rfl rfl rfl rfl
      exact hb2.schedChk _

theorem Tids.clearData {s : St} (h : Tids s) (q : UInt16) : Tids (clearData q s) := by
  unfold Nano.clearData
  split
  · exact h.shrink (fun _ he => List.mem_of_mem_filter he) rfl (fun _ h => h) (fun _ h => h)
      (fun _ ha => List.mem_of_mem_eraseP ha)
  · exact h

theorem Tids.clearCts {s : St} (h : Tids s) (q : UInt16) : Tids (clearCts q s) := by
  unfold Nano.clearCts
  split
  · exact h.shrink (fun _ he => List.mem_of_mem_filter he) rfl (fun _ h => h)
      (fun _ ha => List.mem_of_mem_eraseP ha) (fun _ h => h)
  · exact h

theorem Tids.filterUp {s : St} (h : Tids s) (f : Frame) : Tids (filterUp f s) := by
  unfold Nano.filterUp
  dsimp only
  split_ifs <;> exact h.same rfl rfl rfl rfl rfl

theorem Tids.acceptData {s : St} (h : Tids s) (me : Mac48) (f : Frame) : Tids (acceptData me f s) := by
  unfold Nano.acceptData
  refine Tids.filterUp ?_ f
  exact (h.clearData f.seq).same rfl rfl rfl rfl rfl

theorem Tids.step {s : St} (h : Tids s) (c : Cfg) (me : Mac48) (op : Op) : Tids (step c me s op) := by
  cases op with
  | enqueue b d =>
    show Tids (enqueue c me b d s).2
    have ha : Tids (accept s b d) := h.same rfl rfl rfl rfl rfl
    rcases enqueue_cases c me b d s with e | ⟨⟨e, -⟩, -⟩ | ⟨⟨e, -⟩, -⟩
    · rw [e]; exact h
    · rw [e]; exact ha
    · rw [e]; exact ha.txFirstPacket c me
  | recv f ok =>
    show Tids (receivePacketDone c me f ok s)
    unfold receivePacketDone
    split_ifs
    · exact h
    · split
      · unfold receiveRts
        dsimp only
        split_ifs
        · exact h.book c _ _
        · refine Tids.grow ((h.book c 0 f.size).book c (2 * f.size) c.frameLength)
            (.dataTimeout f.seq) rfl rfl (fun a ha => Or.inl ha) (fun a ha => Or.inl ha) ?_
          intro a ha
          rcases List.mem_append.mp (show a ∈ s.dataTO ++ [⟨f.seq, s.nextTid⟩] from ha) with h' | h'
          · exact Or.inl h'
          · rw [List.mem_singleton.mp h']; exact Or.inr ⟨rfl, rfl⟩
        · exact (h.book c _ _).book c _ _
      · unfold receiveCts
        split_ifs
        · exact h
        · unfold answerCts
          split
          · exact (h.clearCts f.seq).sendData me _
          · exact h.clearCts f.seq
      · unfold receiveData
        dsimp only
        split_ifs
        · exact h.filterUp f
        · exact h
        · exact (h.book c _ _).acceptData me f
        · exact h.book c _ _
        · exact h.acceptData me f
      · unfold receiveAck
        split_ifs
        · split
          · rename_i a _
            have h1 : Tids (s.cancel a.tid) := h.shrink (fun _ he => List.mem_of_mem_filter he) rfl
              (fun _ h => h) (fun _ h => h) (fun _ h => h)
            exact (h1.sendDataDone true a.pkt).shrink (fun _ h => h) rfl
              (fun _ ha => List.mem_of_mem_eraseP ha) (fun _ h => h) (fun _ h => h)
          · exact h
        · exact h
      · exact h
  | fire tid =>
    show Tids (fire c me tid s)
    unfold fire
    split
    · rename_i e he
      obtain ⟨i, ev⟩ := e
      have hd : Tids (drop s tid) := h.shrink (fun _ he => List.mem_of_mem_filter he) rfl
        (fun _ h => h) (fun _ h => h) (fun _ h => h)
      show Tids (runEv c me ev (drop s tid))
      unfold runEv
      cases ev with
      | ctsTimeout p =>
        show Tids (ctsTimeout c p (drop s tid))
        rw [ctsTimeout_eq]
        have h1 : Tids (ctsPre c p (drop s tid)) := hd.shrink (fun _ h => h) rfl (fun _ h => h)
          (fun _ ha => List.mem_of_mem_eraseP ha) (fun _ h => h)
        exact h1.retryOrDiscard c _ _
      | ackTimeout q =>
        show Tids (ackTimeout c q (drop s tid))
        rw [ackTimeout_eq]
        have h1 : Tids (ackPre c q (drop s tid)) := hd.shrink (fun _ h => h) rfl
          (fun _ ha => List.mem_of_mem_eraseP ha) (fun _ h => h) (fun _ h => h)
        exact h1.retryOrDiscard c _ _
      | dataTimeout q =>
        exact hd.shrink (fun _ h => h) rfl (fun _ h => h) (fun _ h => h)
          (fun _ ha => List.mem_of_mem_eraseP ha)
      | checkResources p => exact hd.checkResources c me p
    · exact h
  | harvest =>
    show Tids (harvest c me s)
    unfold harvest
    dsimp only
    have h1 : Tids { s with energy := (c.energy.harvestStep s.energy).2 } := h.same rfl rfl rfl rfl rfl
    split_ifs
    · exact h1.txFirstPacket c me
    · exact h1
  | einit =>
    show Tids (energyInit c me s)
    unfold energyInit harvest
    dsimp only
    have h1 : Tids { s with energy := (c.energy.harvestStep c.energy.initial).2 } := h.same rfl rfl rfl rfl rfl
    split_ifs
    · exact h1.txFirstPacket c me
    · exact h1

theorem Tids.init (e0 : ℚ) : Tids (St.init e0) := by
  constructor <;> simp [St.init]

/-! ## A packet with something pending -/

/-- Some pending event concerns `p`. -/
def Pending (s : St) (p : Pkt) : Prop :=
  ∃ i e, (i, e) ∈ s.pend ∧ (e = .ctsTimeout p ∨ e = .ackTimeout p.seq ∨ e = .checkResources p)

/-- Something is pending for `p`, or an attempt to send it failed for lack of energy. -/
def Alive (s : St) (p : Pkt) : Prop := Pending s p ∨ .starved p ∈ s.log

theorem Alive.grow {s s' : St} {p} (h : Alive s p) (hp : ∀ e ∈ s.pend, e ∈ s'.pend)
    (hl : ∀ o ∈ s.log, o ∈ s'.log) : Alive s' p := by
  rcases h with ⟨i, e, h1, h2⟩ | h
  · exact Or.inl ⟨i, e, hp _ h1, h2⟩
  · exact Or.inr (hl _ h)

/-- An attempt to send leaves the packet alive. -/
theorem Alive.attempt (c : Cfg) (me : Mac48) {p : Pkt} (s : St) (hb : p.dst ≠ bcast) :
    Alive (checkResources c me p s) p := by
  unfold checkResources
  dsimp only
  split_ifs with h1 h2 h3
  · exact Or.inl ⟨_, _, List.mem_append.mpr (Or.inr (List.mem_singleton.mpr rfl)), Or.inl rfl⟩
  · exact Or.inr List.mem_cons_self
  · unfold sendData
    rw [if_neg hb]
    exact Or.inl ⟨_, _, List.mem_append.mpr (Or.inr (List.mem_singleton.mpr rfl)), Or.inr (Or.inl rfl)⟩
  · exact Or.inr List.mem_cons_self

theorem checkResources_pend (c : Cfg) (me : Mac48) (p : Pkt) (s : St) :
    ∀ e ∈ s.pend, e ∈ (checkResources c me p s).pend := by
  unfold checkResources
  dsimp only
  split_ifs
  · exact fun e he => List.mem_append.mpr (Or.inl he)
  · exact fun e he => he
  · unfold sendData
    split_ifs
    · exact fun e he => he
    · exact fun e he => List.mem_append.mpr (Or.inl he)
  · exact fun e he => he

theorem Alive.checkResources {s : St} {p} (h : Alive s p) (c : Cfg) (me : Mac48) (r : Pkt) :
    Alive (checkResources c me r s) p :=
  h.grow (checkResources_pend c me r s) (fun _ ho => (checkResources_adds c me r s).sub ho)

theorem Alive.txFirstPacket {s : St} {p} (h : Alive s p) (c : Cfg) (me : Mac48) :
    Alive (txFirstPacket c me s) p := by
  unfold Nano.txFirstPacket
  split
  · exact h
  · exact h.checkResources c me _

theorem Alive.sendDataDone {s : St} {p} (h : Alive s p) (ok : Bool) (r : Pkt) : Alive (sendDataDone ok r s) p := by
  refine h.grow ?_ (fun _ ho => (sendDataDone_adds ok r s).sub ho)
  rw [(sendDataDone_rest ok r s).1]
  unfold startNext
  split
  · exact fun e he => List.mem_append.mpr (Or.inl he)
  · exact fun e he => he

theorem retryOrDiscard_pend (c : Cfg) (q : UInt16) (g : Pkt → Pkt) (s : St) :
    ∀ e ∈ s.pend, e ∈ (retryOrDiscard c q g s).pend := by
  unfold retryOrDiscard
  split
  · exact fun e he => he
  · dsimp only
    split_ifs
    · rw [(sendDataDone_rest _ _ _).1]
      unfold startNext
      split
      · exact fun e he => List.mem_append.mpr (Or.inl he)
      · exact fun e he => he
    · exact fun e he => List.mem_append.mpr (Or.inl he)

theorem filterUp_pend (f : Frame) (s : St) : (filterUp f s).pend = s.pend := by
  unfold filterUp
  dsimp only
  split_ifs <;> rfl

/-- The timeout of `p` itself: the packet leaves the queue or a back-off is pending. -/
theorem retryOrDiscard_own {c : Cfg} {s : St} (h0 : Inv0 s) (hw : s.nextUid ≤ 65535) {p} (hp : p ∈ s.queue)
    {g : Pkt → Pkt} (hg : (g p).seq = p.seq) (hq : p ∈ (retryOrDiscard c p.seq g s).queue) :
    Alive (retryOrDiscard c p.seq g s) p := by
  obtain ⟨t0, ht0, rfl⟩ := h0.pktTx_of_queue hp
  unfold retryOrDiscard at hq ⊢
  split at hq
  · rename_i hn
    have := List.find?_eq_none.mp hn t0 ht0
    simp at this
  · rename_i t ht
    have hm := List.mem_of_find?_eq_some ht
    have hs : t.pkt.seq = t0.pkt.seq := by simpa using List.find?_some ht
    have e : t.pkt = t0.pkt := seq_inj h0 hw (h0.queue_acc (h0.mem_pktTx hm)) (h0.queue_acc hp) hs
    dsimp only at hq ⊢
    split_ifs at hq with hge
    · rw [(h0.bump t0.pkt.seq).sendDataDone_queue', e, hg] at hq
      have := (List.mem_filter.mp hq).2
      simp at this
    · rw [if_neg hge, e]
      exact Or.inl ⟨_, _, List.mem_append.mpr (Or.inr (List.mem_singleton.mpr rfl)), Or.inr (Or.inr rfl)⟩

/-- While a unicast packet stays queued, it stays alive. -/
theorem Alive.step {c : Cfg} {me : Mac48} {s : St} (h0 : Inv0 s) (h1 : Inv1 Lic me s) (hT : Tids s)
    (hw : s.nextUid ≤ 65535) {op : Op} (hop : CtsHonest me s op) {p} (hp : p ∈ s.queue)
    (hb : p.dst ≠ bcast) (hp' : p ∈ (step c me s op).queue) (ha : Alive s p) :
    Alive (step c me s op) p := by
  rcases ha with ha | ha
  swap
  · exact Or.inr ((step_adds c me s op).sub ha)
  cases op with
  | enqueue b d =>
    show Alive (enqueue c me b d s).2 p
    have ha2 : Alive (accept s b d) p :=
      Alive.grow (Or.inl ha) (fun _ h => h) (fun _ h => List.mem_cons_of_mem _ h)
    rcases enqueue_cases c me b d s with e | ⟨⟨e, -⟩, -⟩ | ⟨⟨e, -⟩, -⟩
    · rw [e]; exact Or.inl ha
    · rw [e]; exact ha2
    · rw [e]; exact ha2.txFirstPacket c me
  | recv f ok =>
    have hp2 : p ∈ (receivePacketDone c me f ok s).queue := hp'
    show Alive (receivePacketDone c me f ok s) p
    unfold receivePacketDone at hp2 ⊢
    split_ifs with hok
    · exact Or.inl ha
    · rw [if_neg hok] at hp2
      cases hk : f.kind with
      | cta => exact Or.inl ha
      | rts =>
        refine Alive.grow (Or.inl ha) ?_ (fun _ ho => (receiveRts_adds c me f s).sub ho)
        unfold receiveRts
        dsimp only
        split_ifs
        · exact fun e he => he
        · exact fun e he => List.mem_append.mpr (Or.inl he)
        · exact fun e he => he
      | cts =>
        dsimp only
        unfold receiveCts
        split_ifs with hd
        · exact Or.inl ha
        · have hrts := hop (by simpa using hok) hk (not_not.mp hd)
          obtain ⟨r, hr, -, hr3⟩ := h1.rts _ hrts rfl
          obtain ⟨i, e, hi, he⟩ := ha
          have hfr : ∀ s' : St, ∀ x ∈ s'.pend, x ∈ (answerCts me f s').pend := by
            intro s' x hx
            unfold answerCts
            split
            · unfold sendData
              split_ifs
              · exact hx
              · exact List.mem_append.mpr (Or.inl hx)
            · exact hx
          by_cases hcase : (i, e) ∈ (clearCts f.seq s).pend
          · exact Or.inl ⟨i, e, hfr _ _ hcase, he⟩
          · -- our own CTS timer was cancelled: the DATA frame goes out
            have hcan : p.seq = f.seq := by
              unfold clearCts at hcase
              split at hcase
              · rename_i a haf
                have ham := List.mem_of_find?_eq_some haf
                have has : a.seq = f.seq := by simpa using List.find?_some haf
                have hia : i = a.tid := by
                  by_contra hne
                  exact hcase (List.mem_filter.mpr ⟨hi, by simpa using hne⟩)
                subst hia
                obtain ⟨r', hr', hr2⟩ := (hT.cts a ham).2 e hi
                rcases he with he | he | he
                · rw [he] at hr'
                  obtain rfl : p = r' := by simpa using hr'
                  rw [hr2, has]
                · rw [he] at hr'; simp at hr'
                · rw [he] at hr'; simp at hr'
              · exact absurd hi hcase
            have hrp : r = p := by
              apply seq_inj h0 hw hr.acc (h0.queue_acc hp)
              rw [hcan]; exact (congrArg Frame.seq hr3).symm
            obtain ⟨t0, ht0, ht0e⟩ := h0.pktTx_of_queue hp
            have hdst : p.dst = f.src := by
              rw [← hrp]; exact (congrArg Frame.dst hr3).symm
            unfold answerCts
            split
            · rename_i t ht
              have hm := List.mem_of_find?_eq_some ht
              rw [(clearCts_frame f.seq s).2.1] at hm
              have hs := List.find?_some ht
              simp only [decide_eq_true_eq] at hs
              have e2 : t.pkt = p := seq_inj h0 hw (h0.queue_acc (h0.mem_pktTx hm)) (h0.queue_acc hp)
                (hs.1.trans hcan.symm)
              rw [e2]
              unfold sendData
              rw [if_neg hb]
              exact Or.inl ⟨_, _, List.mem_append.mpr (Or.inr (List.mem_singleton.mpr rfl)), Or.inr (Or.inl rfl)⟩
            · rename_i hn
              rw [(clearCts_frame f.seq s).2.1] at hn
              have := List.find?_eq_none.mp hn t0 ht0
              rw [ht0e] at this
              simp [hcan, hdst] at this
      | data =>
        dsimp only
        have hcd : ∀ s' : St, Tids s' → ∀ i e, (i, e) ∈ s'.pend →
            (e = .ctsTimeout p ∨ e = .ackTimeout p.seq ∨ e = .checkResources p) →
            (i, e) ∈ (acceptData me f s').pend := by
          intro s' hT' i e hi he
          unfold acceptData
          rw [filterUp_pend]
          show (i, e) ∈ (clearData f.seq s').pend
          unfold clearData
          split
          · rename_i a haf
            refine List.mem_filter.mpr ⟨hi, ?_⟩
            simp only [ne_eq, decide_not, Bool.not_eq_eq_eq_not, Bool.not_true, decide_eq_false_iff_not]
            rintro rfl
            have := (hT'.dat a (List.mem_of_find?_eq_some haf)).2 e hi
            rcases he with he | he | he <;> rw [he] at this <;> simp at this
          · exact hi
        obtain ⟨i, e, hi, he⟩ := ha
        refine Or.inl ⟨i, e, ?_, he⟩
        unfold receiveData
        dsimp only
        split_ifs
        · rw [filterUp_pend]; exact hi
        · exact hi
        · exact hcd _ (hT.book c _ _) i e hi he
        · exact hi
        · exact hcd _ hT i e hi he
      | ack =>
        rw [hk] at hp2
        dsimp only at hp2 ⊢
        unfold receiveAck at hp2 ⊢
        split_ifs with hd
        · rw [if_pos hd] at hp2
          split
          · rename_i a haf
            have ham := List.mem_of_find?_eq_some haf
            rw [haf] at hp2
            dsimp only at hp2
            have h0' : Inv0 (s.cancel a.tid) := h0.drop a.tid
            rw [h0'.sendDataDone_queue'] at hp2
            have hne : p.seq ≠ a.pkt.seq := by simpa using (List.mem_filter.mp hp2).2
            obtain ⟨i, e, hi, he⟩ := ha
            have hkeep : (i, e) ∈ (s.cancel a.tid).pend := by
              refine List.mem_filter.mpr ⟨hi, ?_⟩
              simp only [ne_eq, decide_not, Bool.not_eq_eq_eq_not, Bool.not_true, decide_eq_false_iff_not]
              rintro rfl
              have h2 := (hT.ack a ham).2 e hi
              rcases he with he | he | he
              · rw [he] at h2; simp at h2
              · rw [he] at h2
                simp only [Ev.ackTimeout.injEq] at h2
                exact hne (h2.trans (h1.ackT a ham).2.2.1)
              · rw [he] at h2; simp at h2
            have hal : Alive (s.cancel a.tid) p := Or.inl ⟨i, e, hkeep, he⟩
            exact (hal.sendDataDone true a.pkt).grow (fun _ h => h) (fun _ h => h)
          · exact Or.inl ha
        · exact Or.inl ha
  | fire tid =>
    have hp2 : p ∈ (fire c me tid s).queue := hp'
    show Alive (fire c me tid s) p
    unfold fire at hp2 ⊢
    split
    · rename_i x hx
      obtain ⟨i', ev⟩ := x
      have hm := List.mem_of_find?_eq_some hx
      have hi' : i' = tid := by simpa using List.find?_some hx
      subst hi'
      rw [hx] at hp2
      have hp3 : p ∈ (runEv c me ev (drop s i')).queue := hp2
      show Alive (runEv c me ev (drop s i')) p
      obtain ⟨i, e, hi, he⟩ := ha
      by_cases hii : i = i'
      · -- the event of `p` itself fires
        subst hii
        obtain rfl := hT.uniq _ _ _ hi hm
        rcases he with rfl | rfl | rfl
        · show Alive (ctsTimeout c p (drop s i)) p
          have hp3 : p ∈ (ctsTimeout c p (drop s i)).queue := hp3
          rw [ctsTimeout_eq] at hp3 ⊢
          exact retryOrDiscard_own ((h0.drop i).ctsPre c p) hw hp rfl hp3
        · show Alive (ackTimeout c p.seq (drop s i)) p
          have hp3 : p ∈ (ackTimeout c p.seq (drop s i)).queue := hp3
          rw [ackTimeout_eq] at hp3 ⊢
          exact retryOrDiscard_own ((h0.drop i).ackPre c p.seq) hw hp rfl hp3
        · exact Alive.attempt c me _ hb
      · -- another event fires
        have hkeep : (i, e) ∈ (drop s i').pend := List.mem_filter.mpr ⟨hi, by simpa using hii⟩
        have hal : Alive (drop s i') p := Or.inl ⟨i, e, hkeep, he⟩
        unfold runEv
        cases ev with
        | ctsTimeout r =>
          show Alive (ctsTimeout c r (drop s i')) p
          rw [ctsTimeout_eq]
          exact Or.inl ⟨i, e, retryOrDiscard_pend c _ _ _ _ hkeep, he⟩
        | ackTimeout q =>
          show Alive (ackTimeout c q (drop s i')) p
          rw [ackTimeout_eq]
          exact Or.inl ⟨i, e, retryOrDiscard_pend c _ _ _ _ hkeep, he⟩
        | dataTimeout q => exact Or.inl ⟨i, e, hkeep, he⟩
        | checkResources r => exact hal.checkResources c me r
    · exact Or.inl ha
  | harvest =>
    show Alive (harvest c me s) p
    unfold harvest
    dsimp only
    split_ifs
    · have h1 : Alive { s with energy := (c.energy.harvestStep s.energy).2 } p := Or.inl ha
      exact h1.txFirstPacket c me
    · exact Or.inl ha
  | einit =>
    show Alive (energyInit c me s) p
    unfold energyInit harvest
    dsimp only
    split_ifs
    · have h1 : Alive { s with energy := (c.energy.harvestStep c.energy.initial).2 } p := Or.inl ha
      exact h1.txFirstPacket c me
    · exact Or.inl ha

/-! ## Started packets are alive -/

/-- An RTS or the DATA frame of `p` was handed to the PHY. -/
def Started (me : Mac48) (s : St) (p : Pkt) : Prop :=
  .tx (rtsFrame me p) ∈ s.log ∨ .tx (dataFrame me p) ∈ s.log

structure Inv3 (me : Mac48) (s : St) : Prop where
  alive : ∀ p ∈ s.queue, p.dst ≠ bcast → Started me s p → Alive s p

/-- A packet that an attempt in this step concerned is alive afterwards. -/
theorem alive_new {c : Cfg} {me : Mac48} {s : St} (h0 : Inv0 s) (h1 : Inv1 Lic me s) (hT : Tids s)
    {op : Op} (hw' : (step c me s op).nextUid ≤ 65535) {p : Pkt} (hp : p ∈ accs (step c me s op).log)
    (hb : p.dst ≠ bcast) (hns : ¬ Started me s p) (hst : Started me (step c me s op) p)
    (hop : CtsHonest me s op) : Alive (step c me s op) p := by
  have h0' := h0.step c me op
  have hw : s.nextUid ≤ 65535 := (step_nextUid c me s op).trans hw'
  -- the new observation
  have hobs : ∃ o, (o = .tx (rtsFrame me p) ∨ o = .tx (dataFrame me p)) ∧ StepObs me s op o := by
    rcases hst with h | h
    · rcases (step_adds c me s op).mem h with h2 | h2
      · exact ⟨_, Or.inl rfl, h2⟩
      · exact absurd (Or.inl h2) hns
    · rcases (step_adds c me s op).mem h with h2 | h2
      · exact ⟨_, Or.inr rfl, h2⟩
      · exact absurd (Or.inr h2) hns
  obtain ⟨o, ho, hso⟩ := hobs
  -- an attempt that shows a frame of `p` is an attempt for a packet equal to `p`
  have hatt : ∀ r, r ∈ accs (step c me s op).log → AttemptObs me r o → r = p := by
    intro r hr hro
    apply seq_inj h0' hw' hr hp
    rcases hro with ⟨g, tx, rx, rfl⟩ | rfl | ⟨rfl, -⟩ | rfl
    · simp at ho
    · simp at ho
    · rcases ho with ho | ho
      · simp only [Obs.tx.injEq] at ho; exact congrArg Frame.seq ho
      · simp only [Obs.tx.injEq] at ho; exact congrArg Frame.seq ho
    · rcases ho with ho | ho
      · simp only [Obs.tx.injEq] at ho; exact congrArg Frame.seq ho
      · simp only [Obs.tx.injEq] at ho; exact congrArg Frame.seq ho
  cases op with
  | enqueue b d =>
    rcases enqueue_cases c me b d s with e | ⟨⟨e, -⟩, -⟩ | ⟨⟨e, -⟩, -⟩
    · exfalso
      apply hns
      have : (step c me s (.enqueue b d)) = s := e
      rw [this] at hst; exact hst
    · exfalso
      apply hns
      have : (step c me s (.enqueue b d)) = accept s b d := e
      rw [this] at hst
      rcases hst with h | h
      · rcases List.mem_cons.mp (show _ ∈ Obs.accepted (newPkt s b d) :: s.log from h) with h | h
        · simp at h
        · exact Or.inl h
      · rcases List.mem_cons.mp (show _ ∈ Obs.accepted (newPkt s b d) :: s.log from h) with h | h
        · simp at h
        · exact Or.inr h
    · rcases hso with h | ⟨r, hr, hro⟩
      · rw [h] at ho; simp at ho
      · have hq : (accept s b d).queue.head? = some r := hr
        have hstep : step c me s (.enqueue b d) = txFirstPacket c me (accept s b d) := e
        have hracc : r ∈ accs (step c me s (.enqueue b d)).log := by
          rw [hstep, (txFirstPacket_quiet c me _).accs]
          exact (h0.accept b d).queue_acc (List.mem_of_mem_head? hr)
        have e2 := hatt r hracc hro
        subst e2
        rw [hstep]
        unfold txFirstPacket
        cases hq2 : (accept s b d).queue with
        | nil => rw [hq2] at hq; simp at hq
        | cons x xs =>
          rw [hq2] at hq
          obtain rfl : x = r := by simpa using hq
          exact Alive.attempt c me _ hb
  | recv f ok =>
    obtain ⟨hok, hso⟩ := hso
    rcases hso with ⟨-, h⟩ | ⟨hk, hd, t, ht, hts, htd, rfl⟩ | ⟨-, h⟩ | ⟨-, -, a, -, -, t, -, -, rfl⟩
    · rcases h with ⟨g, tx, rx, rfl⟩ | ⟨-, rfl⟩
      · simp at ho
      · simp [rtsFrame, dataFrame] at ho
    · -- CTS
      have hacc2 : ∀ x, x ∈ accs (step c me s (.recv f ok)).log ↔ x ∈ accs s.log := by
        intro x
        have : step c me s (.recv f ok) = receiveCts me f s := by
          show receivePacketDone c me f ok s = _
          unfold receivePacketDone
          rw [if_neg (by simp [hok]), hk]
        rw [this, (receiveCts_quiet me f s).accs]
      have hpt : t.pkt = p := by
        apply seq_inj h0 hw (h0.queue_acc (h0.mem_pktTx ht)) ((hacc2 p).mp hp)
        rcases ho with ho | ho
        · simp only [Obs.tx.injEq] at ho; exact congrArg Frame.seq ho
        · simp only [Obs.tx.injEq] at ho; exact congrArg Frame.seq ho
      -- an RTS for it was sent before
      exfalso
      apply hns
      have hrts := hop hok hk hd
      left
      have : rtsFrame me p = ⟨.rts, me, f.src, f.seq, ⟨0, 0⟩⟩ := by
        rw [← hpt]; unfold rtsFrame; rw [hts, htd]
      rw [this]; exact hrts
    · rcases h with ⟨g, tx, rx, rfl⟩ | ⟨-, rfl⟩ | ⟨-, -, rfl⟩
      · simp at ho
      · simp at ho
      · simp [rtsFrame, dataFrame] at ho
    · simp at ho
  | fire tid =>
    rcases hso with ⟨r, hr, h⟩ | ⟨q, hr, h⟩ | ⟨q, hr, tx, rx, rfl⟩ | ⟨r, hr, hro⟩
    · rcases h with rfl | ⟨tx, rx, rfl⟩ | ⟨t, -, -, rfl | rfl⟩ <;> simp at ho
    · rcases h with rfl | ⟨tx, rx, rfl⟩ | ⟨t, -, -, rfl | rfl⟩ <;> simp at ho
    · simp at ho
    · have hracc : r ∈ accs (step c me s (.fire tid)).log := by
        rw [mem_accs]
        exact (step_adds c me s (.fire tid)).sub (mem_accs.mp (h1.chk tid r hr).1.acc)
      have e2 := hatt r hracc hro
      subst e2
      show Alive (fire c me tid s) r
      unfold fire
      split
      · rename_i x hx
        obtain ⟨i', ev⟩ := x
        have hi' : i' = tid := by simpa using List.find?_some hx
        subst hi'
        by_cases hev : ev = .checkResources r
        · subst hev
          exact Alive.attempt c me _ hb
        · -- another event with the same id: not possible
          exact absurd (hT.uniq _ _ _ (List.mem_of_find?_eq_some hx) hr) hev
      · rename_i hn
        have := List.find?_eq_none.mp hn _ hr
        simp at this
  | harvest =>
    obtain ⟨r, hr, hro⟩ := hso
    have hracc : r ∈ accs (step c me s .harvest).log := by
      show r ∈ accs (harvest c me s).log
      rw [(harvest_quiet c me s).accs]
      exact h0.queue_acc (List.mem_of_mem_head? hr)
    have e2 := hatt r hracc hro
    subst e2
    show Alive (harvest c me s) r
    unfold harvest
    dsimp only
    split_ifs with hcb
    · unfold txFirstPacket
      cases hq2 : s.queue with
      | nil => rw [hq2] at hr; simp at hr
      | cons x xs =>
        rw [hq2] at hr
        obtain rfl : x = r := by simpa using hr
        exact Alive.attempt c me _ hb
    · exfalso
      apply hns
      have : Started me (harvest c me s) r := hst
      unfold harvest at this
      dsimp only at this
      rw [if_neg hcb] at this
      exact this
  | einit =>
    obtain ⟨r, hr, hro⟩ := hso
    have hracc : r ∈ accs (step c me s .einit).log := by
      show r ∈ accs (energyInit c me s).log
      rw [(energyInit_quiet c me s).accs]
      exact h0.queue_acc (List.mem_of_mem_head? hr)
    have e2 := hatt r hracc hro
    subst e2
    show Alive (energyInit c me s) r
    unfold energyInit harvest
    dsimp only
    split_ifs with hcb
    · unfold txFirstPacket
      cases hq2 : s.queue with
      | nil => rw [hq2] at hr; simp at hr
      | cons x xs =>
        rw [hq2] at hr
        obtain rfl : x = r := by simpa using hr
        exact Alive.attempt c me _ hb
    · exfalso
      apply hns
      have : Started me (energyInit c me s) r := hst
      unfold energyInit harvest at this
      dsimp only at this
      rw [if_neg hcb] at this
      exact this

theorem Inv3.init (me : Mac48) (e0 : ℚ) : Inv3 me (St.init e0) := ⟨by simp [St.init]⟩

theorem Inv3.step {c : Cfg} {me : Mac48} {s : St} (h : Inv3 me s) (h0 : Inv0 s) (h1 : Inv1 Lic me s)
    (hT : Tids s) {op : Op} (hw' : (step c me s op).nextUid ≤ 65535) (hop : CtsHonest me s op) :
    Inv3 me (step c me s op) := by
  have h0' := h0.step c me op
  have hw : s.nextUid ≤ 65535 := (step_nextUid c me s op).trans hw'
  have hsub : ∀ x, x ∈ accs s.log → x ∈ accs (Nano.step c me s op).log := fun x hx =>
    mem_accs.mpr ((step_adds c me s op).sub (mem_accs.mp hx))
  constructor
  intro p hp hb hst
  by_cases hs : Started me s p
  · have hacc : p ∈ accs s.log := by
      rcases hs with hs | hs
      · obtain ⟨r, hr, -, e⟩ := h1.rts _ hs rfl
        have := seq_inj h0' hw' (h0'.queue_acc hp) (hsub r hr.acc) (congrArg Frame.seq e)
        exact this ▸ hr.acc
      · obtain ⟨r, hr, e⟩ := h1.data _ hs rfl
        have := seq_inj h0' hw' (h0'.queue_acc hp) (hsub r hr.acc) (congrArg Frame.seq e)
        exact this ▸ hr.acc
    have hq : p ∈ s.queue := by
      rw [h0.mem_queue_iff]
      refine ⟨hacc, ?_⟩
      intro ho
      apply h0'.queue_not_outcome hp
      obtain ⟨ok, ho⟩ := mem_outcomes.mp ho
      exact mem_outcomes.mpr ⟨ok, (step_adds c me s op).sub ho⟩
    exact Alive.step h0 h1 hT hw hop hq hb hp (h.alive p hq hb hs)
  · exact alive_new h0 h1 hT hw' (h0'.queue_acc hp) hb hs hst hop

/-! ## A single destination -/

/-- The next packet to the same destination is scheduled when a packet is completed. -/
theorem sendDataDone_next {s : St} (h0 : Inv0 s) (hw : s.nextUid ≤ 65535) (ok : Bool) {p : Pkt} (hp : Lic s p)
    (hd : ∀ q ∈ s.queue, q.dst = p.dst) {r rs} (hr : (sendDataDone ok p s).queue = r :: rs) :
    Pending (sendDataDone ok p s) r := by
  have hq := h0.sendDataDone_queue' ok p
  have hrm : r ∈ (sendDataDone ok p s).queue := by rw [hr]; exact List.mem_cons_self
  have hrm' := hrm
  rw [hq] at hrm'
  obtain ⟨hrq, hrne⟩ := List.mem_filter.mp hrm'
  simp only [ne_eq, decide_not, Bool.not_eq_eq_eq_not, Bool.not_true, decide_eq_false_iff_not] at hrne
  have hle : p.uid ≤ r.uid := hp.first r hrq (hd r hrq)
  have hlt : p.seq < r.seq := by
    rw [seq_lt_iff h0 hw hp.acc (h0.queue_acc hrq)]
    refine lt_of_le_of_ne hle ?_
    intro e
    exact hrne (congrArg Pkt.seq (h0.uid_inj hp.acc (h0.queue_acc hrq) e)).symm
  obtain ⟨tr, htr, rfl⟩ := h0.pktTx_of_queue hrq
  refine ⟨s.nextTid, .checkResources tr.pkt, ?_, Or.inr (Or.inr rfl)⟩
  rw [(sendDataDone_rest ok p s).1]
  unfold startNext
  cases hf : s.pktTx.find? (fun t => t.pkt.seq > p.seq ∧ t.pkt.dst = p.dst) with
  | none =>
    have := List.find?_eq_none.mp hf tr htr
    simp [hlt, hd _ hrq] at this
  | some t =>
    have ht := List.mem_of_find?_eq_some hf
    have ht2 := List.find?_some hf
    simp only [decide_eq_true_eq] at ht2
    have hle2 : t.pkt.uid ≤ tr.pkt.uid :=
      find_first_le h0.pktTx_sort hf htr (by simpa using ⟨hlt, hd _ hrq⟩)
    have htq : t.pkt ∈ (sendDataDone ok p s).queue := by
      rw [hq]
      refine List.mem_filter.mpr ⟨h0.mem_pktTx ht, ?_⟩
      simp only [ne_eq, decide_not, Bool.not_eq_eq_eq_not, Bool.not_true, decide_eq_false_iff_not]
      intro e
      have := ht2.1
      rw [e] at this
      rw [gt_iff_lt, UInt16.lt_iff_toNat_lt] at this; omega
    have hle3 : tr.pkt.uid ≤ t.pkt.uid := by
      have hs := (h0.sendDataDone ok p).qsort
      rw [hr] at htq hs
      rcases List.mem_cons.mp htq with e | h
      · rw [e]
      · exact le_of_lt ((List.pairwise_cons.mp hs).1 _ h)
    have e : t.pkt = tr.pkt :=
      h0.uid_inj (h0.queue_acc (h0.mem_pktTx ht)) (h0.queue_acc hrq) (le_antisymm hle2 hle3)
    dsimp only
    rw [e]
    exact List.mem_append.mpr (Or.inr (List.mem_singleton.mpr rfl))

/-- The front of the queue is alive. -/
def FrontAlive (s : St) : Prop := ∀ p ps, s.queue = p :: ps → Alive s p

theorem retryOrDiscard_next {c : Cfg} {s : St} (h0 : Inv0 s) (hw : s.nextUid ≤ 65535) {q : UInt16}
    {g : Pkt → Pkt} {d : Mac48} (hd : ∀ x ∈ s.queue, x.dst = d)
    (hg : ∀ t ∈ s.pktTx, t.pkt.seq = q → Lic s (g t.pkt) ∧ (g t.pkt).dst = d) :
    (retryOrDiscard c q g s).queue = s.queue ∨ FrontAlive (retryOrDiscard c q g s) := by
  unfold retryOrDiscard
  split
  · exact Or.inl rfl
  · rename_i t ht
    dsimp only
    split_ifs
    · right
      intro r rs hr
      obtain ⟨hl, he⟩ := hg t (List.mem_of_find?_eq_some ht) (by simpa using List.find?_some ht)
      have hl' : Lic { s with pktTx := bumpRetry q s.pktTx } (g t.pkt) := Lic.ok.same hl rfl rfl
      exact Or.inl (sendDataDone_next (h0.bump q) hw false hl' (fun x hx => (hd x hx).trans he.symm) hr)
    · exact Or.inl rfl

/-- With a single unicast destination the front of the queue is always alive. -/
theorem FrontAlive.step {c : Cfg} {me : Mac48} {s : St} (h : FrontAlive s) (h0 : Inv0 s)
    (h1 : Inv1 Lic me s) (hT : Tids s) {op : Op} (hw' : (step c me s op).nextUid ≤ 65535)
    (hop : CtsHonest me s op) {d : Mac48} (hdb : d ≠ bcast)
    (hd : ∀ p, .accepted p ∈ (step c me s op).log → p.dst = d) : FrontAlive (step c me s op) := by
  have h0' := h0.step c me op
  have hw : s.nextUid ≤ 65535 := (step_nextUid c me s op).trans hw'
  have hda : ∀ p ∈ accs s.log, p.dst = d := fun p hp =>
    hd p ((step_adds c me s op).sub (mem_accs.mp hp))
  have hdq : ∀ p ∈ s.queue, p.dst = d := fun p hp => hda p (h0.queue_acc hp)
  -- the front has not changed
  have key : ∀ p ps ps', s.queue = p :: ps → (Nano.step c me s op).queue = p :: ps' →
      Alive (Nano.step c me s op) p := by
    intro p ps ps' e e'
    have hp : p ∈ s.queue := by rw [e]; exact List.mem_cons_self
    exact Alive.step h0 h1 hT hw hop hp (by rw [hdq p hp]; exact hdb) (by rw [e']; exact List.mem_cons_self)
      (h p ps e)
  have same : (Nano.step c me s op).queue = s.queue → FrontAlive (Nano.step c me s op) := by
    intro e p ps hp
    exact key p ps ps (e ▸ hp) hp
  cases op with
  | enqueue b dd =>
    rcases enqueue_cases c me b dd s with e | ⟨⟨e, -⟩, t, ht, -⟩ | ⟨⟨e, -⟩, hnone⟩
    · exact same (congrArg St.queue e)
    · intro p ps hp
      have hp2 : s.queue ++ [newPkt s b dd] = p :: ps := by
        have : (Nano.step c me s (.enqueue b dd)).queue = s.queue ++ [newPkt s b dd] := congrArg St.queue e
        rw [← this]; exact hp
      cases hq : s.queue with
      | nil =>
        have := h0.mem_pktTx ht
        rw [hq] at this; simp at this
      | cons x xs =>
        rw [hq] at hp2
        obtain rfl : x = p := by simpa using (List.cons.inj hp2).1
        exact key x xs ps hq hp
    · intro p ps hp
      have e2 : Nano.step c me s (.enqueue b dd) = txFirstPacket c me (accept s b dd) := e
      have hp2 : (accept s b dd).queue = p :: ps := by
        rw [e2, (txFirstPacket_quiet c me _).queue] at hp; exact hp
      have hpd : p.dst ≠ bcast := by
        have hm : p ∈ (Nano.step c me s (.enqueue b dd)).queue := by rw [hp]; exact List.mem_cons_self
        rw [hd p (mem_accs.mp (h0'.queue_acc hm))]; exact hdb
      rw [e2]
      unfold txFirstPacket
      rw [hp2]
      exact Alive.attempt c me _ hpd
  | recv f ok =>
    by_cases hok : ok = false
    · refine same ?_
      show (receivePacketDone c me f ok s).queue = _
      unfold receivePacketDone
      rw [if_pos hok]
    · cases hk : f.kind with
      | ack =>
        have e : Nano.step c me s (.recv f ok) = receiveAck me f s := by
          show receivePacketDone c me f ok s = _
          unfold receivePacketDone
          rw [if_neg hok, hk]
        rw [e] at same ⊢
        unfold receiveAck at same ⊢
        split_ifs at same ⊢ with hme
        · split
          · rename_i a ha
            have ham := List.mem_of_find?_eq_some ha
            intro r rs hr
            have hl : Lic (s.cancel a.tid) a.pkt := Lic.ok.same (h1.ackT a ham).1 rfl rfl
            have hpe := sendDataDone_next (s := s.cancel a.tid) (h0.drop a.tid) hw true hl
              (fun x hx => (hdq x hx).trans (hda _ (h1.ackT a ham).1.acc).symm) hr
            exact Or.inl hpe
          · rename_i hn
            rw [hn] at same
            exact same rfl
        · exact same rfl
      | rts =>
        refine same ?_
        show (receivePacketDone c me f ok s).queue = _
        unfold receivePacketDone
        rw [if_neg hok, hk]
        exact (receiveRts_quiet c me f s).queue
      | cts =>
        refine same ?_
        show (receivePacketDone c me f ok s).queue = _
        unfold receivePacketDone
        rw [if_neg hok, hk]
        exact (receiveCts_quiet me f s).queue
      | data =>
        refine same ?_
        show (receivePacketDone c me f ok s).queue = _
        unfold receivePacketDone
        rw [if_neg hok, hk]
        exact (receiveData_quiet c me f s).queue
      | cta =>
        refine same ?_
        show (receivePacketDone c me f ok s).queue = _
        unfold receivePacketDone
        rw [if_neg hok, hk]
  | fire tid =>
    cases hx : s.pend.find? (fun e => e.1 = tid) with
    | none =>
      refine same ?_
      show (fire c me tid s).queue = _
      unfold fire
      rw [hx]
    | some x =>
      obtain ⟨i, ev⟩ := x
      have hm := List.mem_of_find?_eq_some hx
      have e : Nano.step c me s (.fire tid) = runEv c me ev (drop s tid) := by
        show fire c me tid s = _
        unfold fire
        rw [hx]
        rfl
      rw [e] at same ⊢
      cases ev with
      | ctsTimeout p =>
        have e2 : runEv c me (.ctsTimeout p) (drop s tid) =
          retryOrDiscard c p.seq (fun _ => p) (ctsPre c p (drop s tid)) := ctsTimeout_eq c p _
        rw [e2] at same ⊢
        have hl := (h1.cts i p hm).1
        rcases retryOrDiscard_next (c := c) (q := p.seq) (g := fun _ => p) (d := d)
          ((h0.drop tid).ctsPre c p) hw hdq (fun _ _ _ => ⟨Lic.ok.same hl rfl rfl, hda p hl.acc⟩) with h2 | h2
        · exact same h2
        · exact h2
      | ackTimeout q =>
        have e2 : runEv c me (.ackTimeout q) (drop s tid) =
          retryOrDiscard c q (fun r => r) (ackPre c q (drop s tid)) := ackTimeout_eq c q _
        rw [e2] at same ⊢
        obtain ⟨p, hl, -, hpq, -⟩ := h1.ackE i q hm
        rcases retryOrDiscard_next (c := c) (q := q) (g := fun r => r) (d := d)
          ((h0.drop tid).ackPre c q) hw hdq (by
            intro t ht hts
            have : t.pkt = p := seq_inj h0 hw (h0.queue_acc (h0.mem_pktTx ht)) hl.acc (hts.trans hpq.symm)
            rw [this]
            exact ⟨Lic.ok.same hl rfl rfl, hda p hl.acc⟩) with h2 | h2
        · exact same h2
        · exact h2
      | dataTimeout q => exact same rfl
      | checkResources p => exact same (checkResources_quiet c me p _).queue
  | harvest => exact same (harvest_quiet c me s).queue
  | einit => exact same (energyInit_quiet c me s).queue

/-! ## Runs -/

theorem Tids.run {s : St} (h : Tids s) (c : Cfg) (me : Mac48) (ops : List Op) : Tids (run c me s ops) := by
  induction ops generalizing s with
  | nil => exact h
  | cons o os ih => exact ih (h.step c me o)

theorem Inv3.run {me : Mac48} {s : St} (h : Inv3 me s) (h0 : Inv0 s) (h1 : Inv1 Lic me s) (hT : Tids s)
    (c : Cfg) (ops : List Op) (hh : RunHonest c me s ops) (hw : (run c me s ops).nextUid ≤ 65535) :
    Inv3 me (run c me s ops) := by
  induction ops generalizing s with
  | nil => exact h
  | cons o os ih =>
    have hw' : (Nano.step c me s o).nextUid ≤ 65535 := (run_nextUid c me _ os).trans hw
    have hws := (step_nextUid c me s o).trans hw'
    exact ih (h.step h0 h1 hT hw' hh.1) (h0.step c me o)
      (h1.step Lic.ok h0 hws c o (CtsLic.lic h1 h0 hws hh.1)) (hT.step c me o) hh.2 hw

theorem FrontAlive.run {me : Mac48} {s : St} (h : FrontAlive s) (h0 : Inv0 s) (h1 : Inv1 Lic me s) (hT : Tids s)
    (c : Cfg) (ops : List Op) (hh : RunHonest c me s ops) (hw : (run c me s ops).nextUid ≤ 65535)
    {d : Mac48} (hdb : d ≠ bcast) (hd : ∀ p, .accepted p ∈ (run c me s ops).log → p.dst = d) :
    FrontAlive (run c me s ops) := by
  induction ops generalizing s with
  | nil => exact h
  | cons o os ih =>
    have hw' : (Nano.step c me s o).nextUid ≤ 65535 := (run_nextUid c me _ os).trans hw
    have hws := (step_nextUid c me s o).trans hw'
    exact ih (h.step h0 h1 hT hw' hh.1 hdb (fun p hp => hd p ((run_adds c me _ os).sub hp))) (h0.step c me o)
      (h1.step Lic.ok h0 hws c o (CtsLic.lic h1 h0 hws hh.1)) (hT.step c me o) hh.2 hw hd

end Thz.Nano
