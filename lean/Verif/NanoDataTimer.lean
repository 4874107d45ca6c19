import Verif.NanoAck

/-!
# The timer of a receiver that has sent a CTS

What a step of the nano MAC does to the timers that return the energy reserved for DATA (`dat_step`).
-/

namespace Thz.Nano

open Thz

/-- Between `s` and `s'` no CTS is sent, no such timer starts, ends or runs. -/
structure NoDat (c : Cfg) (s s' : St) : Prop where
  pend : ∀ i q, (i, Ev.dataTimeout q) ∈ s'.pend ↔ (i, Ev.dataTimeout q) ∈ s.pend
  log : Adds (fun o => o ≠ .ret 18 c.frameLength ∧ ∀ f, o = .tx f → f.kind ≠ .cts) s s'

theorem NoDat.refl {c : Cfg} {s : St} : NoDat c s s := ⟨fun _ _ => Iff.rfl, Adds.refl⟩

theorem NoDat.trans {c : Cfg} {s s1 s2 : St} (h1 : NoDat c s s1) (h2 : NoDat c s1 s2) : NoDat c s s2 :=
  ⟨fun i q => (h2.pend i q).trans (h1.pend i q), h1.log.trans h2.log⟩

theorem NoDat.pre {c : Cfg} {s s1 s2 : St} (h2 : NoDat c s1 s2) (h1 : NoDat c s s1) : NoDat c s s2 := h1.trans h2

theorem NoDat.still {c : Cfg} {s s' : St} (h1 : s'.pend = s.pend)
    (h2 : Adds (fun o => o ≠ .ret 18 c.frameLength ∧ ∀ f, o = .tx f → f.kind ≠ .cts) s s') : NoDat c s s' :=
  ⟨fun i q => by rw [h1], h2⟩

theorem NoDat.sched {c : Cfg} {s s' : St} {n : Nat} {ev : Ev} (h1 : s'.pend = s.pend ++ [(n, ev)]) (h3 : ∀ q, ev ≠ .dataTimeout q)
    (h2 : Adds (fun o => o ≠ .ret 18 c.frameLength ∧ ∀ f, o = .tx f → f.kind ≠ .cts) s s') : NoDat c s s' := by
  refine ⟨fun i q => ?_, h2⟩
  rw [h1, List.mem_append, List.mem_singleton, Prod.mk.injEq]
  exact ⟨fun h => h.elim id (fun h => absurd h.2.symm (h3 q)), .inl⟩

/-- An event that is no such timer is taken off the list. -/
theorem NoDat.drop {c : Cfg} {s s' : St} {tid : Nat} (h1 : s'.pend = s.pend.filter (fun e => e.1 ≠ tid))
    (h3 : ∀ q, (tid, Ev.dataTimeout q) ∉ s.pend) (h2 : s'.log = s.log) : NoDat c s s' := by
  refine ⟨fun i q => ?_, Adds.of_eq h2⟩
  rw [h1, List.mem_filter]
  refine ⟨fun h => h.1, fun h => ⟨h, ?_⟩⟩
  have : i ≠ tid := by
    rintro rfl
    exact h3 q h
  simpa using this

theorem noDat_book {c : Cfg} (s : St) (tx rx : Nat) : NoDat c s (s.book c tx rx).2 := .still rfl (Adds.one rfl (by simp))

theorem noDat_emit {c : Cfg} (s : St) {o : Obs} (ho : o ≠ .ret 18 c.frameLength ∧ ∀ f, o = .tx f → f.kind ≠ .cts) : NoDat c s (s.emit o) :=
  .still rfl (Adds.one rfl ho)

theorem noDat_sendData {c : Cfg} (me : Mac48) (p : Pkt) (s : St) : NoDat c s (sendData me p s) := by
  unfold sendData
  split_ifs
  · exact noDat_emit _ (by simp)
  · exact .sched (ev := .ackTimeout p.seq) rfl (by simp) (Adds.one rfl (by simp))

theorem noDat_checkResources (c : Cfg) (me : Mac48) (p : Pkt) (s : St) : NoDat c s (checkResources c me p s) := by
  unfold checkResources
  dsimp only
  split_ifs with h1 h2 h2
  · refine (noDat_book s (p.size + 18) (2 * 18)).trans ?_
    exact .sched (ev := .ctsTimeout p) rfl (by simp) (Adds.one rfl (by simp))
  · exact (noDat_book s _ _).trans (noDat_emit _ (by simp))
  · exact (noDat_book s _ _).trans (noDat_sendData _ _ _)
  · exact (noDat_book s _ _).trans (noDat_emit _ (by simp))

theorem noDat_txFirstPacket (c : Cfg) (me : Mac48) (s : St) : NoDat c s (txFirstPacket c me s) := by
  unfold txFirstPacket
  split
  · exact .refl
  · exact noDat_checkResources c me _ s

theorem noDat_harvest (c : Cfg) (me : Mac48) (s : St) : NoDat c s (harvest c me s) := by
  unfold harvest
  dsimp only
  split_ifs
  · exact (noDat_txFirstPacket c me _).pre (.still rfl (Adds.of_eq rfl))
  · exact .still rfl (Adds.of_eq rfl)

theorem noDat_enqueue (c : Cfg) (me : Mac48) (b : Body) (d : Mac48) (s : St) : NoDat c s (enqueue c me b d s).2 := by
  unfold enqueue
  dsimp only
  split_ifs
  · exact .refl
  · exact .refl
  · exact .still rfl (Adds.one rfl (by simp))
  · exact (noDat_txFirstPacket c me _).pre (.still rfl (Adds.one rfl (by simp)))

theorem noDat_startNext {c : Cfg} (p : Pkt) (s : St) : NoDat c s (startNext p s) := by
  unfold startNext
  split
  · exact .sched (ev := .checkResources _) rfl (by simp) (Adds.of_eq rfl)
  · exact .refl

theorem noDat_sendDataDone {c : Cfg} (ok : Bool) (p : Pkt) (s : St) : NoDat c s (sendDataDone ok p s) := by
  obtain ⟨h1, -⟩ := sendDataDone_rest ok p s
  have h := noDat_startNext (c := c) p s
  refine ⟨by rw [h1]; exact h.pend, ?_⟩
  exact (sendDataDone_adds ok p s).mono (by rintro o ⟨t, -, -, rfl⟩; simp)

theorem noDat_retryOrDiscard {c : Cfg} (q : UInt16) (g : Pkt → Pkt) (s : St) : NoDat c s (retryOrDiscard c q g s) := by
  unfold retryOrDiscard
  split
  · exact .refl
  · dsimp only
    have h : NoDat c s { s with pktTx := bumpRetry q s.pktTx } := .still rfl (Adds.of_eq rfl)
    split_ifs
    · exact h.trans (noDat_sendDataDone false _ _)
    · exact h.trans (.sched (ev := .checkResources _) rfl (by simp) (Adds.one rfl (by simp)))

theorem noDat_ctsTimeout {c : Cfg} (p : Pkt) (s : St) : NoDat c s (ctsTimeout c p s) := by
  unfold ctsTimeout
  refine NoDat.trans (s1 := ctsPre c p s) (.still rfl ⟨[.ret c.frameLength (2 * 18), .timeout p.seq], rfl, ?_⟩) (noDat_retryOrDiscard _ _ _)
  simp only [List.mem_cons, List.not_mem_nil, or_false, forall_eq_or_imp, forall_eq, ne_eq, Obs.ret.injEq, reduceCtorEq, false_implies,
    implies_true, not_false_eq_true, and_true]
  omega

theorem noDat_ackTimeout {c : Cfg} (q : UInt16) (s : St) : NoDat c s (ackTimeout c q s) := by
  unfold ackTimeout
  exact NoDat.trans (s1 := ackPre c q s) (.still rfl ⟨[.ret 0 18, .timeout q], rfl, by simp⟩) (noDat_retryOrDiscard _ _ _)

theorem noDat_receiveCts {c : Cfg} (me : Mac48) (f : Frame) {s : St} (hT : Tids s) : NoDat c s (receiveCts me f s) := by
  unfold receiveCts
  split_ifs
  · exact .refl
  have h : NoDat c s (clearCts f.seq s) := by
    unfold clearCts
    split
    · rename_i t ht
      refine .drop (tid := t.tid) rfl ?_ rfl
      intro q hq
      obtain ⟨p, hp, -⟩ := (hT.cts t (List.mem_of_find?_eq_some ht)).2 _ hq
      cases hp
    · exact .refl
  unfold answerCts
  split
  · exact h.trans (noDat_sendData _ _ _)
  · exact h

theorem noDat_receiveAck {c : Cfg} (me : Mac48) (f : Frame) {s : St} (hT : Tids s) : NoDat c s (receiveAck me f s) := by
  unfold receiveAck
  split_ifs
  · split
    · rename_i a ha
      dsimp only
      refine NoDat.trans (s1 := s.cancel a.tid) (.drop (tid := a.tid) rfl ?_ rfl) ?_
      · intro q hq
        have := (hT.ack a (List.mem_of_find?_eq_some ha)).2 _ hq
        cases this
      refine NoDat.trans (noDat_sendDataDone true a.pkt _) ?_
      exact .still rfl (Adds.of_eq rfl)
    · exact .refl
  · exact .refl

theorem noDat_filterUp {c : Cfg} (f : Frame) (s : St) : NoDat c s (filterUp f s) := by
  unfold filterUp
  dsimp only
  split_ifs
  · exact .still rfl (Adds.one rfl (by simp))
  · exact .still rfl (Adds.of_eq rfl)

/-- What a step does to the timers. -/
inductive DatStep (c : Cfg) (me : Mac48) (s : St) (op : Op) (s' : St) : Prop
  | none (h : NoDat c s s')
  /-- a timer runs. -/
  | fired (tid : Nat) (q : UInt16) (hop : op = .fire tid) (h : (tid, Ev.dataTimeout q) ∈ s.pend) (hp : s'.pend = s.pend.filter (fun e => e.1 ≠ tid))
      (hl : s'.log = .ret 18 c.frameLength :: s.log)
  /-- an RTS is answered. -/
  | rts (f : Frame) (hop : op = .recv f true) (hk : f.kind = .rts) (hd : f.dst = me) (hp : s'.pend = s.pend ++ [(s.nextTid, .dataTimeout f.seq)])
      (hl : s'.log = [.tx ⟨.cts, me, f.src, f.seq, ⟨0, 0⟩⟩, .book true (2 * f.size) c.frameLength,
        .book (c.energy.book s.energy 0 f.size).1 0 f.size] ++ s.log)
  /-- DATA comes. -/
  | data (f : Frame) (hop : op = .recv f true) (hk : f.kind = .data) (hd : f.dst = me)
      (hp : s'.pend = s.pend ∨ ∃ t ∈ s.dataTO, t.seq = f.seq ∧ s'.pend = s.pend.filter (fun e => e.1 ≠ t.tid))
      (hl : Adds (fun o => o ≠ .ret 18 c.frameLength ∧ ∀ f, o = .tx f → f.kind ≠ .cts) s s')

theorem acceptData_dat {c : Cfg} (me : Mac48) (f : Frame) (s : St) :
    ((acceptData me f s).pend = s.pend ∨ ∃ t ∈ s.dataTO, t.seq = f.seq ∧ (acceptData me f s).pend = s.pend.filter (fun e => e.1 ≠ t.tid)) ∧
    Adds (fun o => o ≠ .ret 18 c.frameLength ∧ ∀ f, o = .tx f → f.kind ≠ .cts) s (acceptData me f s) := by
  have hp : (acceptData me f s).pend = (clearData f.seq s).pend := by
    unfold acceptData filterUp
    dsimp only
    split_ifs <;> rfl
  constructor
  · rw [hp]
    unfold clearData
    split
    · rename_i t ht
      exact .inr ⟨t, List.mem_of_find?_eq_some ht, by simpa using List.find?_some ht, rfl⟩
    · exact .inl rfl
  · obtain ⟨ups, h1, h2⟩ := acceptData_adds me f s
    refine ⟨ups ++ [.tx ⟨.ack, me, f.src, f.seq, ⟨0, 0⟩⟩], by rw [h1, List.append_assoc]; rfl, ?_⟩
    rw [h2]
    split_ifs <;> simp

theorem dat_step (c : Cfg) (me : Mac48) {s : St} (hT : Tids s) (op : Op) : DatStep c me s op (step c me s op) := by
  cases op with
  | enqueue b d => exact .none (noDat_enqueue c me b d s)
  | harvest => exact .none (noDat_harvest c me s)
  | einit => exact .none ((noDat_harvest c me _).pre (.still rfl (Adds.of_eq rfl)))
  | fire tid =>
    show DatStep c me s _ (fire c me tid s)
    unfold fire
    split
    · rename_i e he
      have he1 : e.1 = tid := by simpa using List.find?_some he
      have he2 := List.mem_of_find?_eq_some he
      obtain ⟨tid', ev⟩ := e
      dsimp only at he1
      subst he1
      have hd : (∀ q, ev ≠ .dataTimeout q) → NoDat c s { s with pend := s.pend.filter (fun e => e.1 ≠ tid') } := by
        intro hne
        refine .drop (tid := tid') rfl ?_ rfl
        intro q hq
        exact hne q (hT.uniq _ _ _ he2 hq)
      unfold runEv
      cases ev with
      | ctsTimeout p => exact .none ((hd (by simp)).trans (noDat_ctsTimeout _ _))
      | ackTimeout q => exact .none ((hd (by simp)).trans (noDat_ackTimeout _ _))
      | checkResources p => exact .none ((hd (by simp)).trans (noDat_checkResources c me _ _))
      | dataTimeout q => exact .fired tid' q rfl he2 rfl rfl
    · exact .none .refl
  | recv f ok =>
    show DatStep c me s _ (receivePacketDone c me f ok s)
    unfold receivePacketDone
    split_ifs with hok
    · exact .none .refl
    have hok : ok = true := by simpa using hok
    subst hok
    split
    · rename_i hk
      unfold receiveRts
      dsimp only
      split_ifs with h1 h2
      · exact .none (noDat_book s _ _)
      · refine .rts f rfl hk (not_not.1 h1) rfl ?_
        show Obs.tx _ :: Obs.book (((s.book c 0 f.size).2.book c (2 * f.size) c.frameLength).1) _ _ :: _ = _
        rw [h2]
        rfl
      · exact .none ((noDat_book s _ _).trans (noDat_book _ _ _))
    · exact .none (noDat_receiveCts me f hT)
    · rename_i hk
      unfold receiveData
      dsimp only
      split_ifs with h1 h2 h3 h4
      · exact .none (noDat_filterUp _ _)
      · exact .none .refl
      · obtain ⟨g1, g2⟩ := acceptData_dat (c := c) me f (s.book c 18 f.body.size).2
        exact .data f rfl hk (not_not.1 h2) g1 ((noDat_book (c := c) s 18 f.body.size).log.trans g2)
      · exact .none (noDat_book s _ _)
      · obtain ⟨g1, g2⟩ := acceptData_dat (c := c) me f s
        exact .data f rfl hk (not_not.1 h2) g1 g2
    · exact .none (noDat_receiveAck me f hT)
    · exact .none .refl

end Thz.Nano
