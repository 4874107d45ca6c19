import Verif.NanoInv

/-!
# The ordering invariant of the nano MAC (helper lemmas)

Under two assumptions: fewer than 65536 packets are accepted (sequence numbers do not wrap), and a CTS frame
for this node only arrives from a node to which this node sent an RTS with that sequence number.
-/

namespace Thz.Nano

/-! ## Sequence numbers that do not wrap -/

theorem seq_toNat {s : St} (h : Inv0 s) (hw : s.nextUid ≤ 65535) {p} (hp : p ∈ accs s.log) :
    p.seq.toNat = p.uid + 1 := by
  have h1 := h.mem_uid hp
  rw [h.seqs p hp]
  simp only [UInt16.toNat_ofNat']
  omega

theorem seq_lt_iff {s : St} (h : Inv0 s) (hw : s.nextUid ≤ 65535) {p q} (hp : p ∈ accs s.log)
    (hq : q ∈ accs s.log) : p.seq < q.seq ↔ p.uid < q.uid := by
  rw [UInt16.lt_iff_toNat_lt, seq_toNat h hw hp, seq_toNat h hw hq]
  omega

theorem seq_inj {s : St} (h : Inv0 s) (hw : s.nextUid ≤ 65535) {p q} (hp : p ∈ accs s.log)
    (hq : q ∈ accs s.log) (e : p.seq = q.seq) : p = q := by
  apply h.uid_inj hp hq
  have h1 := seq_toNat h hw hp
  have h2 := seq_toNat h hw hq
  rw [e] at h1
  omega

/-! ## Licence to be on the air -/

/-- `p` is accepted and every earlier packet for the same destination has its outcome; if `p` is a broadcast,
every earlier packet has its outcome. -/
structure Lic (s : St) (p : Pkt) : Prop where
  acc : p ∈ accs s.log
  first : ∀ t ∈ s.queue, t.dst = p.dst → p.uid ≤ t.uid
  firstB : p.dst = bcast → ∀ t ∈ s.queue, p.uid ≤ t.uid

theorem Quiet.accs {s s' : St} (q : Quiet s s') : accs s'.log = accs s.log := by
  obtain ⟨new, e, hn⟩ := q.adds
  rw [e, accs_append, accs_quiet hn]; rfl

theorem Lic.quiet {s s' : St} {p} (h : Lic s p) (q : Quiet s s') : Lic s' p :=
  ⟨q.accs ▸ h.acc, q.queue ▸ h.first, q.queue ▸ h.firstB⟩

theorem Lic.sendDataDone {s : St} {p} (h : Lic s p) (h0 : Inv0 s) (ok : Bool) (r : Pkt) :
    Lic (sendDataDone ok r s) p := by
  have hq := h0.sendDataDone_queue' ok r
  refine ⟨?_, ?_, ?_⟩
  · rw [sendDataDone_log, accs_append]; exact List.mem_append.mpr (Or.inr h.acc)
  · rw [hq]; intro t ht; exact h.first t (List.mem_of_mem_filter ht)
  · rw [hq]; intro hb t ht; exact h.firstB hb t (List.mem_of_mem_filter ht)

theorem Lic.accept {s : St} {p} (h : Lic s p) (h0 : Inv0 s) (b : Body) (d : Mac48) :
    Lic (accept s b d) p := by
  have hu : p.uid ≤ (newPkt s b d).uid := le_of_lt (h0.mem_uid h.acc)
  refine ⟨List.mem_cons_of_mem _ h.acc, ?_, ?_⟩
  · intro t ht e
    rcases List.mem_append.mp (show t ∈ s.queue ++ [newPkt s b d] from ht) with h1 | h1
    · exact h.first t h1 e
    · rw [List.mem_singleton.mp h1]; exact hu
  · intro hb t ht
    rcases List.mem_append.mp (show t ∈ s.queue ++ [newPkt s b d] from ht) with h1 | h1
    · exact h.firstB hb t h1
    · rw [List.mem_singleton.mp h1]; exact hu

/-- The front of the queue may be sent. -/
theorem Lic.front {s : St} (h : Inv0 s) {p ps} (e : s.queue = p :: ps) : Lic s p := by
  have hs := h.qsort
  rw [e] at hs
  have hmin : ∀ t ∈ s.queue, p.uid ≤ t.uid := by
    intro t ht
    rw [e] at ht
    rcases List.mem_cons.mp ht with rfl | h1
    · exact le_refl _
    · exact le_of_lt ((List.pairwise_cons.mp hs).1 t h1)
  exact ⟨h.queue_acc (by rw [e]; exact List.mem_cons_self), fun t ht _ => hmin t ht, fun _ => hmin⟩

/-- The first later packet in a list sorted by uid. -/
theorem find_first_le {l : List PktTx} (hs : l.Pairwise (fun a b => a.pkt.uid < b.pkt.uid))
    {P : PktTx → Bool} {t u} (ht : l.find? P = some t) (hu : u ∈ l) (hP : P u = true) :
    t.pkt.uid ≤ u.pkt.uid := by
  induction l with
  | nil => simp at ht
  | cons a l ih =>
    rw [List.find?_cons] at ht
    split at ht
    · obtain rfl := Option.some.inj ht
      rcases List.mem_cons.mp hu with rfl | h
      · exact le_refl _
      · exact le_of_lt ((List.pairwise_cons.mp hs).1 u h)
    · rename_i hPa
      rcases List.mem_cons.mp hu with rfl | h
      · simp [hPa] at hP
      · exact ih (List.pairwise_cons.mp hs).2 ht h

/-- The successor that `SendDataDone` starts may be sent once the completed packet is off the queue. -/
theorem Lic.next {s : St} (h : Inv0 s) (hw : s.nextUid ≤ 65535) {p} (hp : Lic s p) (hb : p.dst ≠ bcast) {t}
    (ht : s.pktTx.find? (fun t => t.pkt.seq > p.seq ∧ t.pkt.dst = p.dst) = some t) (ok : Bool) :
    Lic (Nano.sendDataDone ok p s) t.pkt ∧ t.pkt.dst ≠ bcast := by
  have h1 := List.mem_of_find?_eq_some ht
  have h2 := List.find?_some ht
  simp only [decide_eq_true_eq] at h2
  have hacc : t.pkt ∈ accs s.log := h.queue_acc (h.mem_pktTx h1)
  refine ⟨⟨?_, ?_, ?_⟩, h2.2 ▸ hb⟩
  · rw [sendDataDone_log, accs_append]; exact List.mem_append.mpr (Or.inr hacc)
  · rw [h.sendDataDone_queue']
    intro u hu e
    obtain ⟨hu1, hu2⟩ := List.mem_filter.mp hu
    have hu2 : u.seq ≠ p.seq := by simpa using hu2
    have hle := hp.first u hu1 (e.trans h2.2)
    have hne : p.uid ≠ u.uid := by
      intro e2
      exact hu2 (congrArg Pkt.seq (h.uid_inj hp.acc (h.queue_acc hu1) e2)).symm
    have hlt : p.seq < u.seq :=
      (seq_lt_iff h hw hp.acc (h.queue_acc hu1)).mpr (lt_of_le_of_ne hle hne)
    obtain ⟨u', hu', rfl⟩ := h.pktTx_of_queue hu1
    exact find_first_le h.pktTx_sort ht hu' (by simpa using ⟨hlt, e.trans h2.2⟩)
  · intro e; exact absurd (h2.2 ▸ e) hb

/-! ## What the invariant needs to know about licences -/

/-- A notion of licence that is kept by every step. -/
structure LicOK (L : St → Pkt → Prop) : Prop where
  acc : ∀ {s p}, L s p → p ∈ accs s.log
  same : ∀ {s s' : St} {p}, L s p → accs s'.log = accs s.log → s'.queue = s.queue → L s' p
  sendDataDone : ∀ {s p}, L s p → Inv0 s → ∀ ok r, L (Nano.sendDataDone ok r s) p
  accept : ∀ {s p}, L s p → Inv0 s → ∀ b d, L (Nano.accept s b d) p
  front : ∀ {s}, Inv0 s → ∀ {p ps}, s.queue = p :: ps → L s p
  next : ∀ {s}, Inv0 s → s.nextUid ≤ 65535 → ∀ {p}, L s p → p.dst ≠ bcast → ∀ {t},
    s.pktTx.find? (fun t => t.pkt.seq > p.seq ∧ t.pkt.dst = p.dst) = some t → ∀ ok,
    L (Nano.sendDataDone ok p s) t.pkt ∧ t.pkt.dst ≠ bcast

theorem LicOK.quiet {L} (hok : LicOK L) {s s' : St} {p} (h : L s p) (q : Quiet s s') : L s' p :=
  hok.same h q.accs q.queue

theorem Lic.ok : LicOK Lic where
  acc h := h.acc
  same h e1 e2 := ⟨e1 ▸ h.acc, e2 ▸ h.first, e2 ▸ h.firstB⟩
  sendDataDone h h0 ok r := h.sendDataDone h0 ok r
  accept h h0 b d := h.accept h0 b d
  front h _ _ e := Lic.front h e
  next h hw _ hp hb _ ht ok := Lic.next h hw hp hb ht ok

/-- The weakest licence: the packet was accepted. -/
def Acc (s : St) (p : Pkt) : Prop := p ∈ accs s.log

theorem Acc.ok : LicOK Acc where
  acc h := h
  same h e1 _ := by unfold Acc; rw [e1]; exact h
  sendDataDone h _ ok r := by
    unfold Acc; rw [sendDataDone_log, accs_append]; exact List.mem_append.mpr (Or.inr h)
  accept h _ b d := List.mem_cons_of_mem _ h
  front h p _ e := h.queue_acc (by rw [e]; exact List.mem_cons_self)
  next h _ p _ hb t ht ok := by
    have h2 := List.find?_some ht
    simp only [decide_eq_true_eq] at h2
    refine ⟨?_, h2.2 ▸ hb⟩
    unfold Acc; rw [sendDataDone_log, accs_append]
    exact List.mem_append.mpr (Or.inr (h.queue_acc (h.mem_pktTx (List.mem_of_find?_eq_some ht))))

variable {L : St → Pkt → Prop}

/-! ## The invariant -/

/-- Everything on the air or scheduled is licensed. -/
structure Inv1 (L : St → Pkt → Prop) (me : Mac48) (s : St) : Prop where
  rts : ∀ f, .tx f ∈ s.log → f.kind = .rts → ∃ p, L s p ∧ p.dst ≠ bcast ∧ f = rtsFrame me p
  data : ∀ f, .tx f ∈ s.log → f.kind = .data → ∃ p, L s p ∧ f = dataFrame me p
  cts : ∀ i p, (i, Ev.ctsTimeout p) ∈ s.pend → L s p ∧ p.dst ≠ bcast
  chk : ∀ i p, (i, Ev.checkResources p) ∈ s.pend → L s p ∧ p.dst ≠ bcast
  ackE : ∀ i q, (i, Ev.ackTimeout q) ∈ s.pend →
    ∃ p, L s p ∧ p.dst ≠ bcast ∧ p.seq = q ∧ .tx (dataFrame me p) ∈ s.log
  ackT : ∀ a ∈ s.ackTO,
    L s a.pkt ∧ a.pkt.dst ≠ bcast ∧ a.seq = a.pkt.seq ∧ .tx (dataFrame me a.pkt) ∈ s.log

/-- A step that keeps licences, sends no RTS or DATA and schedules nothing but DATA timeouts. -/
theorem Inv1.mono {me : Mac48} {s s' : St} (h : Inv1 L me s) (hL : ∀ p, L s p → L s' p)
    (hlog : Adds (fun o => ∀ f, o = .tx f → f.kind ≠ .rts ∧ f.kind ≠ .data) s s')
    (hpend : ∀ e ∈ s'.pend, e ∈ s.pend ∨ ∃ q, e.2 = .dataTimeout q)
    (hack : ∀ a ∈ s'.ackTO, a ∈ s.ackTO) : Inv1 L me s' := by
  constructor
  · intro f hf hk
    rcases hlog.mem hf with h1 | h1
    · exact absurd hk (h1 f rfl).1
    · obtain ⟨p, h2, h3⟩ := h.rts f h1 hk
      exact ⟨p, hL p h2, h3⟩
  · intro f hf hk
    rcases hlog.mem hf with h1 | h1
    · exact absurd hk (h1 f rfl).2
    · obtain ⟨p, h2, h3⟩ := h.data f h1 hk
      exact ⟨p, hL p h2, h3⟩
  · intro i p hi
    rcases hpend _ hi with h1 | ⟨q, h1⟩
    · exact ⟨hL p (h.cts i p h1).1, (h.cts i p h1).2⟩
    · simp at h1
  · intro i p hi
    rcases hpend _ hi with h1 | ⟨q, h1⟩
    · exact ⟨hL p (h.chk i p h1).1, (h.chk i p h1).2⟩
    · simp at h1
  · intro i q hi
    rcases hpend _ hi with h1 | ⟨q, h1⟩
    · obtain ⟨p, h2, h3, h4, h5⟩ := h.ackE i q h1
      exact ⟨p, hL p h2, h3, h4, hlog.sub h5⟩
    · simp at h1
  · intro a ha
    obtain ⟨h2, h3, h4, h5⟩ := h.ackT a (hack a ha)
    exact ⟨hL _ h2, h3, h4, hlog.sub h5⟩

theorem Inv1.sendRts (hok : LicOK L) {me : Mac48} {s : St} (h : Inv1 L me s) {p} (hp : L s p) (hb : p.dst ≠ bcast) :
    Inv1 L me (sendRts me p s) := by
  have hL : ∀ q, L s q → L (Nano.sendRts me p s) q := fun q hq => hok.quiet hq (sendRts_quiet me p s)
  have hlog : (Nano.sendRts me p s).log = .tx (rtsFrame me p) :: s.log := rfl
  have hpend : (Nano.sendRts me p s).pend = s.pend ++ [(s.nextTid, .ctsTimeout p)] := rfl
  constructor
  · intro f hf hk
    rw [hlog] at hf
    rcases List.mem_cons.mp hf with h1 | h1
    · exact ⟨p, hL p hp, hb, by simpa using h1⟩
    · obtain ⟨r, h2, h3⟩ := h.rts f h1 hk
      exact ⟨r, hL r h2, h3⟩
  · intro f hf hk
    rw [hlog] at hf
    rcases List.mem_cons.mp hf with h1 | h1
    · obtain rfl : f = rtsFrame me p := by simpa using h1
      simp [rtsFrame] at hk
    · obtain ⟨r, h2, h3⟩ := h.data f h1 hk
      exact ⟨r, hL r h2, h3⟩
  · intro i r hi
    rw [hpend] at hi
    rcases List.mem_append.mp hi with h1 | h1
    · exact ⟨hL r (h.cts i r h1).1, (h.cts i r h1).2⟩
    · simp only [List.mem_singleton, Prod.mk.injEq, Ev.ctsTimeout.injEq] at h1
      rw [h1.2]; exact ⟨hL p hp, hb⟩
  · intro i r hi
    rw [hpend] at hi
    rcases List.mem_append.mp hi with h1 | h1
    · exact ⟨hL r (h.chk i r h1).1, (h.chk i r h1).2⟩
    · simp at h1
  · intro i q hi
    rw [hpend] at hi
    rcases List.mem_append.mp hi with h1 | h1
    · obtain ⟨r, h2, h3, h4, h5⟩ := h.ackE i q h1
      exact ⟨r, hL r h2, h3, h4, List.mem_cons_of_mem _ h5⟩
    · simp at h1
  · intro a ha
    obtain ⟨h2, h3, h4, h5⟩ := h.ackT a ha
    exact ⟨hL _ h2, h3, h4, List.mem_cons_of_mem _ h5⟩

theorem Inv1.sendData (hok : LicOK L) {me : Mac48} {s : St} (h : Inv1 L me s) {p} (hp : L s p) :
    Inv1 L me (sendData me p s) := by
  have hL : ∀ q, L s q → L (Nano.sendData me p s) q := fun q hq => hok.quiet hq (sendData_quiet me p s)
  have hlog : (Nano.sendData me p s).log = .tx (dataFrame me p) :: s.log := by
    unfold Nano.sendData
    split_ifs <;> rfl
  have hpend : ∀ e ∈ (Nano.sendData me p s).pend,
      e ∈ s.pend ∨ (e.2 = .ackTimeout p.seq ∧ p.dst ≠ bcast) := by
    unfold Nano.sendData
    split_ifs with hb
    · intro e he; exact Or.inl he
    · intro e he
      rcases List.mem_append.mp (show e ∈ s.pend ++ [(s.nextTid, Ev.ackTimeout p.seq)] from he) with h1 | h1
      · exact Or.inl h1
      · exact Or.inr ⟨by rw [List.mem_singleton.mp h1], hb⟩
  have hack : ∀ a ∈ (Nano.sendData me p s).ackTO,
      a ∈ s.ackTO ∨ (a.pkt = p ∧ a.seq = p.seq ∧ p.dst ≠ bcast) := by
    unfold Nano.sendData
    split_ifs with hb
    · intro e he; exact Or.inl he
    · intro e he
      rcases List.mem_append.mp (show e ∈ s.ackTO ++ [⟨p.seq, s.nextTid, p⟩] from he) with h1 | h1
      · exact Or.inl h1
      · rw [List.mem_singleton.mp h1]; exact Or.inr ⟨rfl, rfl, hb⟩
  constructor
  · intro f hf hk
    rw [hlog] at hf
    rcases List.mem_cons.mp hf with h1 | h1
    · obtain rfl : f = dataFrame me p := by simpa using h1
      simp [dataFrame] at hk
    · obtain ⟨r, h2, h3⟩ := h.rts f h1 hk
      exact ⟨r, hL r h2, h3⟩
  · intro f hf hk
    rw [hlog] at hf
    rcases List.mem_cons.mp hf with h1 | h1
    · exact ⟨p, hL p hp, by simpa using h1⟩
    · obtain ⟨r, h2, h3⟩ := h.data f h1 hk
      exact ⟨r, hL r h2, h3⟩
  · intro i r hi
    rcases hpend _ hi with h1 | h1
    · exact ⟨hL r (h.cts i r h1).1, (h.cts i r h1).2⟩
    · simp at h1
  · intro i r hi
    rcases hpend _ hi with h1 | h1
    · exact ⟨hL r (h.chk i r h1).1, (h.chk i r h1).2⟩
    · simp at h1
  · intro i q hi
    rw [hlog]
    rcases hpend _ hi with h1 | ⟨h1, hb⟩
    · obtain ⟨r, h2, h3, h4, h5⟩ := h.ackE i q h1
      exact ⟨r, hL r h2, h3, h4, List.mem_cons_of_mem _ h5⟩
    · simp only [Ev.ackTimeout.injEq] at h1
      exact ⟨p, hL p hp, hb, h1.symm, List.mem_cons_self⟩
  · intro a ha
    rw [hlog]
    rcases hack a ha with h1 | ⟨h1, h2, h3⟩
    · obtain ⟨h2, h3, h4, h5⟩ := h.ackT a h1
      exact ⟨hL _ h2, h3, h4, List.mem_cons_of_mem _ h5⟩
    · rw [h1]; exact ⟨hL p hp, h3, h2, List.mem_cons_self⟩

theorem Inv1.schedChk (hok : LicOK L) {me : Mac48} {s : St} (h : Inv1 L me s) {p} (hp : L s p) (hb : p.dst ≠ bcast) :
    Inv1 L me (s.schedule (.checkResources p)) := by
  have hL : ∀ q, L s q → L (s.schedule (.checkResources p)) q := fun q hq => hok.quiet hq (schedule_quiet s _)
  have hpend : (s.schedule (.checkResources p)).pend = s.pend ++ [(s.nextTid, .checkResources p)] := rfl
  constructor
  · intro f hf hk
    obtain ⟨r, h2, h3⟩ := h.rts f hf hk
    exact ⟨r, hL r h2, h3⟩
  · intro f hf hk
    obtain ⟨r, h2, h3⟩ := h.data f hf hk
    exact ⟨r, hL r h2, h3⟩
  · intro i r hi
    rw [hpend] at hi
    rcases List.mem_append.mp hi with h1 | h1
    · exact ⟨hL r (h.cts i r h1).1, (h.cts i r h1).2⟩
    · simp at h1
  · intro i r hi
    rw [hpend] at hi
    rcases List.mem_append.mp hi with h1 | h1
    · exact ⟨hL r (h.chk i r h1).1, (h.chk i r h1).2⟩
    · simp only [List.mem_singleton, Prod.mk.injEq, Ev.checkResources.injEq] at h1
      rw [h1.2]; exact ⟨hL p hp, hb⟩
  · intro i q hi
    rw [hpend] at hi
    rcases List.mem_append.mp hi with h1 | h1
    · obtain ⟨r, h2, h3, h4, h5⟩ := h.ackE i q h1
      exact ⟨r, hL r h2, h3, h4, h5⟩
    · simp at h1
  · intro a ha
    obtain ⟨h2, h3, h4, h5⟩ := h.ackT a ha
    exact ⟨hL _ h2, h3, h4, h5⟩

/-- Quiet steps that send no RTS or DATA. -/
theorem Inv1.silent (hok : LicOK L) {me : Mac48} {s s' : St} (h : Inv1 L me s) (hq : Quiet s s')
    (hlog : Adds (fun o => ∀ f, o = .tx f → f.kind ≠ .rts ∧ f.kind ≠ .data) s s')
    (hpend : ∀ e ∈ s'.pend, e ∈ s.pend ∨ ∃ q, e.2 = .dataTimeout q)
    (hack : ∀ a ∈ s'.ackTO, a ∈ s.ackTO) : Inv1 L me s' :=
  h.mono (fun _ hp => hok.quiet hp hq) hlog hpend hack

theorem Inv1.book (hok : LicOK L) {me : Mac48} {s : St} (h : Inv1 L me s) (c : Cfg) (tx rx : Nat) :
    Inv1 L me (s.book c tx rx).2 :=
  h.silent hok (book_quiet c s tx rx) ((book_adds c s tx rx).mono (by rintro o rfl f h; simp at h))
    (fun e he => Or.inl he) (fun a ha => ha)

theorem Inv1.ret (hok : LicOK L) {me : Mac48} {s : St} (h : Inv1 L me s) (c : Cfg) (tx rx : Nat) :
    Inv1 L me (s.ret c tx rx) :=
  h.silent hok (ret_quiet c s tx rx) ((ret_adds c s tx rx).mono (by rintro o rfl f h; simp at h))
    (fun e he => Or.inl he) (fun a ha => ha)

theorem Inv1.emit (hok : LicOK L) {me : Mac48} {s : St} (h : Inv1 L me s) {o : Obs} (ho : o.quiet)
    (hf : ∀ f, o = .tx f → f.kind ≠ .rts ∧ f.kind ≠ .data) : Inv1 L me (s.emit o) :=
  h.silent hok (emit_quiet s ho) (Adds.one rfl hf) (fun _ he => Or.inl he) (fun _ ha => ha)

theorem Inv1.checkResources (hok : LicOK L) {me : Mac48} {s : St} (h : Inv1 L me s) (c : Cfg) {p} (hp : L s p) :
    Inv1 L me (checkResources c me p s) := by
  unfold Nano.checkResources
  dsimp only
  split_ifs with h1
  · exact (h.book hok c _ _).sendRts hok (hok.quiet hp (book_quiet c s _ _)) h1.1
  · exact (h.book hok c _ _).emit hok trivial (by rintro f ⟨⟩)
  · exact (h.book hok c _ _).sendData hok (hok.quiet hp (book_quiet c s _ _))
  · exact (h.book hok c _ _).emit hok trivial (by rintro f ⟨⟩)

theorem Inv1.txFirstPacket (hok : LicOK L) {me : Mac48} {s : St} (h : Inv1 L me s) (h0 : Inv0 s) (c : Cfg) :
    Inv1 L me (txFirstPacket c me s) := by
  unfold Nano.txFirstPacket
  split
  · exact h
  · rename_i p ps e
    exact h.checkResources hok c (hok.front h0 e)

theorem Inv1.accept (hok : LicOK L) {me : Mac48} {s : St} (h : Inv1 L me s) (h0 : Inv0 s) (b : Body) (d : Mac48) :
    Inv1 L me (accept s b d) :=
  h.mono (fun _ hp => hok.accept hp h0 b d) (Adds.one rfl (by rintro f ⟨⟩)) (fun _ he => Or.inl he) (fun _ ha => ha)

theorem Inv1.sendDataDone (hok : LicOK L) {me : Mac48} {s : St} (h : Inv1 L me s) (h0 : Inv0 s) (hw : s.nextUid ≤ 65535)
    (ok : Bool) {p} (hp : L s p) (hb : p.dst ≠ bcast) : Inv1 L me (sendDataDone ok p s) := by
  obtain ⟨e1, e2, -⟩ := sendDataDone_rest ok p s
  -- first remove the completed packets, then schedule the successor
  have hL : ∀ q, L s q → L (Nano.sendDataDone ok p s) q := fun q hq => hok.sendDataDone hq h0 ok p
  have hlog : Adds (fun o => ∀ f, o = .tx f → f.kind ≠ .rts ∧ f.kind ≠ .data) s (Nano.sendDataDone ok p s) :=
    (sendDataDone_adds ok p s).mono (by rintro o ⟨t, -, -, rfl⟩ f h; simp at h)
  cases hf : s.pktTx.find? (fun t => t.pkt.seq > p.seq ∧ t.pkt.dst = p.dst) with
  | none =>
    have e3 : (startNext p s).pend = s.pend := by unfold startNext; rw [hf]
    exact h.mono hL hlog (by rw [e1, e3]; exact fun e he => Or.inl he) (by rw [e2]; exact fun a ha => ha)
  | some t =>
    obtain ⟨hlic, hnb⟩ := hok.next h0 hw hp hb hf ok
    have e3 : (startNext p s).pend = s.pend ++ [(s.nextTid, .checkResources t.pkt)] := by
      unfold startNext; rw [hf]; rfl
    have hm : Inv1 L me { Nano.sendDataDone ok p s with pend := s.pend } :=
      h.mono (fun q hq => hok.same (hL q hq) rfl rfl)
        hlog (fun e he => Or.inl he)
        (fun a ha => by rw [← e2]; exact ha)
    constructor
    · exact fun f hf hk => by
        obtain ⟨r, h2, h3⟩ := hm.rts f hf hk
        exact ⟨r, hok.same h2 rfl rfl, h3⟩
    · exact fun f hf hk => by
        obtain ⟨r, h2, h3⟩ := hm.data f hf hk
        exact ⟨r, hok.same h2 rfl rfl, h3⟩
    · intro i r hi
      rw [e1, e3] at hi
      rcases List.mem_append.mp hi with h1 | h1
      · exact ⟨hL r (h.cts i r h1).1, (h.cts i r h1).2⟩
      · simp at h1
    · intro i r hi
      rw [e1, e3] at hi
      rcases List.mem_append.mp hi with h1 | h1
      · exact ⟨hL r (h.chk i r h1).1, (h.chk i r h1).2⟩
      · simp only [List.mem_singleton, Prod.mk.injEq, Ev.checkResources.injEq] at h1
        rw [h1.2]; exact ⟨hlic, hnb⟩
    · intro i q hi
      rw [e1, e3] at hi
      rcases List.mem_append.mp hi with h1 | h1
      · obtain ⟨r, h2, h3, h4, h5⟩ := h.ackE i q h1
        exact ⟨r, hL r h2, h3, h4, hlog.sub h5⟩
      · simp at h1
    · intro a ha
      obtain ⟨h2, h3, h4, h5⟩ := hm.ackT a ha
      exact ⟨hok.same h2 rfl rfl, h3, h4, h5⟩

theorem Inv1.retryOrDiscard (hok : LicOK L) {me : Mac48} {s : St} (h : Inv1 L me s) (h0 : Inv0 s) (hw : s.nextUid ≤ 65535)
    (c : Cfg) {p} (hp : L s p) (hb : p.dst ≠ bcast) (g : Pkt → Pkt) (hg : ∀ q, q = p → g q = p) :
    Inv1 L me (retryOrDiscard c p.seq g s) := by
  unfold Nano.retryOrDiscard
  split
  · exact h
  · rename_i t ht
    have h1 := List.mem_of_find?_eq_some ht
    have h2 : t.pkt.seq = p.seq := by simpa using List.find?_some ht
    have e : t.pkt = p := seq_inj h0 hw (h0.queue_acc (h0.mem_pktTx h1)) (hok.acc hp) h2
    have hm : Inv1 L me { s with pktTx := bumpRetry p.seq s.pktTx } :=
      h.mono (fun _ hq => hok.same hq rfl rfl) (Adds.of_eq rfl) (fun e he => Or.inl he) (fun a ha => ha)
    dsimp only
    split_ifs
    · rw [hg _ e]
      exact hm.sendDataDone hok (h0.bump p.seq) hw false (hok.same hp rfl rfl) hb
    · rw [e]
      unfold Nano.backoff
      have hm2 := hm.emit hok (o := .backoff p) trivial (by rintro f ⟨⟩)
      exact hm2.schedChk hok (hok.same hp rfl rfl) hb

/-- The state with the fired event taken off the list. -/
def drop (s : St) (tid : Nat) : St := { s with pend := s.pend.filter (fun e => e.1 ≠ tid) }

theorem Inv1.drop (hok : LicOK L) {me : Mac48} {s : St} (h : Inv1 L me s) (tid : Nat) : Inv1 L me (drop s tid) :=
  h.mono (fun _ hp => hok.same hp rfl rfl) (Adds.of_eq rfl)
    (fun _ he => Or.inl (List.mem_of_mem_filter he)) (fun _ ha => ha)

theorem Inv0.drop {s : St} (h : Inv0 s) (tid : Nat) : Inv0 (drop s tid) :=
  ⟨h.1, h.2, h.3, h.4, h.5, h.6, h.7, h.8⟩

theorem Inv1.timeout (hok : LicOK L) {me : Mac48} {s : St} (h : Inv1 L me s) (q : UInt16) : Inv1 L me (s.emit (.timeout q)) :=
  h.mono (fun _ hp => hok.same hp rfl rfl) (Adds.one rfl (by rintro f ⟨⟩)) (fun _ he => Or.inl he) (fun _ ha => ha)

/-- Assumption on the environment: a CTS for this node arrives only from a node to which this node sent an RTS with
that sequence number. -/
def CtsHonest (me : Mac48) (s : St) : Op → Prop
  | .recv f ok => ok = true → f.kind = .cts → f.dst = me → .tx ⟨.rts, me, f.src, f.seq, ⟨0, 0⟩⟩ ∈ s.log
  | _ => True

/-- A CTS only releases licensed packets. -/
def CtsLic (L : St → Pkt → Prop) (me : Mac48) (s : St) : Op → Prop
  | .recv f ok => ok = true → f.kind = .cts → f.dst = me →
      ∀ t ∈ s.pktTx, t.pkt.seq = f.seq → t.pkt.dst = f.src → L s t.pkt
  | _ => True

theorem CtsLic.acc {s : St} (h0 : Inv0 s) (me : Mac48) (op : Op) : CtsLic Acc me s op := by
  cases op <;> try trivial
  intro _ _ _ t ht _ _
  exact h0.queue_acc (h0.mem_pktTx ht)

theorem CtsLic.lic {me : Mac48} {s : St} (h : Inv1 Lic me s) (h0 : Inv0 s) (hw : s.nextUid ≤ 65535)
    {op : Op} (hop : CtsHonest me s op) : CtsLic Lic me s op := by
  cases op <;> try trivial
  rename_i f ok
  intro h1 h2 h3 t ht h4 h5
  obtain ⟨p, hp, -, hp3⟩ := h.rts _ (hop h1 h2 h3) rfl
  have hseq : t.pkt.seq = p.seq := by rw [h4]; exact congrArg Frame.seq hp3
  have e := seq_inj h0 hw (h0.queue_acc (h0.mem_pktTx ht)) hp.acc hseq
  rw [e]; exact hp

theorem Inv1.step (hok : LicOK L) {me : Mac48} {s : St} (h : Inv1 L me s) (h0 : Inv0 s) (hw : s.nextUid ≤ 65535)
    (c : Cfg) (op : Op) (hop : CtsLic L me s op) : Inv1 L me (step c me s op) := by
  cases op with
  | enqueue b d =>
    show Inv1 L me (enqueue c me b d s).2
    rcases enqueue_cases c me b d s with e | ⟨⟨e, -⟩, -⟩ | ⟨⟨e, -⟩, -⟩
    · rw [e]; exact h
    · rw [e]; exact h.accept hok h0 b d
    · rw [e]; exact (h.accept hok h0 b d).txFirstPacket hok (h0.accept b d) c
  | recv f ok =>
    show Inv1 L me (receivePacketDone c me f ok s)
    unfold receivePacketDone
    split_ifs with hokv
    · exact h
    · split
      · -- RTS
        have hd : ∀ (e : ℕ × Ev) (s : St), e ∈ s.pend ++ [(s.nextTid, Ev.dataTimeout f.seq)] →
            e ∈ s.pend ∨ ∃ q, e.2 = .dataTimeout q := by
          intro e s he
          rcases List.mem_append.mp he with h1 | h1
          · exact Or.inl h1
          · rw [List.mem_singleton.mp h1]; exact Or.inr ⟨_, rfl⟩
        refine h.silent hok (receiveRts_quiet c me f s) ((receiveRts_adds c me f s).mono ?_) ?_ ?_
        · rintro o (⟨g, tx, rx, rfl⟩ | ⟨-, rfl⟩) f' hf'
          · simp at hf'
          · simp only [Obs.tx.injEq] at hf'; subst hf'; simp
        · unfold receiveRts
          dsimp only
          split_ifs
          · exact fun e he => Or.inl he
          · exact fun e he => hd e _ he
          · exact fun e he => Or.inl he
        · unfold receiveRts
          dsimp only
          split_ifs <;> exact fun a ha => ha
      · -- CTS
        rename_i hk
        unfold receiveCts
        split_ifs with hd
        · exact h
        · have hlic := hop (by simpa using hokv) hk (not_not.mp hd)
          have hc : Inv1 L me (clearCts f.seq s) := by
            refine h.silent hok (clearCts_quiet f.seq s) (Adds.of_eq (clearCts_frame f.seq s).1) ?_ ?_
            · unfold clearCts
              split
              · exact fun e he => Or.inl (List.mem_of_mem_filter he)
              · exact fun e he => Or.inl he
            · unfold clearCts
              split <;> exact fun a ha => ha
          unfold answerCts
          split
          · rename_i t ht
            apply hc.sendData hok
            have h1 := List.mem_of_find?_eq_some ht
            rw [(clearCts_frame f.seq s).2.1] at h1
            have h2 := List.find?_some ht
            simp only [decide_eq_true_eq] at h2
            exact hok.quiet (hlic t h1 h2.1 h2.2) (clearCts_quiet f.seq s)
          · exact hc
      · -- DATA
        refine h.silent hok (receiveData_quiet c me f s) ((receiveData_adds c me f s).mono ?_) ?_ ?_
        · rintro o (⟨g, tx, rx, rfl⟩ | ⟨-, rfl⟩ | ⟨-, -, rfl⟩) f' hf'
          · simp at hf'
          · simp at hf'
          · simp only [Obs.tx.injEq] at hf'; subst hf'; simp
        all_goals
          have hcp : ∀ q (s : St), ∀ e ∈ (clearData q s).pend, e ∈ s.pend := by
            intro q s e
            unfold clearData
            split
            · exact fun he => List.mem_of_mem_filter he
            · exact fun he => he
          have hca : ∀ q (s : St), (clearData q s).ackTO = s.ackTO := by
            intro q s
            unfold clearData
            split <;> rfl
          have hfp : ∀ (s : St), (filterUp f s).pend = s.pend ∧ (filterUp f s).ackTO = s.ackTO := by
            intro s
            unfold filterUp
            dsimp only
            split_ifs <;> exact ⟨rfl, rfl⟩
          have hap : ∀ (s : St), ∀ e ∈ (acceptData me f s).pend, e ∈ s.pend := by
            intro s e he
            unfold acceptData at he
            rw [(hfp _).1] at he
            exact hcp f.seq s e he
          have haa : ∀ (s : St), (acceptData me f s).ackTO = s.ackTO := by
            intro s
            unfold acceptData
            rw [(hfp _).2]
            exact hca f.seq s
        · unfold receiveData
          dsimp only
          split_ifs
          · rw [(hfp s).1]; exact fun e he => Or.inl he
          · exact fun e he => Or.inl he
          · exact fun e he => Or.inl (hap (St.book c s 18 f.body.size).2 e he)
          · exact fun e he => Or.inl he
          · exact fun e he => Or.inl (hap s e he)
        · unfold receiveData
          dsimp only
          split_ifs
          · rw [(hfp s).2]; exact fun e he => he
          · exact fun e he => he
          · rw [haa]; exact fun e he => he
          · exact fun e he => he
          · rw [haa]; exact fun e he => he
      · -- ACK
        unfold receiveAck
        split_ifs
        · split
          · rename_i a ha
            have ham := List.mem_of_find?_eq_some ha
            obtain ⟨h1, h2, -, -⟩ := h.ackT a ham
            have hm : Inv1 L me (s.cancel a.tid) := h.drop hok a.tid
            have hm0 : Inv0 (s.cancel a.tid) := h0.drop a.tid
            have h3 := hm.sendDataDone hok hm0 hw true (hok.same h1 rfl rfl) h2
            exact h3.mono (fun _ hp => hok.same hp rfl rfl) (Adds.of_eq rfl) (fun _ he => Or.inl he)
              (fun a ha => List.mem_of_mem_eraseP ha)
          · exact h
        · exact h
      · exact h
  | fire tid =>
    show Inv1 L me (fire c me tid s)
    unfold fire
    split
    · rename_i e he
      obtain ⟨i, ev⟩ := e
      have hm := List.mem_of_find?_eq_some he
      have h1 : Inv1 L me (Nano.drop s tid) := h.drop hok tid
      have h10 : Inv0 (Nano.drop s tid) := h0.drop tid
      show Inv1 L me (runEv c me ev (Nano.drop s tid))
      unfold runEv
      cases ev with
      | ctsTimeout p =>
        obtain ⟨hp, hb⟩ := h.cts i p hm
        have hg : L (ctsPre c p (Nano.drop s tid)) p := hok.same hp rfl rfl
        have h2 : Inv1 L me (ctsPre c p (Nano.drop s tid)) :=
          h1.mono (fun _ hp => hok.same hp rfl rfl) ((ctsPre_adds c p _).mono (by
            rintro o (rfl | ⟨tx, rx, rfl⟩) f h <;> simp at h)) (fun _ he => Or.inl he) (fun _ ha => ha)
        show Inv1 L me (ctsTimeout c p (Nano.drop s tid))
        rw [ctsTimeout_eq]
        exact h2.retryOrDiscard hok (h10.ctsPre c p) hw c hg hb _ (fun _ _ => rfl)
      | ackTimeout q =>
        obtain ⟨p, hp, hb, rfl, -⟩ := h.ackE i q hm
        have hg : L (ackPre c p.seq (Nano.drop s tid)) p := hok.same hp rfl rfl
        have h2 : Inv1 L me (ackPre c p.seq (Nano.drop s tid)) :=
          h1.mono (fun _ hp => hok.same hp rfl rfl) ((ackPre_adds c p.seq _).mono (by
            rintro o (rfl | ⟨tx, rx, rfl⟩) f h <;> simp at h)) (fun _ he => Or.inl he)
            (fun _ ha => List.mem_of_mem_eraseP ha)
        show Inv1 L me (ackTimeout c p.seq (Nano.drop s tid))
        rw [ackTimeout_eq]
        exact h2.retryOrDiscard hok (h10.ackPre c p.seq) hw c hg hb _ (fun _ h => h)
      | dataTimeout q =>
        refine h1.silent hok (dataTimeout_quiet c q _) ((dataTimeout_adds c q _).mono ?_)
          (fun _ he => Or.inl he) (fun _ ha => ha)
        rintro o ⟨tx, rx, rfl⟩ f h; simp at h
      | checkResources p =>
        exact h1.checkResources hok c (hok.same (h.chk i p hm).1 rfl rfl)
    · exact h
  | harvest =>
    show Inv1 L me (harvest c me s)
    unfold harvest
    dsimp only
    have h1 : Inv1 L me { s with energy := (c.energy.harvestStep s.energy).2 } :=
      h.mono (fun _ hp => hok.same hp rfl rfl) (Adds.of_eq rfl) (fun _ he => Or.inl he) (fun _ ha => ha)
    have h10 : Inv0 { s with energy := (c.energy.harvestStep s.energy).2 } :=
      ⟨h0.1, h0.2, h0.3, h0.4, h0.5, h0.6, h0.7, h0.8⟩
    split_ifs
    · exact h1.txFirstPacket hok h10 c
    · exact h1
  | einit =>
    show Inv1 L me (energyInit c me s)
    unfold energyInit harvest
    dsimp only
    have h1 : Inv1 L me { s with energy := (c.energy.harvestStep c.energy.initial).2 } :=
      h.mono (fun _ hp => hok.same hp rfl rfl) (Adds.of_eq rfl) (fun _ he => Or.inl he) (fun _ ha => ha)
    have h10 : Inv0 { s with energy := (c.energy.harvestStep c.energy.initial).2 } :=
      ⟨h0.1, h0.2, h0.3, h0.4, h0.5, h0.6, h0.7, h0.8⟩
    split_ifs
    · exact h1.txFirstPacket hok h10 c
    · exact h1

theorem Inv1.init (me : Mac48) (e0 : ℚ) : Inv1 L me (St.init e0) := by
  constructor <;> simp [St.init]

/-- Uids are only handed out. -/
theorem step_nextUid (c : Cfg) (me : Mac48) (s : St) (op : Op) : s.nextUid ≤ (step c me s op).nextUid := by
  have hsd : ∀ ok p (s : St), (sendDataDone ok p s).nextUid = s.nextUid := fun ok p s =>
    (sendDataDone_frame ok p s).2
  have hr : ∀ q g (s : St), (retryOrDiscard c q g s).nextUid = s.nextUid := by
    intro q g s
    unfold retryOrDiscard
    split
    · rfl
    · dsimp only
      split_ifs
      · rw [hsd]
      · rfl
  cases op with
  | enqueue b d =>
    show _ ≤ (enqueue c me b d s).2.nextUid
    rcases enqueue_cases c me b d s with e | ⟨⟨e, -⟩, -⟩ | ⟨⟨e, -⟩, -⟩
    · rw [e]
    · rw [e]; exact Nat.le_succ _
    · rw [e, (txFirstPacket_quiet c me _).nextUid]; exact Nat.le_succ _
  | recv f ok =>
    show _ ≤ (receivePacketDone c me f ok s).nextUid
    unfold receivePacketDone
    split_ifs
    · exact le_refl _
    · split
      · rw [(receiveRts_quiet c me f s).nextUid]
      · rw [(receiveCts_quiet me f s).nextUid]
      · rw [(receiveData_quiet c me f s).nextUid]
      · unfold receiveAck
        split_ifs
        · split
          · dsimp only; rw [hsd]; exact le_refl _
          · exact le_refl _
        · exact le_refl _
      · exact le_refl _
  | fire tid =>
    show _ ≤ (fire c me tid s).nextUid
    unfold fire
    split
    · unfold runEv
      split
      · unfold ctsTimeout; dsimp only; rw [hr]; exact le_refl _
      · unfold ackTimeout; dsimp only; rw [hr]; exact le_refl _
      · exact le_refl _
      · rw [(checkResources_quiet c me _ _).nextUid]
    · exact le_refl _
  | harvest => show _ ≤ (harvest c me s).nextUid; rw [(harvest_quiet c me s).nextUid]
  | einit => show _ ≤ (energyInit c me s).nextUid; rw [(energyInit_quiet c me s).nextUid]

theorem run_nextUid (c : Cfg) (me : Mac48) (s : St) (ops : List Op) : s.nextUid ≤ (run c me s ops).nextUid := by
  induction ops generalizing s with
  | nil => exact le_refl _
  | cons o os ih => exact (step_nextUid c me s o).trans (ih _)

/-- Every operation of a run meets the assumption on CTS frames. -/
def RunHonest (c : Cfg) (me : Mac48) : St → List Op → Prop
  | _, [] => True
  | s, op :: ops => CtsHonest me s op ∧ RunHonest c me (step c me s op) ops

theorem Inv1.run {me : Mac48} {s : St} (h : Inv1 Lic me s) (h0 : Inv0 s) (c : Cfg) (ops : List Op)
    (hh : RunHonest c me s ops) (hw : (run c me s ops).nextUid ≤ 65535) : Inv1 Lic me (run c me s ops) := by
  induction ops generalizing s with
  | nil => exact h
  | cons o os ih =>
    have hw' : s.nextUid ≤ 65535 := (run_nextUid c me s (o :: os)).trans hw
    exact ih (h.step Lic.ok h0 hw' c o (CtsLic.lic h h0 hw' hh.1)) (h0.step c me o) hh.2 hw

/-- Without any assumption on the environment. -/
theorem Inv1.runAcc {me : Mac48} {s : St} (h : Inv1 Acc me s) (h0 : Inv0 s) (c : Cfg) (ops : List Op)
    (hw : (Nano.run c me s ops).nextUid ≤ 65535) : Inv1 Acc me (Nano.run c me s ops) := by
  induction ops generalizing s with
  | nil => exact h
  | cons o os ih =>
    have hw' : s.nextUid ≤ 65535 := (run_nextUid c me s (o :: os)).trans hw
    exact ih (h.step Acc.ok h0 hw' c o (CtsLic.acc h0 me o)) (h0.step c me o) hw

end Thz.Nano
