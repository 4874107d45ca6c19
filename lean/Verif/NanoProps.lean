import Verif.NanoRetry
import Verif.NanoLive
import Verif.NanoUp
import Verif.EnergyProps

/-!
# C11–C16, C18–C20: the nano MAC, one node

Specifications are written over the log of observations (newest first) that a history leaves:
`accepted p`, `tx f`, `up ..`, `done ok p`, `timeout q`, ...
-/

namespace Thz.Nano

/-! ## Specification vocabulary -/

/-- The state after a history, started with `e0` units of energy. -/
def after (c : Cfg) (me : Mac48) (e0 : ℚ) (ops : List Op) : St := run c me (St.init e0) ops

/-- Number of packets accepted in a log. -/
def numAccepted (log : List Obs) : Nat := log.countP (fun o => match o with | .accepted _ => true | _ => false)

/-- Number of packets reported with this result in a log. -/
def numDone (ok : Bool) (log : List Obs) : Nat :=
  log.countP (fun o => match o with | .done b _ => b = ok | _ => false)

/-- Accepted and without an outcome. -/
def Unresolved (log : List Obs) (p : Pkt) : Prop := .accepted p ∈ log ∧ ∀ ok, .done ok p ∉ log

/-- `p` was accepted before `q`. -/
def AcceptedBefore (log : List Obs) (p q : Pkt) : Prop :=
  ∃ l1 l2, log = l1 ++ .accepted q :: l2 ∧ .accepted p ∈ l2

/-! ## Bridges between the specification and the invariants -/

theorem numAccepted_eq (log : List Obs) : numAccepted log = (accs log).length := by
  unfold numAccepted accs
  induction log with
  | nil => rfl
  | cons o l ih =>
    rw [List.countP_cons, List.filterMap_cons, ih]
    cases o <;> simp

theorem numDone_eq (ok : Bool) (log : List Obs) : numDone ok log = (dones ok log).length := by
  unfold numDone dones
  induction log with
  | nil => rfl
  | cons o l ih =>
    rw [List.countP_cons, List.filterMap_cons, ih]
    cases o with
    | done b p => by_cases h : b = ok <;> simp [h]
    | _ => simp

theorem numAccepted_nextUid {s : St} (h : Inv0 s) : numAccepted s.log = s.nextUid := by
  rw [numAccepted_eq]
  have := congrArg List.length h.uids
  simpa using this

theorem unresolved_iff {s : St} (h : Inv0 s) (p : Pkt) : Unresolved s.log p ↔ p ∈ s.queue := by
  rw [h.mem_queue_iff, mem_accs]
  unfold Unresolved
  refine and_congr_right fun _ => ?_
  rw [mem_outcomes]
  simp

theorem acceptedBefore_uid {s : St} (h : Inv0 s) {p q} (hb : AcceptedBefore s.log p q) :
    p ∈ accs s.log ∧ q ∈ accs s.log ∧ p.uid < q.uid := by
  obtain ⟨l1, l2, e, hp⟩ := hb
  have hu := h.uids
  have hs : ((accs s.log).reverse.map (·.uid)).Pairwise (· < ·) := by rw [hu]; exact List.pairwise_lt_range
  refine ⟨mem_accs.mpr (by rw [e]; simp [hp]), mem_accs.mpr (by rw [e]; simp), ?_⟩
  have e2 : accs s.log = accs l1 ++ (q :: accs l2) := by rw [e, accs_append]; rfl
  rw [e2, List.pairwise_map, List.pairwise_reverse] at hs
  exact (List.pairwise_cons.mp (List.pairwise_append.mp hs).2.1).1 p (mem_accs.mpr hp)

theorem uid_acceptedBefore {s : St} (h : Inv0 s) {p q} (hp : p ∈ accs s.log) (hq : q ∈ accs s.log)
    (hlt : p.uid < q.uid) : AcceptedBefore s.log p q := by
  obtain ⟨l1, l2, e⟩ := List.append_of_mem (mem_accs.mp hq)
  refine ⟨l1, l2, e, ?_⟩
  by_contra hn
  have hu := h.uids
  have hs : ((accs s.log).reverse.map (·.uid)).Pairwise (· < ·) := by rw [hu]; exact List.pairwise_lt_range
  have e2 : accs s.log = accs l1 ++ (q :: accs l2) := by rw [e, accs_append]; rfl
  rw [e2, List.pairwise_map, List.pairwise_reverse] at hs
  rw [e2] at hp
  rcases List.mem_append.mp hp with h1 | h1
  · have := (List.pairwise_append.mp hs).2.2 p h1 q List.mem_cons_self
    omega
  · rcases List.mem_cons.mp h1 with rfl | h2
    · omega
    · exact hn (mem_accs.mp h2)

theorem after_inv0 (c : Cfg) (me : Mac48) (e0 : ℚ) (ops : List Op) : Inv0 (after c me e0 ops) :=
  (Inv0.init e0).run c me ops

theorem after_tids (c : Cfg) (me : Mac48) (e0 : ℚ) (ops : List Op) : Tids (after c me e0 ops) :=
  (Tids.init e0).run c me ops

theorem after_inv1 (c : Cfg) (me : Mac48) (e0 : ℚ) (ops : List Op)
    (hn : numAccepted (after c me e0 ops).log ≤ 65535) : Inv1 Acc me (after c me e0 ops) :=
  (Inv1.init me e0).runAcc (Inv0.init e0) c ops (by
    rw [numAccepted_nextUid (after_inv0 c me e0 ops)] at hn; exact hn)

theorem after_inv2 (c : Cfg) (me : Mac48) (e0 : ℚ) (ops : List Op)
    (hn : numAccepted (after c me e0 ops).log ≤ 65535) : Inv2 c (after c me e0 ops) :=
  (Inv2.init c e0).run (Inv1.init me e0) (Inv0.init e0) ops (by
    rw [numAccepted_nextUid (after_inv0 c me e0 ops)] at hn; exact hn)

/-- Addresses and parameters for the examples: RTS off, the default limits. -/
def exA : Mac48 := ⟨0, 0, 0, 0, 0, 1⟩
def exB : Mac48 := ⟨0, 0, 0, 0, 0, 2⟩
def exC : Mac48 := ⟨0, 0, 0, 0, 0, 3⟩
/-- The default attribute values (model/thz-mac-nano.cc:88-112, model/thz-energy-model.cc). -/
def exCfg : Cfg := ⟨false, 1000, 5, 5, EParams.default⟩
def exRts : Cfg := ⟨true, 1000, 5, 5, EParams.default⟩
def exBody : Body := ⟨7, 100⟩

/-! ## C11 -/

theorem queue_le_step {c : Cfg} {me : Mac48} {s : St} (op : Op)
    (h : s.queue.length ≤ c.queueLimit) : (step c me s op).queue.length ≤ c.queueLimit := by
  have hsd : ∀ (s : St) ok p, (sendDataDone ok p s).queue.length ≤ s.queue.length := by
    intro s ok p
    rw [sendDataDone_queue]; exact List.length_filter_le _ _
  have hrd : ∀ (s : St) q g, (retryOrDiscard c q g s).queue.length ≤ s.queue.length := by
    intro s q g
    unfold retryOrDiscard
    split
    · exact le_refl _
    · dsimp only
      split_ifs
      · exact hsd { s with pktTx := bumpRetry q s.pktTx } false _
      · exact le_refl _
  cases op with
  | enqueue b d =>
    show (enqueue c me b d s).2.queue.length ≤ _
    unfold enqueue
    dsimp only
    have hlen : (s.queue ++ [newPkt s b d]).length = s.queue.length + 1 := by simp
    split_ifs with h1 h2 h3
    · exact h
    · exact h
    · show (s.queue ++ [newPkt s b d]).length ≤ _
      omega
    · rw [(txFirstPacket_quiet c me _).queue]
      show (s.queue ++ [newPkt s b d]).length ≤ _
      omega
  | recv f ok =>
    show (receivePacketDone c me f ok s).queue.length ≤ _
    unfold receivePacketDone
    split_ifs
    · exact h
    · split
      · rw [(receiveRts_quiet c me f s).queue]; exact h
      · rw [(receiveCts_quiet me f s).queue]; exact h
      · rw [(receiveData_quiet c me f s).queue]; exact h
      · unfold receiveAck
        split_ifs
        · split
          · exact (hsd (s.cancel _) _ _).trans h
          · exact h
        · exact h
      · exact h
  | fire tid =>
    show (fire c me tid s).queue.length ≤ _
    unfold fire
    split
    · rename_i e he
      obtain ⟨i, ev⟩ := e
      cases ev with
      | ctsTimeout p =>
        show (ctsTimeout c p _).queue.length ≤ _
        rw [ctsTimeout_eq]; exact (hrd _ _ _).trans h
      | ackTimeout q =>
        show (ackTimeout c q _).queue.length ≤ _
        rw [ackTimeout_eq]; exact (hrd _ _ _).trans h
      | dataTimeout q => exact h
      | checkResources p =>
        show (checkResources c me p _).queue.length ≤ _
        rw [(checkResources_quiet c me p _).queue]; exact h
    · exact h
  | harvest =>
    show (harvest c me s).queue.length ≤ _
    rw [(harvest_quiet c me s).queue]; exact h
  | einit =>
    show (energyInit c me s).queue.length ≤ _
    rw [(energyInit_quiet c me s).queue]; exact h

/-- **C11.** After every history the packets that were accepted and have no outcome yet are those in the queue,
and there are at most `QueueLimit` of them. -/
theorem C11_queue_bounded (c : Cfg) (me : Mac48) (e0 : ℚ) (ops : List Op) :
    (after c me e0 ops).queue.length ≤ c.queueLimit ∧
    (∀ p, p ∈ (after c me e0 ops).queue ↔ Unresolved (after c me e0 ops).log p) ∧
    (after c me e0 ops).queue.Nodup ∧
    numAccepted (after c me e0 ops).log ≤
      numDone true (after c me e0 ops).log + numDone false (after c me e0 ops).log + c.queueLimit := by
  have hl : ∀ ops s, s.queue.length ≤ c.queueLimit → (run c me s ops).queue.length ≤ c.queueLimit := by
    intro ops
    induction ops with
    | nil => intro s h; exact h
    | cons o os ih => intro s h; exact ih _ (queue_le_step o h)
  have h0 := after_inv0 c me e0 ops
  have hq := hl ops (St.init e0) (Nat.zero_le _)
  have hn : (outcomes (after c me e0 ops).log ++ (after c me e0 ops).queue).Nodup := h0.perm.nodup_iff.mp h0.nodup
  refine ⟨hq, fun p => (unresolved_iff h0 p).symm, (List.nodup_append.mp hn).2.1, ?_⟩
  have h1 := h0.perm.length_eq
  rw [List.length_append] at h1
  have h2 : (outcomes (after c me e0 ops).log).length =
      numDone true (after c me e0 ops).log + numDone false (after c me e0 ops).log := by
    rw [numDone_eq, numDone_eq]
    unfold outcomes dones
    induction (after c me e0 ops).log with
    | nil => rfl
    | cons o l ih =>
      simp only [List.filterMap_cons]
      cases o with
      | done b p => cases b <;> simp [ih] <;> omega
      | _ => simpa using ih
  rw [numAccepted_eq]
  have hq' : (after c me e0 ops).queue.length ≤ c.queueLimit := hq
  omega

/-- With limit 2 the third packet is refused and two packets are unresolved. -/
example : (after { exCfg with queueLimit := 2 } exA 1000
      [.enqueue exBody exB, .enqueue exBody exB, .enqueue exBody exB]).queue.length = 2 ∧
    numAccepted (after { exCfg with queueLimit := 2 } exA 1000
      [.enqueue exBody exB, .enqueue exBody exB, .enqueue exBody exB]).log = 2 := by
  decide +kernel

/-! ## C12 -/

/-- **C12** (sizes other than 64 bytes).  `Enqueue` answers false exactly when the queue is full, and then nothing
changed; when it answers true, a new packet with this body, destination and the next sequence number was
accepted and is queued. -/
theorem C12_enqueue_truthful_partial (c : Cfg) (me : Mac48) (e0 : ℚ) (ops : List Op) (b : Body) (d : Mac48)
    (hsz : b.size ≠ 64) :
    let s := after c me e0 ops
    let r := enqueue c me b d s
    (r.1 = false ↔ c.queueLimit ≤ s.queue.length) ∧
    (r.1 = false → r.2 = s) ∧
    (r.1 = true → ∃ p, p.body = b ∧ p.dst = d ∧ p.seq = UInt16.ofNat (numAccepted s.log + 1) ∧
      .accepted p ∉ s.log ∧ .accepted p ∈ r.2.log ∧ p ∈ r.2.queue ∧
      numAccepted r.2.log = numAccepted s.log + 1) := by
  intro s r
  have h0 : Inv0 s := after_inv0 c me e0 ops
  have hr : r = enqueue c me b d s := rfl
  by_cases hfull : s.queue.length ≥ c.queueLimit
  · have e : r = (false, s) := by
      rw [hr]; unfold enqueue; rw [if_neg hsz, if_pos hfull]
    rw [e]
    exact ⟨by simpa using hfull, fun _ => rfl, by simp⟩
  · have hacc : r.1 = true ∧ (r.2 = accept s b d ∨ r.2 = txFirstPacket c me (accept s b d)) := by
      rw [hr]; unfold enqueue
      rw [if_neg hsz, if_neg hfull]
      dsimp only
      split_ifs
      · exact ⟨rfl, Or.inl rfl⟩
      · exact ⟨rfl, Or.inr rfl⟩
    obtain ⟨h1, h2⟩ := hacc
    refine ⟨by simp [h1, hfull], by simp [h1], fun _ => ⟨newPkt s b d, rfl, rfl, ?_, ?_, ?_, ?_, ?_⟩⟩
    · show s.sequence + 1 = _
      rw [h0.sequence, numAccepted_nextUid h0]; simp
    · intro hm
      have := h0.mem_uid (mem_accs.mpr hm)
      simp [newPkt] at this
    · have hm : Obs.accepted (newPkt s b d) ∈ (accept s b d).log := List.mem_cons_self
      rcases h2 with e | e
      · rw [e]; exact hm
      · rw [e]; exact (txFirstPacket_adds c me _).sub hm
    · have hm : newPkt s b d ∈ (accept s b d).queue := List.mem_append.mpr (Or.inr (List.mem_singleton.mpr rfl))
      rcases h2 with e | e
      · rw [e]; exact hm
      · rw [e, (txFirstPacket_quiet c me _).queue]; exact hm
    · have h0' : Inv0 r.2 := by
        have := h0.step c me (.enqueue b d)
        exact this
      rw [numAccepted_nextUid h0', numAccepted_nextUid h0]
      rcases h2 with e | e
      · rw [e]; rfl
      · rw [e, (txFirstPacket_quiet c me _).nextUid]; rfl

/-- **C12 is violated** for 64-byte packets: in every state `Enqueue` answers true but nothing was accepted. -/
theorem C12_size64_violated (c : Cfg) (me : Mac48) (x : Nat) (d : Mac48) (s : St) :
    (enqueue c me ⟨x, 64⟩ d s).1 = true ∧ (enqueue c me ⟨x, 64⟩ d s).2 = s := by
  simp [enqueue]

/-- Both answers occur. -/
example : (enqueue { exCfg with queueLimit := 1 } exA exBody exB (after exCfg exA 1000 [])).1 = true ∧
    (enqueue { exCfg with queueLimit := 1 } exA exBody exB (after exCfg exA 1000 [.enqueue exBody exB])).1 = false := by
  decide +kernel

/-! ## C13 -/

theorem outcomes_count (p : Pkt) (log : List Obs) :
    (outcomes log).count p = log.count (.done true p) + log.count (.done false p) := by
  unfold outcomes
  induction log with
  | nil => rfl
  | cons o l ih =>
    simp only [List.filterMap_cons, List.count_cons]
    cases o with
    | done b q => cases b <;> by_cases h : q = p <;> simp [h, ih, List.count_cons] <;> omega
    | _ => simpa using ih

/-- **C13.** After every history: a packet is reported (as success or discard) only if it was accepted; every
accepted packet was accepted once and is either queued and not reported, or not queued and reported exactly
once; the counters add up. -/
theorem C13_one_outcome (c : Cfg) (me : Mac48) (e0 : ℚ) (ops : List Op) :
    let s := after c me e0 ops
    (∀ ok p, .done ok p ∈ s.log → .accepted p ∈ s.log) ∧
    (∀ p, .accepted p ∈ s.log → s.log.count (.accepted p) = 1 ∧
      s.log.count (.done true p) + s.log.count (.done false p) = if p ∈ s.queue then 0 else 1) ∧
    numAccepted s.log = numDone true s.log + numDone false s.log + s.queue.length ∧
    s.ite = numDone true s.log ∧ s.discarded = numDone false s.log := by
  intro s
  have h0 : Inv0 s := after_inv0 c me e0 ops
  refine ⟨?_, ?_, ?_, ?_, ?_⟩
  · intro ok p hp
    exact mem_accs.mp (h0.outcome_acc (mem_outcomes.mpr ⟨ok, hp⟩))
  · intro p hp
    have hm : p ∈ accs s.log := mem_accs.mpr hp
    have h1 : (accs s.log).count p = 1 := List.count_eq_one_of_mem h0.nodup hm
    have h2 := h0.perm.count_eq p
    rw [List.count_append, outcomes_count, h1] at h2
    constructor
    · have : ∀ l : List Obs, l.count (.accepted p) = (accs l).count p := by
        intro l
        unfold accs
        induction l with
        | nil => rfl
        | cons o l ih =>
          simp only [List.filterMap_cons, List.count_cons]
          cases o with
          | accepted q => by_cases h : q = p <;> simp [h, ih]
          | _ => simpa using ih
      rw [this, h1]
    · split_ifs with hq
      · have : s.queue.count p ≥ 1 := List.count_pos_iff.mpr hq
        omega
      · have : s.queue.count p = 0 := List.count_eq_zero.mpr hq
        omega
  · have h1 := h0.perm.length_eq
    rw [List.length_append] at h1
    rw [numAccepted_eq, h1]
    congr 1
    rw [numDone_eq, numDone_eq]
    unfold outcomes dones
    induction s.log with
    | nil => rfl
    | cons o l ih =>
      simp only [List.filterMap_cons]
      cases o with
      | done b p => cases b <;> simp [ih] <;> omega
      | _ => simpa using ih
  · rw [numDone_eq]; exact h0.ite
  · rw [numDone_eq]; exact h0.discarded

/-- A history with one success, one discard and one queued packet. -/
example :
    let s := after { exCfg with retryLimit := 1 } exA 1000
      [.enqueue exBody exB, .recv ⟨.ack, exB, exA, 1, ⟨0, 0⟩⟩ true, .enqueue exBody exB, .fire 1, .enqueue exBody exC]
    numDone true s.log = 1 ∧ numDone false s.log = 1 ∧ s.queue.length = 1 ∧ numAccepted s.log = 3 := by
  decide +kernel

/-! ## C14 -/

/-- How often the DATA frame of `p` was handed to the PHY. -/
def dataTransmissions (me : Mac48) (p : Pkt) (log : List Obs) : Nat :=
  log.count (.tx ⟨.data, me, p.dst, p.seq, p.body⟩)

/-- Different destinations. -/
def station (i : Nat) : Mac48 := ⟨0, 0, 0, 1, UInt8.ofNat (i / 256), UInt8.ofNat i⟩

theorem station_inj {i j : Nat} (hi : i < 65536) (hj : j < 65536) (h : station i = station j) : i = j := by
  unfold station at h
  simp only [Mac48.mk.injEq, true_and] at h
  have h1 := congrArg UInt8.toNat h.1
  have h2 := congrArg UInt8.toNat h.2
  simp only [UInt8.toNat_ofNat'] at h1 h2
  omega

theorem station_ne_bcast (i : Nat) : station i ≠ bcast := by
  intro h
  have := congrArg Mac48.b0 h
  simp [station, bcast] at this

/-- **C14 is violated** for every limit the attribute can hold: packets for new destinations put the packet at the
front of the queue on the air once more each time, without any timeout.  (RTS off, enough energy.) -/
theorem C14_transmissions_exceed_limit_violated (limit : UInt16) (en : EParams) (hen : en.Sane) (me : Mac48) :
    ∃ (c : Cfg) (e0 : ℚ) (ops : List Op) (p : Pkt), c.retryLimit = limit.toNat ∧ c.energy = en ∧
      p.dst ≠ bcast ∧ .accepted p ∈ (after c me e0 ops).log ∧
      dataTransmissions me p (after c me e0 ops).log > c.retryLimit := by
  let c : Cfg := ⟨false, 65536, limit.toNat, 5, en⟩
  let p : Pkt := ⟨0, 1, station 0, exBody⟩
  let C : ℚ := energyFor en p.size 17
  have hC : 0 ≤ C := by
    show 0 ≤ energyFor en p.size 17
    rw [← cost_eq]; exact cost_nonneg _ hen _ _ (by positivity) (by norm_num)
  have key : ∀ (n : Nat) (e0 : ℚ), n < 65536 → (n + 1 : ℕ) * C ≤ e0 →
      let s := after c me e0 ((List.range (n + 1)).map fun i => .enqueue exBody (station i))
      s.queue.head? = some p ∧ (∀ t ∈ s.pktTx, ∃ i ≤ n, t.pkt.dst = station i) ∧ s.queue.length = n + 1 ∧
      .accepted p ∈ s.log ∧
      s.energy = e0 - (n + 1 : ℕ) * C ∧ dataTransmissions me p s.log = n + 1 := by
    intro n
    have hbook : ∀ s : St, C ≤ s.energy →
        s.book c p.size 17 = (true, { s with energy := s.energy - C }.emit (.book true p.size 17)) := by
      intro s hs
      have h1 := (C08_book_all_or_nothing en s.energy p.size 17).1.mpr hs
      have h2 := (C08_book_all_or_nothing en s.energy p.size 17).2.1 h1
      unfold St.book
      show ((en.book s.energy p.size 17).1, { s with energy := (en.book s.energy p.size 17).2 }.emit
        (.book (en.book s.energy p.size 17).1 p.size 17)) = _
      rw [h1, h2]
    have htry : ∀ s : St, s.queue.head? = some p → C ≤ s.energy →
        (txFirstPacket c me s).queue = s.queue ∧ (txFirstPacket c me s).pktTx = s.pktTx ∧
        (txFirstPacket c me s).energy = s.energy - C ∧
        (txFirstPacket c me s).log = .tx ⟨.data, me, p.dst, p.seq, p.body⟩ :: .book true p.size 17 :: s.log := by
      intro s hq hs
      unfold txFirstPacket
      cases hl : s.queue with
      | nil => rw [hl] at hq; simp at hq
      | cons x xs =>
        rw [hl] at hq
        obtain rfl : x = p := by simpa using hq
        dsimp only
        unfold checkResources
        rw [if_neg (by simp [c]), hbook s hs]
        dsimp only
        rw [if_pos rfl]
        unfold sendData
        rw [if_neg (station_ne_bcast 0)]
        exact ⟨hl, rfl, rfl, rfl⟩
    induction n with
    | zero =>
      intro e0 _ he
      have he' : C ≤ e0 := by simpa using he
      have hs : after c me e0 [.enqueue exBody (station 0)] = txFirstPacket c me (accept (St.init e0) exBody (station 0)) := by
        show (enqueue c me exBody (station 0) (St.init e0)).2 = _
        simp [enqueue, St.init, exBody, c, accept, St.emit]
      obtain ⟨h1, h2, h3, h4⟩ := htry (accept (St.init e0) exBody (station 0)) rfl he'
      rw [show (List.range (0 + 1)).map (fun i => Op.enqueue exBody (station i)) = [.enqueue exBody (station 0)] from rfl]
      dsimp only
      rw [hs, h1, h2, h3, h4]
      refine ⟨rfl, ?_, rfl, by simp [accept, St.init, newPkt, p], ?_, ?_⟩
      · intro t ht
        rw [show (accept (St.init e0) exBody (station 0)).pktTx = [⟨newPkt (St.init e0) exBody (station 0), 0⟩] from rfl] at ht
        rw [List.mem_singleton.mp ht]
        exact ⟨0, le_refl _, rfl⟩
      · show e0 - C = _
        push_cast; ring
      · unfold dataTransmissions
        simp [accept, St.init, p]
    | succ n ih =>
      intro e0 hn he
      push_cast at he
      have he' : ((n + 1 : ℕ) : ℚ) * C ≤ e0 := by push_cast; nlinarith
      obtain ⟨i1, i2, i3, i6, i4, i5⟩ := ih e0 (by omega) he'
      rw [List.range_succ, List.map_append]
      generalize hops : (List.range (n + 1)).map (fun i => Op.enqueue exBody (station i)) = ops0 at *
      have hrun : after c me e0 (ops0 ++ [.enqueue exBody (station (n + 1))]) =
          (enqueue c me exBody (station (n + 1)) (after c me e0 ops0)).2 := by
        show run c me (St.init e0) _ = _
        rw [run_append]; rfl
      have hs : (enqueue c me exBody (station (n + 1)) (after c me e0 ops0)).2 =
          txFirstPacket c me (accept (after c me e0 ops0) exBody (station (n + 1))) := by
        unfold enqueue
        rw [if_neg (by simp [exBody]), if_neg (by rw [i3]; show ¬ (n + 1 ≥ 65536); omega)]
        dsimp only
        rw [if_neg]
        · rfl
        · intro h
          obtain ⟨t, ht, h2⟩ := List.any_eq_true.mp h
          obtain ⟨i, hi, hd⟩ := i2 t ht
          have h3 := (of_decide_eq_true h2).2
          have h4 : station i = station (n + 1) := hd.symm.trans h3
          have := station_inj (by omega) hn h4
          omega
      have hq : (accept (after c me e0 ops0) exBody (station (n + 1))).queue.head? = some p := by
        show (_ ++ _ : List Pkt).head? = _
        rw [List.head?_append, i1]; rfl
      have hen2 : C ≤ (accept (after c me e0 ops0) exBody (station (n + 1))).energy := by
        show C ≤ (after c me e0 ops0).energy
        rw [i4]
        push_cast
        nlinarith
      obtain ⟨h1, h2, h3, h4⟩ := htry _ hq hen2
      rw [show [n + 1].map (fun i => Op.enqueue exBody (station i)) = [.enqueue exBody (station (n + 1))] from rfl]
      dsimp only
      rw [hrun, hs, h1, h2, h3, h4]
      refine ⟨hq, ?_, ?_, ?_, ?_, ?_⟩
      · intro t ht
        rcases List.mem_append.mp (show t ∈ (after c me e0 ops0).pktTx ++ [_] from ht) with h | h
        · obtain ⟨i, hi, hd⟩ := i2 t h
          exact ⟨i, by omega, hd⟩
        · rw [List.mem_singleton.mp h]; exact ⟨n + 1, le_refl _, rfl⟩
      · show ((after c me e0 ops0).queue ++ [_]).length = _
        rw [List.length_append, i3]; rfl
      · exact List.mem_cons_of_mem _ (List.mem_cons_of_mem _ (List.mem_cons_of_mem _ i6))
      · show (after c me e0 ops0).energy - C = _
        rw [i4]; push_cast; ring
      · unfold dataTransmissions at i5 ⊢
        show List.count _ (_ :: _ :: Obs.accepted _ :: (after c me e0 ops0).log) = _
        rw [List.count_cons_self, List.count_cons_of_ne (by simp), List.count_cons_of_ne (by simp), i5]
  have hlim : limit.toNat < 65536 := limit.toNat_lt
  obtain ⟨-, -, -, h4, -, h5⟩ := key limit.toNat ((limit.toNat + 1 : ℕ) * C) hlim (le_refl _)
  refine ⟨c, (limit.toNat + 1 : ℕ) * C,
    (List.range (limit.toNat + 1)).map fun i => .enqueue exBody (station i), p, rfl, rfl, station_ne_bcast 0, h4, ?_⟩
  rw [h5]
  show limit.toNat + 1 > limit.toNat
  omega

/-- **C14** (the part that holds).  The back-offs, each of which leads to at most one more attempt, are limited: a
packet backs off at most `DataRetryLimit - 1` times, and the timeouts counted for a packet that is
still queued are fewer than the limit (a limit of zero acts as one). -/
theorem C14_backoffs_bounded_partial (c : Cfg) (me : Mac48) (e0 : ℚ) (ops : List Op)
    (hn : numAccepted (after c me e0 ops).log ≤ 65535) :
    (∀ p, (after c me e0 ops).log.count (.backoff p) ≤ max c.retryLimit 1 - 1) ∧
    (∀ p, Unresolved (after c me e0 ops).log p →
      (after c me e0 ops).log.count (.timeout p.seq) < max c.retryLimit 1 ∧
      (after c me e0 ops).log.count (.backoff p) = (after c me e0 ops).log.count (.timeout p.seq)) := by
  have h2 := after_inv2 c me e0 ops hn
  have h0 := after_inv0 c me e0 ops
  refine ⟨h2.boffMax, ?_⟩
  intro p hp
  obtain ⟨t, ht, rfl⟩ := h0.pktTx_of_queue ((unresolved_iff h0 p).mp hp)
  have e := h2.cnt t ht
  have l := h2.lim t ht
  have b := h2.boff t ht
  unfold timeouts at e
  unfold backoffs at b
  omega

/-- A packet that timed out four times out of five. -/
example : (after exCfg exA 1000 [.enqueue exBody exB, .fire 0, .fire 1, .fire 2, .fire 3, .fire 4, .fire 5, .fire 6]).log.count
      (.backoff ⟨0, 1, exB, exBody⟩) = 4 := by
  decide +kernel

/-! ## C15 -/

/-- **C15.** Whatever happened before, if a step reports a packet as successfully sent, then the step is the
reception of an intact ACK for this node with the packet's sequence number; and this node handed the packet's
DATA frame to the PHY earlier (up to 65535 accepted packets, after which numbers repeat). -/
theorem C15_success_only_on_ack (c : Cfg) (me : Mac48) (e0 : ℚ) (ops : List Op) (op : Op) (p : Pkt)
    (new : List Obs) (hnew : (after c me e0 (ops ++ [op])).log = new ++ (after c me e0 ops).log)
    (hp : .done true p ∈ new) :
    (∃ f, op = .recv f true ∧ f.kind = .ack ∧ f.dst = me ∧ f.seq = p.seq) ∧
    (numAccepted (after c me e0 ops).log ≤ 65535 →
      .tx ⟨.data, me, p.dst, p.seq, p.body⟩ ∈ (after c me e0 ops).log) := by
  have hT := after_tids c me e0 ops
  have h0 := after_inv0 c me e0 ops
  have hs : after c me e0 (ops ++ [op]) = step c me (after c me e0 ops) op := by
    show run c me (St.init e0) _ = _
    rw [run_append]; rfl
  rw [hs] at hnew
  have ho := (step_adds c me (after c me e0 ops) op).new hnew _ hp
  cases op with
  | enqueue b d =>
    rcases ho with h | ⟨r, -, ⟨g, tx, rx, h⟩ | h | ⟨h, -⟩ | h⟩ <;> simp at h
  | recv f ok =>
    obtain ⟨rfl, h⟩ := ho
    rcases h with ⟨-, ⟨g, tx, rx, h⟩ | ⟨-, h⟩⟩ | ⟨-, -, t, -, -, -, h⟩ | ⟨-, ⟨g, tx, rx, h⟩ | ⟨-, h⟩ | ⟨-, -, h⟩⟩ |
      ⟨hk, hd, a, ha, has, t, ht, hts, h⟩
    · simp at h
    · simp at h
    · simp at h
    · simp at h
    · simp at h
    · simp at h
    · simp only [Obs.done.injEq, true_and] at h
      subst h
      refine ⟨⟨f, rfl, hk, hd, ?_⟩, ?_⟩
      · rw [hts, ← hT.seq a ha, has]
      · intro hn
        have h1 := after_inv1 c me e0 ops hn
        rw [numAccepted_nextUid h0] at hn
        obtain ⟨ha1, -, -, ha4⟩ := h1.ackT a ha
        have : t.pkt = a.pkt := seq_inj h0 hn (h0.queue_acc (h0.mem_pktTx ht)) ha1 hts
        rw [this]
        exact ha4
  | fire tid =>
    rcases ho with ⟨r, -, h⟩ | ⟨q, -, h⟩ | ⟨q, -, tx, rx, h⟩ | ⟨r, -, ⟨g, tx, rx, h⟩ | h | ⟨h, -⟩ | h⟩
    · rcases h with h | ⟨tx, rx, h⟩ | ⟨t, -, -, h | h⟩ <;> simp at h
    · rcases h with h | ⟨tx, rx, h⟩ | ⟨t, -, -, h | h⟩ <;> simp at h
    · simp at h
    · simp at h
    · simp at h
    · simp at h
    · simp at h
  | harvest =>
    obtain ⟨r, -, ⟨g, tx, rx, h⟩ | h | ⟨h, -⟩ | h⟩ := ho <;> simp at h
  | einit =>
    obtain ⟨r, -, ⟨g, tx, rx, h⟩ | h | ⟨h, -⟩ | h⟩ := ho <;> simp at h

/-- A success does occur. -/
example : (after exCfg exA 1000 ([.enqueue exBody exB] ++ [.recv ⟨.ack, exB, exA, 1, ⟨0, 0⟩⟩ true])).log =
    [.done true ⟨0, 1, exB, exBody⟩] ++ (after exCfg exA 1000 [.enqueue exBody exB]).log := by
  decide +kernel

/-! ## C16 -/

/-- **C16.** Whenever a packet is reported as discarded, exactly `DataRetryLimit` timeouts (one, if the limit is
zero) for its sequence number were traced before (up to 65535 accepted packets the number identifies the
packet). -/
theorem C16_discard_after_limit (c : Cfg) (me : Mac48) (e0 : ℚ) (ops : List Op)
    (hn : numAccepted (after c me e0 ops).log ≤ 65535) (p : Pkt) (later earlier : List Obs)
    (hl : (after c me e0 ops).log = later ++ .done false p :: earlier) :
    earlier.count (.timeout p.seq) = max c.retryLimit 1 ∧
    (∀ q, .accepted q ∈ (after c me e0 ops).log → q.seq = p.seq → q = p) := by
  have h2 := after_inv2 c me e0 ops hn
  have h0 := after_inv0 c me e0 ops
  have hd := h2.disc
  rw [hl] at hd
  refine ⟨hd.split, ?_⟩
  intro q hq e
  rw [numAccepted_nextUid h0] at hn
  refine seq_inj h0 hn (mem_accs.mpr hq) (h0.outcome_acc (mem_outcomes.mpr ⟨false, ?_⟩)) e
  rw [hl]; simp

/-- A discard does occur (limit 2: timeout, back-off, timeout). -/
example : .done false ⟨0, 1, exB, exBody⟩ ∈
    (after { exCfg with retryLimit := 2 } exA 1000 [.enqueue exBody exB, .fire 0, .fire 1, .fire 2]).log := by
  decide +kernel

/-! ## C18 -/

/-- **C18.** If a step passes a packet up, it is the reception of an intact DATA frame for this node or for
broadcast, and body, source, destination and number are those of the frame.  Holds in every state. -/
theorem C18_up_only_from_intact_data (c : Cfg) (me : Mac48) (s : St) (op : Op) (new : List Obs)
    (hnew : (step c me s op).log = new ++ s.log) (b : Body) (src dst : Mac48) (q : UInt16)
    (hp : .up b src dst q ∈ new) :
    ∃ f, op = .recv f true ∧ f.kind = .data ∧ (f.dst = me ∨ f.dst = bcast) ∧
      b = f.body ∧ src = f.src ∧ dst = f.dst ∧ q = f.seq := by
  have ho := (step_adds c me s op).new hnew _ hp
  cases op with
  | enqueue b d =>
    rcases ho with h | ⟨r, -, ⟨g, tx, rx, h⟩ | h | ⟨h, -⟩ | h⟩ <;> simp at h
  | recv f ok =>
    obtain ⟨rfl, h⟩ := ho
    rcases h with ⟨-, ⟨g, tx, rx, h⟩ | ⟨-, h⟩⟩ | ⟨-, -, t, -, -, -, h⟩ | ⟨hk, ⟨g, tx, rx, h⟩ | ⟨hd, h⟩ | ⟨-, -, h⟩⟩ |
      ⟨-, -, a, -, -, t, -, -, h⟩
    · simp at h
    · simp at h
    · simp at h
    · simp at h
    · simp only [Obs.up.injEq] at h
      exact ⟨f, rfl, hk, hd, h.1, h.2.1, h.2.2.1, h.2.2.2⟩
    · simp at h
    · simp at h
  | fire tid =>
    rcases ho with ⟨r, -, h⟩ | ⟨q, -, h⟩ | ⟨q, -, tx, rx, h⟩ | ⟨r, -, ⟨g, tx, rx, h⟩ | h | ⟨h, -⟩ | h⟩
    · rcases h with h | ⟨tx, rx, h⟩ | ⟨t, -, -, h | h⟩ <;> simp at h
    · rcases h with h | ⟨tx, rx, h⟩ | ⟨t, -, -, h | h⟩ <;> simp at h
    · simp at h
    · simp at h
    · simp at h
    · simp at h
    · simp at h
  | harvest =>
    obtain ⟨r, -, ⟨g, tx, rx, h⟩ | h | ⟨h, -⟩ | h⟩ := ho <;> simp at h
  | einit =>
    obtain ⟨r, -, ⟨g, tx, rx, h⟩ | h | ⟨h, -⟩ | h⟩ := ho <;> simp at h

/-- A packet is passed up. -/
example : ∃ new, (step exCfg exB (after exCfg exB 1000 []) (.recv ⟨.data, exA, exB, 1, exBody⟩ true)).log =
    new ++ (after exCfg exB 1000 []).log ∧ .up exBody exA exB 1 ∈ new := by
  refine ⟨[.up exBody exA exB 1, .tx ⟨.ack, exB, exA, 1, ⟨0, 0⟩⟩, .book true 18 100], ?_, by simp⟩
  decide +kernel

/-! ## C19 -/

/-- **C19.** (1) If a step passes up a frame that was not sent to broadcast, the same step hands an ACK for its source
with its number to the PHY.  (2) Every intact unicast DATA frame for this node is acknowledged, new or
not, if RTS is on or the energy for 18 sent bytes and the body's received bytes is there; otherwise it is neither
acknowledged nor passed up.  (3) No number is passed up twice for the same source. -/
theorem C19_unicast_up_acknowledged (c : Cfg) (me : Mac48) (e0 : ℚ) (ops : List Op) (f : Frame)
    (hk : f.kind = .data) (hd : f.dst = me) (hb : me ≠ bcast) :
    let s := after c me e0 ops
    let s' := step c me s (.recv f true)
    ∃ new, s'.log = new ++ s.log ∧
      (.up f.body f.src f.dst f.seq ∈ new → .tx ⟨.ack, me, f.src, f.seq, ⟨0, 0⟩⟩ ∈ new) ∧
      ((c.rts = true ∨ energyFor c.energy 18 f.body.size ≤ s.energy) →
        .tx ⟨.ack, me, f.src, f.seq, ⟨0, 0⟩⟩ ∈ new ∧
        (.up f.body f.src f.dst f.seq ∈ new ↔ ∀ q ∈ upsFrom f.src s.log, q < f.seq)) ∧
      (¬ (c.rts = true ∨ energyFor c.energy 18 f.body.size ≤ s.energy) →
        .tx ⟨.ack, me, f.src, f.seq, ⟨0, 0⟩⟩ ∉ new ∧ .up f.body f.src f.dst f.seq ∉ new) ∧
      ∀ src q, (upsFrom src s'.log).count q ≤ 1 := by
  intro s s'
  have h5 : Inv5 s := (Inv5.init e0).run c me ops
  have h5' : Inv5 s' := h5.step c me (.recv f true)
  have hlast : ∀ src q, (upsFrom src s'.log).count q ≤ 1 := by
    intro src q
    have hnd : (upsFrom src s'.log).Nodup := (h5' src).1.imp (fun {a b} (h : a > b) => by
      rintro rfl; rw [gt_iff_lt, UInt16.lt_iff_toNat_lt] at h; omega)
    exact List.nodup_iff_count_le_one.mp hnd q
  -- the duplicate filter in terms of what was passed up
  have hfilter : (isNewSequence s.seqList f.src f.seq).1 = true ↔ ∀ q ∈ upsFrom f.src s.log, q < f.seq := by
    rw [isNew_fst, ← (h5 f.src).2]
    have hp := (h5 f.src).1
    cases hl : upsFrom f.src s.log with
    | nil => simp
    | cons x xs =>
      rw [hl] at hp
      constructor
      · intro h q hq
        have hx := h x rfl
        rcases List.mem_cons.mp hq with rfl | hm
        · exact hx
        · have h4 : x > q := (List.pairwise_cons.mp hp).1 q hm
          rw [gt_iff_lt, UInt16.lt_iff_toNat_lt] at *
          omega
      · intro h v hv
        obtain rfl : x = v := by simpa using hv
        exact h x List.mem_cons_self
  have hacc : ∀ s1 : St, s1.seqList = s.seqList → ∃ new, (acceptData me f s1).log = new ++ s1.log ∧
      .tx ⟨.ack, me, f.src, f.seq, ⟨0, 0⟩⟩ ∈ new ∧
      (.up f.body f.src f.dst f.seq ∈ new ↔ (isNewSequence s.seqList f.src f.seq).1 = true) := by
    intro s1 hs1
    obtain ⟨ups, h1, h2⟩ := acceptData_adds me f s1
    refine ⟨ups ++ [.tx ⟨.ack, me, f.src, f.seq, ⟨0, 0⟩⟩], by rw [h1]; simp, by simp, ?_⟩
    rw [h2, hs1]
    by_cases hx : (isNewSequence s.seqList f.src f.seq).1 = true
    · simp [hx]
    · simp [hx]
  have hstep : s' = receiveData c me f s := by
    show receivePacketDone c me f true s = _
    unfold receivePacketDone
    rw [if_neg (by simp), hk]
  have hdb : ¬ f.dst = bcast := by rw [hd]; exact hb
  by_cases hr : c.rts = true
  · have e : s' = acceptData me f s := by
      rw [hstep]; unfold receiveData
      rw [if_neg hdb, if_neg (by simp [hd]), if_neg (by simp [hr])]
    obtain ⟨new, h1, h2, h3⟩ := hacc s rfl
    exact ⟨new, by rw [e, h1], fun _ => h2, fun _ => ⟨h2, h3.trans hfilter⟩, fun h => absurd (Or.inl hr) h, hlast⟩
  · have hr' : c.rts = false := by simpa using hr
    have h08 := C08_book_all_or_nothing c.energy s.energy 18 f.body.size
    by_cases hen : energyFor c.energy 18 f.body.size ≤ s.energy
    · have e : s' = acceptData me f (s.book c 18 f.body.size).2 := by
        rw [hstep]; unfold receiveData
        rw [if_neg hdb, if_neg (by simp [hd]), if_pos hr']
        dsimp only
        rw [if_pos (by have := h08.1.mpr hen; exact_mod_cast this)]
      obtain ⟨new, h1, h2, h3⟩ := hacc (s.book c 18 f.body.size).2 rfl
      refine ⟨new ++ [.book (s.book c 18 f.body.size).1 18 f.body.size], ?_, ?_, ?_, ?_, hlast⟩
      · rw [e, h1, List.append_assoc]; rfl
      · intro _; exact List.mem_append.mpr (Or.inl h2)
      · intro _
        refine ⟨List.mem_append.mpr (Or.inl h2), ?_⟩
        rw [← hfilter, ← h3]; simp
      · intro h; exact absurd (Or.inr hen) h
    · have hg : (s.book c 18 f.body.size).1 = false := by
        have := mt h08.1.mp hen
        have h2 : (c.energy.book s.energy 18 f.body.size).1 = false := by simpa using this
        exact_mod_cast h2
      have e : s' = (s.book c 18 f.body.size).2 := by
        rw [hstep]; unfold receiveData
        rw [if_neg hdb, if_neg (by simp [hd]), if_pos hr']
        dsimp only
        rw [if_neg (by simp [hg])]
      refine ⟨[.book (s.book c 18 f.body.size).1 18 f.body.size], by rw [e]; rfl, by simp, ?_, by simp, hlast⟩
      rintro (h | h)
      · exact absurd h hr
      · exact absurd h hen

/-- A duplicate is acknowledged again but not passed up. -/
example : (after exCfg exB 1000 [.recv ⟨.data, exA, exB, 1, exBody⟩ true, .recv ⟨.data, exA, exB, 1, exBody⟩ true]).log =
    [.tx ⟨.ack, exB, exA, 1, ⟨0, 0⟩⟩, .book true 18 100, .up exBody exA exB 1, .tx ⟨.ack, exB, exA, 1, ⟨0, 0⟩⟩,
      .book true 18 100] := by
  decide +kernel

/-! ## C20 -/

/-- **C20.** If a step hands a CTS to the PHY, it is the reception of an intact RTS for this node, the CTS goes to the
RTS's source with its number, and in the same step the energy for it was booked successfully.  Holds in
every state. -/
theorem C20_cts_only_on_rts (c : Cfg) (me : Mac48) (s : St) (op : Op) (new : List Obs)
    (hnew : (step c me s op).log = new ++ s.log) (g : Frame) (hg : g.kind = .cts) (hp : .tx g ∈ new) :
    ∃ f, op = .recv f true ∧ f.kind = .rts ∧ f.dst = me ∧ g = ⟨.cts, me, f.src, f.seq, ⟨0, 0⟩⟩ ∧
      .book true (2 * f.size) c.frameLength ∈ new := by
  have ho := (step_adds c me s op).new hnew _ hp
  cases op with
  | enqueue b d =>
    rcases ho with h | ⟨r, -, ⟨_, tx, rx, h⟩ | h | ⟨h, -⟩ | h⟩
    · simp at h
    · simp at h
    · simp at h
    · simp only [Obs.tx.injEq] at h; rw [h] at hg; simp [rtsFrame] at hg
    · simp only [Obs.tx.injEq] at h; rw [h] at hg; simp [dataFrame] at hg
  | recv f ok =>
    obtain ⟨rfl, h⟩ := ho
    rcases h with ⟨hk, ⟨_, tx, rx, h⟩ | ⟨hd, h⟩⟩ | ⟨-, -, t, -, -, -, h⟩ | ⟨hk, ⟨_, tx, rx, h⟩ | ⟨hd, h⟩ | ⟨-, -, h⟩⟩ |
      ⟨-, -, a, -, -, t, -, -, h⟩
    · simp at h
    · simp only [Obs.tx.injEq] at h
      refine ⟨f, rfl, hk, hd, h, ?_⟩
      have hs : step c me s (.recv f true) = receiveRts c me f s := by
        show receivePacketDone c me f true s = _
        unfold receivePacketDone
        rw [if_neg (by simp), hk]
      rw [hs] at hnew
      unfold receiveRts at hnew
      dsimp only at hnew
      rw [if_neg (by simp [hd])] at hnew
      have hcan : ∀ l : List Obs, ∀ x : List Obs, x ++ s.log = new ++ s.log → l = x → new = l := by
        intro l x e1 e2; rw [e2]; exact (List.append_cancel_right e1).symm
      by_cases hbk : ((s.book c 0 f.size).2.book c (2 * f.size) c.frameLength).1 = true
      · rw [if_pos hbk] at hnew
        have e : new = [.tx ⟨.cts, me, f.src, f.seq, ⟨0, 0⟩⟩, .book true (2 * f.size) c.frameLength,
            .book (s.book c 0 f.size).1 0 f.size] := by
          refine hcan _ [.tx ⟨.cts, me, f.src, f.seq, ⟨0, 0⟩⟩,
            .book ((s.book c 0 f.size).2.book c (2 * f.size) c.frameLength).1 (2 * f.size) c.frameLength,
            .book (s.book c 0 f.size).1 0 f.size] hnew ?_
          rw [hbk]
        rw [e]; simp
      · rw [if_neg hbk] at hnew
        have e : new = [.book ((s.book c 0 f.size).2.book c (2 * f.size) c.frameLength).1 (2 * f.size) c.frameLength,
            .book (s.book c 0 f.size).1 0 f.size] :=
          hcan _ [.book ((s.book c 0 f.size).2.book c (2 * f.size) c.frameLength).1 (2 * f.size) c.frameLength,
            .book (s.book c 0 f.size).1 0 f.size] hnew rfl
        rw [e] at hp
        simp at hp
    · simp only [Obs.tx.injEq] at h; rw [h] at hg; simp [dataFrame] at hg
    · simp at h
    · simp at h
    · simp only [Obs.tx.injEq] at h; rw [h] at hg; simp at hg
    · simp at h
  | fire tid =>
    rcases ho with ⟨r, -, h⟩ | ⟨q, -, h⟩ | ⟨q, -, tx, rx, h⟩ | ⟨r, -, ⟨_, tx, rx, h⟩ | h | ⟨h, -⟩ | h⟩
    · rcases h with h | ⟨tx, rx, h⟩ | ⟨t, -, -, h | h⟩ <;> simp at h
    · rcases h with h | ⟨tx, rx, h⟩ | ⟨t, -, -, h | h⟩ <;> simp at h
    · simp at h
    · simp at h
    · simp at h
    · simp only [Obs.tx.injEq] at h; rw [h] at hg; simp [rtsFrame] at hg
    · simp only [Obs.tx.injEq] at h; rw [h] at hg; simp [dataFrame] at hg
  | harvest =>
    obtain ⟨r, -, ⟨_, tx, rx, h⟩ | h | ⟨h, -⟩ | h⟩ := ho
    · simp at h
    · simp at h
    · simp only [Obs.tx.injEq] at h; rw [h] at hg; simp [rtsFrame] at hg
    · simp only [Obs.tx.injEq] at h; rw [h] at hg; simp [dataFrame] at hg
  | einit =>
    obtain ⟨r, -, ⟨_, tx, rx, h⟩ | h | ⟨h, -⟩ | h⟩ := ho
    · simp at h
    · simp at h
    · simp only [Obs.tx.injEq] at h; rw [h] at hg; simp [rtsFrame] at hg
    · simp only [Obs.tx.injEq] at h; rw [h] at hg; simp [dataFrame] at hg

/-- A CTS is sent. -/
example : (after exRts exB 1000 [.recv ⟨.rts, exA, exB, 1, ⟨0, 0⟩⟩ true]).log =
    [.tx ⟨.cts, exB, exA, 1, ⟨0, 0⟩⟩, .book true 36 5, .book true 0 18] := by
  decide +kernel

end Thz.Nano
