import Verif.NanoProps
import Verif.NanoCredit

/-!
# C17, C21, C22, C25: order, broadcast, stalls and refunds of the nano MAC
-/

namespace Thz.Nano

/-! ## Specification vocabulary -/

/-- The frames that put a packet on the air, written out. -/
def OnAir (me : Mac48) (log : List Obs) (p : Pkt) : Prop :=
  .tx ⟨.rts, me, p.dst, p.seq, ⟨0, 0⟩⟩ ∈ log ∨ .tx ⟨.data, me, p.dst, p.seq, p.body⟩ ∈ log

/-- Assumption on the medium: whenever an intact CTS for this node arrives from some station, this node had sent an
RTS with that number to the station before. -/
def NoForgedCts (c : Cfg) (me : Mac48) (e0 : ℚ) (ops : List Op) : Prop :=
  ∀ pre f post, ops = pre ++ .recv f true :: post → f.kind = .cts → f.dst = me →
    .tx ⟨.rts, me, f.src, f.seq, ⟨0, 0⟩⟩ ∈ (after c me e0 pre).log

/-! ## Helpers -/

theorem NoForgedCts.honest {c : Cfg} {me : Mac48} {e0 : ℚ} {ops : List Op} (h : NoForgedCts c me e0 ops) :
    RunHonest c me (St.init e0) ops := by
  have key : ∀ (post pre : List Op), ops = pre ++ post → RunHonest c me (after c me e0 pre) post := by
    intro post
    induction post with
    | nil => intro pre _; trivial
    | cons o os ih =>
      intro pre e
      refine ⟨?_, ?_⟩
      · cases o with
        | recv f ok =>
          rintro rfl hk hd
          exact h pre f os e hk hd
        | _ => trivial
      · have := ih (pre ++ [o]) (by rw [e]; simp)
        have e2 : after c me e0 (pre ++ [o]) = step c me (after c me e0 pre) o := by
          show run c me (St.init e0) _ = _
          rw [run_append]; rfl
        rw [e2] at this
        exact this
  exact key ops [] rfl

theorem CtsLic.of {L : St → Pkt → Prop} (hok : LicOK L) {me : Mac48} {s : St} (h : Inv1 L me s) (h0 : Inv0 s)
    (hw : s.nextUid ≤ 65535) {op : Op} (hop : CtsHonest me s op) : CtsLic L me s op := by
  cases op <;> try trivial
  rename_i f ok
  intro h1 h2 h3 t ht h4 h5
  obtain ⟨p, hp, -, hp3⟩ := h.rts _ (hop h1 h2 h3) rfl
  have hseq : t.pkt.seq = p.seq := by rw [h4]; exact congrArg Frame.seq hp3
  have e := seq_inj h0 hw (h0.queue_acc (h0.mem_pktTx ht)) (hok.acc hp) hseq
  rw [e]; exact hp

theorem Inv1.runL {L : St → Pkt → Prop} (hok : LicOK L) {me : Mac48} {s : St} (h : Inv1 L me s) (h0 : Inv0 s) (c : Cfg)
    (ops : List Op) (hh : RunHonest c me s ops) (hw : (Nano.run c me s ops).nextUid ≤ 65535) :
    Inv1 L me (Nano.run c me s ops) := by
  induction ops generalizing s with
  | nil => exact h
  | cons o os ih =>
    have hw' : s.nextUid ≤ 65535 := (run_nextUid c me s (o :: os)).trans hw
    exact ih (h.step hok h0 hw' c o (CtsLic.of hok h h0 hw' hh.1)) (h0.step c me o) hh.2 hw

theorem after_inv1L {L : St → Pkt → Prop} (hok : LicOK L) {c : Cfg} {me : Mac48} {e0 : ℚ} {ops : List Op}
    (hn : numAccepted (after c me e0 ops).log ≤ 65535) (hh : NoForgedCts c me e0 ops) :
    Inv1 L me (after c me e0 ops) :=
  (Inv1.init me e0).runL hok (Inv0.init e0) c ops hh.honest (by
    rw [numAccepted_nextUid (after_inv0 c me e0 ops)] at hn; exact hn)

/-- A packet on the air is licensed. -/
theorem onAir_lic {L : St → Pkt → Prop} (hok : LicOK L) {me : Mac48} {s : St} (h : Inv1 L me s) (h0 : Inv0 s)
    (hw : s.nextUid ≤ 65535) {p} (hp : p ∈ accs s.log) (ha : OnAir me s.log p) : L s p := by
  rcases ha with h1 | h1
  · obtain ⟨r, hr, -, e⟩ := h.rts _ h1 rfl
    have e2 : p.seq = r.seq := congrArg Frame.seq e
    rw [seq_inj h0 hw hp (hok.acc hr) e2]; exact hr
  · obtain ⟨r, hr, e⟩ := h.data _ h1 rfl
    have e2 : p.seq = r.seq := congrArg Frame.seq e
    rw [seq_inj h0 hw hp (hok.acc hr) e2]; exact hr

/-! ## C17 -/

/-- **C17.** After every history with at most 65535 accepted packets and no forged CTS: while a packet has no outcome,
no packet accepted later for the same destination has been put on the air. -/
theorem C17_per_destination_order (c : Cfg) (me : Mac48) (e0 : ℚ) (ops : List Op)
    (hn : numAccepted (after c me e0 ops).log ≤ 65535) (hh : NoForgedCts c me e0 ops) (p q : Pkt)
    (hp : Unresolved (after c me e0 ops).log p) (hb : AcceptedBefore (after c me e0 ops).log p q)
    (hd : q.dst = p.dst) : ¬ OnAir me (after c me e0 ops).log q := by
  intro ha
  have h0 := after_inv0 c me e0 ops
  have h1 := after_inv1L Lic.ok hn hh
  obtain ⟨-, hq, hlt⟩ := acceptedBefore_uid h0 hb
  rw [numAccepted_nextUid h0] at hn
  have hl := onAir_lic Lic.ok h1 h0 hn hq ha
  have := hl.first p ((unresolved_iff h0 p).mp hp) hd.symm
  omega

/-- Two packets for one destination: the first is on the air, the second waits. -/
example :
    let s := after exCfg exA 1000 [.enqueue exBody exB, .enqueue exBody exB]
    let p : Pkt := ⟨0, 1, exB, exBody⟩
    let q : Pkt := ⟨1, 2, exB, exBody⟩
    numAccepted s.log ≤ 65535 ∧ NoForgedCts exCfg exA 1000 [.enqueue exBody exB, .enqueue exBody exB] ∧
      Unresolved s.log p ∧ AcceptedBefore s.log p q ∧ OnAir exA s.log p := by
  have hlog : (after exCfg exA 1000 [.enqueue exBody exB, .enqueue exBody exB]).log =
      [.accepted ⟨1, 2, exB, exBody⟩, .tx ⟨.data, exA, exB, 1, exBody⟩, .book true 117 17,
        .accepted ⟨0, 1, exB, exBody⟩] := by decide +kernel
  dsimp only
  rw [hlog]
  refine ⟨by decide, ?_, ⟨by simp, by simp⟩, ⟨[], _, rfl, by simp⟩, Or.inr (by simp)⟩
  intro pre f post e
  exfalso
  have : Op.recv f true ∈ pre ++ Op.recv f true :: post := by simp
  rw [← e] at this
  simp at this

/-! ## C21 -/

/-- No broadcast is ever reported. -/
theorem bcast_queued {me : Mac48} {s : St} {c : Cfg} (h0 : Inv0 s) (h1 : Inv1 Acc me s) (hw : s.nextUid ≤ 65535)
    (h : ∀ ok p, .done ok p ∈ s.log → p.dst ≠ bcast) (op : Op) :
    ∀ ok p, .done ok p ∈ (step c me s op).log → p.dst ≠ bcast := by
  intro ok p hp
  obtain ⟨new, hnew, ho⟩ := step_adds c me s op
  rw [hnew] at hp
  rcases List.mem_append.mp hp with hm | hm
  swap
  · exact h ok p hm
  have hcase : ∀ {q : UInt16} {r : Pkt} {t : PktTx}, r ∈ accs s.log → r.dst ≠ bcast → r.seq = q → t ∈ s.pktTx →
      t.pkt.seq = q → t.pkt.dst ≠ bcast := by
    intro q r t hr hb e ht e2
    rw [seq_inj h0 hw (h0.queue_acc (h0.mem_pktTx ht)) hr (e2.trans e.symm)]
    exact hb
  have ho := ho _ hm
  cases op with
  | enqueue b d =>
    rcases ho with h | ⟨r, -, ⟨g, tx, rx, h⟩ | h | ⟨h, -⟩ | h⟩ <;> simp at h
  | recv f k =>
    obtain ⟨rfl, h⟩ := ho
    rcases h with ⟨-, ⟨g, tx, rx, h⟩ | ⟨-, h⟩⟩ | ⟨-, -, t, -, -, -, h⟩ | ⟨-, ⟨g, tx, rx, h⟩ | ⟨-, h⟩ | ⟨-, -, h⟩⟩ |
      ⟨hk, hd, a, ha, has, t, ht, hts, h⟩
    · simp at h
    · simp at h
    · simp at h
    · simp at h
    · simp at h
    · simp at h
    · simp only [Obs.done.injEq] at h
      rw [h.2]
      obtain ⟨ha1, ha2, -, -⟩ := h1.ackT a ha
      exact hcase ha1 ha2 rfl ht hts
  | fire tid =>
    rcases ho with ⟨r, hr, h⟩ | ⟨q, hq, h⟩ | ⟨q, -, tx, rx, h⟩ | ⟨r, -, ⟨g, tx, rx, h⟩ | h | ⟨h, -⟩ | h⟩
    · rcases h with h | ⟨tx, rx, h⟩ | ⟨t, ht, hts, h | h⟩
      · simp at h
      · simp at h
      · simp only [Obs.done.injEq] at h
        rw [h.2]
        obtain ⟨h2, h3⟩ := h1.cts _ _ hr
        exact hcase h2 h3 rfl ht hts
      · simp at h
    · rcases h with h | ⟨tx, rx, h⟩ | ⟨t, ht, hts, h | h⟩
      · simp at h
      · simp at h
      · simp only [Obs.done.injEq] at h
        rw [h.2]
        obtain ⟨r, h2, h3, h4, -⟩ := h1.ackE _ _ hq
        exact hcase h2 h3 h4 ht hts
      · simp at h
    · simp at h
    · simp at h
    · simp at h
    · simp at h
    · simp at h
  | harvest =>
    obtain ⟨r, -, ⟨g, tx, rx, h⟩ | h | ⟨h, -⟩ | h⟩ := ho <;> simp at h
  | einit =>
    obtain ⟨r, -, ⟨g, tx, rx, h⟩ | h | ⟨h, -⟩ | h⟩ := ho <;> simp at h

/-- The broadcast packets accepted in a log. -/
def numBroadcast (log : List Obs) : Nat :=
  log.countP (fun o => match o with | .accepted p => p.dst = bcast | _ => false)

/-- **C21 is violated**: in no history (with at most 65535 accepted packets) is any broadcast packet ever reported
as done; all of them stay in the queue, so at most `QueueLimit` broadcasts are ever accepted, and when
that number is reached every further packet (other than 64-byte ones) is refused. -/
theorem C21_broadcast_never_completes_violated (c : Cfg) (me : Mac48) (e0 : ℚ) (ops : List Op)
    (hn : numAccepted (after c me e0 ops).log ≤ 65535) :
    (∀ p, .accepted p ∈ (after c me e0 ops).log → p.dst = bcast →
      p ∈ (after c me e0 ops).queue ∧ ∀ ok, .done ok p ∉ (after c me e0 ops).log) ∧
    numBroadcast (after c me e0 ops).log ≤ c.queueLimit ∧
    (numBroadcast (after c me e0 ops).log = c.queueLimit →
      ∀ b d, b.size ≠ 64 → enqueue c me b d (after c me e0 ops) = (false, after c me e0 ops)) := by
  have h0 := after_inv0 c me e0 ops
  have key : ∀ (ops : List Op) (s : St), Inv0 s → Inv1 Acc me s → (run c me s ops).nextUid ≤ 65535 →
      (∀ ok p, .done ok p ∈ s.log → p.dst ≠ bcast) →
      ∀ ok p, .done ok p ∈ (run c me s ops).log → p.dst ≠ bcast := by
    intro ops
    induction ops with
    | nil => intro s _ _ _ h; exact h
    | cons o os ih =>
      intro s h0 h1 hw h
      have hw' : s.nextUid ≤ 65535 := (run_nextUid c me s (o :: os)).trans hw
      exact ih _ (h0.step c me o) (h1.step Acc.ok h0 hw' c o (CtsLic.acc h0 me o)) hw (bcast_queued h0 h1 hw' h o)
  have hdone := key ops (St.init e0) (Inv0.init e0) (Inv1.init me e0)
    (by rw [numAccepted_nextUid h0] at hn; exact hn) (by simp [St.init])
  have hall : ∀ p, .accepted p ∈ (after c me e0 ops).log → p.dst = bcast →
      p ∈ (after c me e0 ops).queue ∧ ∀ ok, .done ok p ∉ (after c me e0 ops).log := by
    intro p hp hb
    have hnd : ∀ ok, .done ok p ∉ (after c me e0 ops).log := fun ok h => hdone ok p h hb
    exact ⟨(unresolved_iff h0 p).mp ⟨hp, hnd⟩, hnd⟩
  have hq := (C11_queue_bounded c me e0 ops).1
  have hcount : numBroadcast (after c me e0 ops).log ≤ (after c me e0 ops).queue.length := by
    have e : numBroadcast (after c me e0 ops).log = ((accs (after c me e0 ops).log).filter (·.dst = bcast)).length := by
      unfold numBroadcast accs
      induction (after c me e0 ops).log with
      | nil => rfl
      | cons o l ih =>
        rw [List.countP_cons, List.filterMap_cons, ih]
        cases o with
        | accepted p => by_cases h : p.dst = bcast <;> simp [h]
        | _ => simp
    rw [e]
    refine ((h0.nodup.filter _).subperm ?_).length_le
    intro p hp
    obtain ⟨h1, h2⟩ := List.mem_filter.mp hp
    exact (hall p (mem_accs.mp h1) (by simpa using h2)).1
  refine ⟨hall, hcount.trans hq, ?_⟩
  intro e b d hsz
  unfold enqueue
  rw [if_neg hsz, if_pos (by omega)]

/-- `p` stands in front of `q` in the queue and is a broadcast. -/
def BlockedBy (q : Pkt) (s : St) : Prop := ∃ p ∈ s.queue, p.uid < q.uid ∧ p.dst = bcast

theorem block_ok (q : Pkt) : LicOK (fun s r => r ∈ accs s.log ∧
    (r = q → ¬ BlockedBy q s ∨ ∃ x ∈ accs s.log, x.uid < q.uid ∧ x.dst = q.dst)) where
  acc h := h.1
  same := by
    rintro s s' p ⟨h1, h2⟩ e1 e2
    refine ⟨e1 ▸ h1, fun e => ?_⟩
    unfold BlockedBy
    rw [e1, e2]
    exact h2 e
  sendDataDone := by
    rintro s p ⟨h1, h2⟩ h0 ok r
    have hl : accs (sendDataDone ok r s).log = accs s.log ∨ ∀ x ∈ accs s.log, x ∈ accs (sendDataDone ok r s).log :=
      Or.inr (by intro x hx; rw [sendDataDone_log, accs_append]; exact List.mem_append.mpr (Or.inr hx))
    have hl : ∀ x ∈ accs s.log, x ∈ accs (sendDataDone ok r s).log := by
      intro x hx; rw [sendDataDone_log, accs_append]; exact List.mem_append.mpr (Or.inr hx)
    refine ⟨hl _ h1, fun e => ?_⟩
    rcases h2 e with h | ⟨x, hx, h⟩
    · left
      rintro ⟨y, hy, h3⟩
      rw [h0.sendDataDone_queue'] at hy
      exact h ⟨y, List.mem_of_mem_filter hy, h3⟩
    · exact Or.inr ⟨x, hl x hx, h⟩
  accept := by
    rintro s p ⟨h1, h2⟩ h0 b d
    refine ⟨List.mem_cons_of_mem _ h1, fun e => ?_⟩
    rcases h2 e with h | ⟨x, hx, h⟩
    · left
      rintro ⟨y, hy, h3, h4⟩
      rcases List.mem_append.mp (show y ∈ s.queue ++ [newPkt s b d] from hy) with h5 | h5
      · exact h ⟨y, h5, h3, h4⟩
      · rw [List.mem_singleton.mp h5] at h3
        have := h0.mem_uid h1
        rw [e] at this
        simp only [newPkt] at h3
        omega
    · exact Or.inr ⟨x, List.mem_cons_of_mem _ hx, h⟩
  front := by
    intro s h0 p ps e
    refine ⟨h0.queue_acc (by rw [e]; exact List.mem_cons_self), fun e2 => Or.inl ?_⟩
    rintro ⟨y, hy, h3, -⟩
    have hl := (Lic.front h0 e)
    have hs := h0.qsort
    rw [e] at hs hy
    rcases List.mem_cons.mp hy with rfl | h5
    · rw [e2] at h3; omega
    · have := (List.pairwise_cons.mp hs).1 y h5
      rw [e2] at this
      omega
  next := by
    rintro s h0 hw p ⟨h1, h2⟩ hb t ht ok
    have h3 := List.find?_some ht
    simp only [decide_eq_true_eq] at h3
    have hta : t.pkt ∈ accs s.log := h0.queue_acc (h0.mem_pktTx (List.mem_of_find?_eq_some ht))
    have hl : ∀ x ∈ accs s.log, x ∈ accs (Nano.sendDataDone ok p s).log := by
      intro x hx; rw [sendDataDone_log, accs_append]; exact List.mem_append.mpr (Or.inr hx)
    refine ⟨⟨hl _ hta, fun e => Or.inr ⟨p, hl _ h1, ?_, ?_⟩⟩, h3.2 ▸ hb⟩
    · rw [← e]; exact (seq_lt_iff h0 hw h1 hta).mp h3.1
    · rw [← e]; exact h3.2.symm

/-- **C21 is violated** also in its second half: a unicast packet accepted after a broadcast, as the first packet for
its destination, is never put on the air, whatever happens afterwards. -/
theorem C21_broadcast_blocks_violated (c : Cfg) (me : Mac48) (e0 : ℚ) (ops : List Op)
    (hn : numAccepted (after c me e0 ops).log ≤ 65535) (hh : NoForgedCts c me e0 ops) (b q : Pkt)
    (hb : b.dst = bcast) (hbq : AcceptedBefore (after c me e0 ops).log b q)
    (hfirst : ∀ r, AcceptedBefore (after c me e0 ops).log r q → r.dst ≠ q.dst) :
    ¬ OnAir me (after c me e0 ops).log q := by
  intro ha
  have h0 := after_inv0 c me e0 ops
  obtain ⟨hb1, hq, hlt⟩ := acceptedBefore_uid h0 hbq
  have hbin := ((C21_broadcast_never_completes_violated c me e0 ops hn).1 b (mem_accs.mp hb1) hb).1
  have h1 := after_inv1L (block_ok q) hn hh
  rw [numAccepted_nextUid h0] at hn
  obtain ⟨-, hl⟩ := onAir_lic (block_ok q) h1 h0 hn hq ha
  rcases hl rfl with h | ⟨x, hx, hx1, hx2⟩
  · exact h ⟨b, hbin, hlt, hb⟩
  · exact hfirst x (uid_acceptedBefore h0 hx hq hx1) hx2

/-- The history of the finding: a broadcast, then a packet for B, then any amount of time and energy. -/
example :
    let s := after exCfg exA 1000 [.enqueue exBody bcast, .enqueue exBody exB, .harvest, .harvest]
    let b : Pkt := ⟨0, 1, bcast, exBody⟩
    let q : Pkt := ⟨1, 2, exB, exBody⟩
    AcceptedBefore s.log b q ∧ (∀ r, AcceptedBefore s.log r q → r.dst ≠ q.dst) ∧ OnAir exA s.log b := by
  have hlog : (after exCfg exA 1000 [.enqueue exBody bcast, .enqueue exBody exB, .harvest, .harvest]).log =
      [.tx ⟨.data, exA, bcast, 1, exBody⟩, .book true 117 17,
        .accepted ⟨1, 2, exB, exBody⟩, .tx ⟨.data, exA, bcast, 1, exBody⟩, .book true 117 17,
        .accepted ⟨0, 1, bcast, exBody⟩] := by decide +kernel
  have h0 := after_inv0 exCfg exA 1000 [.enqueue exBody bcast, .enqueue exBody exB, .harvest, .harvest]
  dsimp only
  refine ⟨⟨[.tx ⟨.data, exA, bcast, 1, exBody⟩, .book true 117 17], _, hlog, by simp⟩, ?_, ?_⟩
  · intro r hr
    obtain ⟨h1, -, h3⟩ := acceptedBefore_uid h0 hr
    rw [mem_accs, hlog] at h1
    simp only [List.mem_cons, reduceCtorEq, Obs.accepted.injEq, List.not_mem_nil, or_false, false_or] at h1
    rcases h1 with rfl | rfl
    · simp at h3
    · decide
  · rw [hlog]; exact Or.inr (by simp)

/-- **C21** (the part that holds).  A broadcast accepted into an empty queue, with the energy for its 17-byte header and
body and for 17 received bytes, is put on the air in the same step. -/
theorem C21_broadcast_sent_partial (c : Cfg) (me : Mac48) (e0 : ℚ) (ops : List Op) (b : Body)
    (hq : (after c me e0 ops).queue = []) (hsz : b.size ≠ 64) (hlim : 0 < c.queueLimit)
    (he : energyFor c.energy (b.size + 17 : ℕ) 17 ≤ (after c me e0 ops).energy) :
    .tx ⟨.data, me, bcast, UInt16.ofNat (numAccepted (after c me e0 ops).log + 1), b⟩ ∈
      (step c me (after c me e0 ops) (.enqueue b bcast)).log := by
  have h0 := after_inv0 c me e0 ops
  generalize after c me e0 ops = s at *
  have hpt : s.pktTx = [] := by
    have := h0.qmap
    rw [hq] at this
    simpa using this
  show _ ∈ (enqueue c me b bcast s).2.log
  unfold enqueue
  rw [if_neg hsz, if_neg (by rw [hq]; simpa using Nat.pos_iff_ne_zero.mp hlim)]
  dsimp only
  rw [if_neg (by simp [hpt])]
  have hseq : (newPkt s b bcast).seq = UInt16.ofNat (numAccepted s.log + 1) := by
    show s.sequence + 1 = _
    rw [h0.sequence, numAccepted_nextUid h0]; simp
  rw [← hseq]
  have hq1 : (accept s b bcast).queue = [newPkt s b bcast] := by
    show s.queue ++ [newPkt s b bcast] = _
    rw [hq]; rfl
  show _ ∈ (txFirstPacket c me (accept s b bcast)).log
  unfold txFirstPacket
  rw [hq1]
  dsimp only
  unfold checkResources
  rw [if_neg (fun h => h.1 rfl)]
  have hbk : ((accept s b bcast).book c (newPkt s b bcast).size 17).1 = true :=
    (C08_book_all_or_nothing c.energy s.energy ((b.size + 17 : ℕ) : ℚ) 17).1.mpr he
  dsimp only
  rw [if_pos hbk]
  unfold sendData
  rw [if_pos (show (newPkt s b bcast).dst = bcast from rfl)]
  exact List.mem_cons_self

/-- The hypotheses hold at the start with the default parameters. -/
example : (after exCfg exA 1000 []).queue = [] ∧ exBody.size ≠ 64 ∧ 0 < exCfg.queueLimit ∧
    energyFor exCfg.energy (exBody.size + 17 : ℕ) 17 ≤ (after exCfg exA 1000 []).energy := by
  refine ⟨rfl, by decide, by decide, ?_⟩
  decide +kernel

/-! ## C22 -/

/-- **C22 is violated**: with two destinations a node can end up with a queued packet, no scheduled event and
plenty of energy; only an outside stimulus can start it again.  (Default parameters; a packet for B, one for
C, the ACK for the first, and the expiry of the timer its second transmission left behind.) -/
theorem C22_stall_violated :
    ∃ (ops : List Op), (after exCfg exA 1000 ops).pend = [] ∧
      Unresolved (after exCfg exA 1000 ops).log ⟨1, 2, exC, exBody⟩ ∧
      (∀ p, .starved p ∉ (after exCfg exA 1000 ops).log) ∧
      energyFor exCfg.energy 117 17 * 10 ≤ (after exCfg exA 1000 ops).energy := by
  refine ⟨[.enqueue exBody exB, .enqueue exBody exC, .recv ⟨.ack, exB, exA, 1, ⟨0, 0⟩⟩ true, .fire 1], ?_, ?_, ?_, ?_⟩
  · decide +kernel
  · rw [unresolved_iff (after_inv0 _ _ _ _)]
    decide +kernel
  · have hlog : (after exCfg exA 1000 [.enqueue exBody exB, .enqueue exBody exC,
        .recv ⟨.ack, exB, exA, 1, ⟨0, 0⟩⟩ true, .fire 1]).log.all
          (fun o => match o with | .starved _ => false | _ => true) = true := by decide +kernel
    intro p hp
    have := List.all_eq_true.mp hlog _ hp
    simp at this
  · decide +kernel

/-- **C22** (the parts that hold, at most 65535 accepted packets and no forged CTS).  (1) A unicast packet that was put
on the air and has no outcome has an event pending, unless an attempt for it lacked energy.  (2) If all packets
so far went to one unicast destination, the oldest one without outcome has an event pending, unless an attempt for
it lacked energy; so with nothing pending and no such attempt the queue is empty. -/
theorem C22_no_stall_partial (c : Cfg) (me : Mac48) (e0 : ℚ) (ops : List Op)
    (hn : numAccepted (after c me e0 ops).log ≤ 65535) (hh : NoForgedCts c me e0 ops) :
    (∀ p, Unresolved (after c me e0 ops).log p → p.dst ≠ bcast → OnAir me (after c me e0 ops).log p →
      .starved p ∉ (after c me e0 ops).log → (after c me e0 ops).pend ≠ []) ∧
    (∀ d, d ≠ bcast → (∀ p, .accepted p ∈ (after c me e0 ops).log → p.dst = d) →
      (∀ p, .starved p ∉ (after c me e0 ops).log) → (after c me e0 ops).pend = [] →
      (after c me e0 ops).queue = []) := by
  have h0 := after_inv0 c me e0 ops
  have hw : (run c me (St.init e0) ops).nextUid ≤ 65535 := by
    rw [numAccepted_nextUid h0] at hn; exact hn
  have hpend : ∀ p, Pending (after c me e0 ops) p → (after c me e0 ops).pend ≠ [] := by
    rintro p hp hnil
    unfold Pending at hp
    rw [hnil] at hp
    simp at hp
  constructor
  · intro p hp hb ha hs
    have h3 := (Inv3.init me e0).run (Inv0.init e0) (Inv1.init me e0) (Tids.init e0) c ops hh.honest hw
    rcases h3.alive p ((unresolved_iff h0 p).mp hp) hb ha with h | h
    · exact hpend p h
    · exact absurd h hs
  · intro d hd hall hs hnil
    have h4 := FrontAlive.run (me := me) (s := St.init e0) (by rintro p ps ⟨⟩) (Inv0.init e0) (Inv1.init me e0)
      (Tids.init e0) c ops hh.honest hw hd hall
    cases hq : (after c me e0 ops).queue with
    | nil => rfl
    | cons p ps =>
      exfalso
      rcases h4 p ps hq with h | h
      · exact hpend p h hnil
      · exact hs p h

/-- A packet waiting for its ACK. -/
example :
    let s := after exCfg exA 1000 [.enqueue exBody exB]
    Unresolved s.log ⟨0, 1, exB, exBody⟩ ∧ OnAir exA s.log ⟨0, 1, exB, exBody⟩ ∧
      .starved ⟨0, 1, exB, exBody⟩ ∉ s.log := by
  have hlog : (after exCfg exA 1000 [.enqueue exBody exB]).log =
      [.tx ⟨.data, exA, exB, 1, exBody⟩, .book true 117 17, .accepted ⟨0, 1, exB, exBody⟩] := by decide +kernel
  dsimp only
  rw [hlog]
  exact ⟨⟨by simp, by simp⟩, Or.inr (by simp), by simp⟩

/-! ## C25 -/

/-- **C25 is violated** in general: with RTS on, a long `FrameLength` and no harvesting the node ends up with more energy
than it had: the DATA timeout returns reception energy for a whole frame although only the start was booked. -/
theorem C25_refund_exceeds_booking_violated :
    ∃ (c : Cfg) (ops : List Op), c.energy = EParams.default ∧ .harvest ∉ ops ∧ .einit ∉ ops ∧
      1000 < (after c exA 1000 ops).energy ∧
      booked c (after c exA 1000 ops).log < refunded c (after c exA 1000 ops).log := by
  refine ⟨⟨true, 1000, 5, 1000, EParams.default⟩, [.enqueue exBody exB, .fire 0], rfl, by simp, by simp, ?_, ?_⟩
  · decide +kernel
  · decide +kernel

/-- **C25** (the part that holds).  With RTS off, the reception of a byte not costing more than sending 17, and no CTS
arriving, the energy returned never exceeds the energy booked; so the store never holds more than its initial
content plus what was harvested, as long as the energy model is not initialised again. -/
theorem C25_refunds_bounded_partial (c : Cfg) (me : Mac48) (e0 : ℚ) (ops : List Op) (hc : c.energy.Sane)
    (hr : c.rts = false) (hp : c.energy.pulseRx ≤ 17 * (c.energy.weight * c.energy.pulseTx))
    (hno : ∀ f, .recv f true ∈ ops → f.kind = .cts → f.dst ≠ me) :
    refunded c (after c me e0 ops).log ≤ booked c (after c me e0 ops).log ∧
    (.einit ∉ ops → (after c me e0 ops).energy ≤ e0 + (ops.count .harvest : ℕ) * c.energy.harvest) := by
  have hch : Cheap c := ⟨hc, hr, hp⟩
  have hb := bal_run hch me (St.init e0) ops (by
    intro o ho
    cases o with
    | recv f ok =>
      rintro rfl hd hk
      exact hno f ho hk hd
    | _ => trivial)
  have hcr := credits_nonneg hc (after c me e0 ops).pend
  have e1 : bal c (St.init e0) = 0 := by simp [bal, St.init, booked, refunded, credits]
  have e2 : net c (St.init e0) = e0 := by simp [net, St.init, booked, refunded]
  rw [e1] at hb
  have h1 : refunded c (after c me e0 ops).log ≤ booked c (after c me e0 ops).log := by
    have hb' : 0 ≤ bal c (after c me e0 ops) := hb
    unfold bal at hb'
    linarith
  refine ⟨h1, fun hno2 => ?_⟩
  have hn := net_run c me (St.init e0) ops hno2
  rw [e2] at hn
  have hn' : net c (after c me e0 ops) = e0 + (ops.count .harvest : ℕ) * c.energy.harvest := by
    exact hn
  unfold net at hn'
  linarith

/-- The default parameters meet the hypotheses, and a timeout does refund energy. -/
example : exCfg.energy.pulseRx ≤ 17 * (exCfg.energy.weight * exCfg.energy.pulseTx) ∧
    0 < refunded exCfg (after exCfg exA 1000 [.enqueue exBody exB, .fire 0]).log := by
  decide +kernel

end Thz.Nano
