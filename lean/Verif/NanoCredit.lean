import Verif.NanoInv
import Verif.EnergyProps

/-!
# Energy ledger of the nano MAC (helper lemmas)
-/

namespace Thz.Nano

/-- Energy of the granted bookings in a log. -/
def booked (c : Cfg) : List Obs → ℚ
  | [] => 0
  | .book true tx rx :: l => energyFor c.energy tx rx + booked c l
  | _ :: l => booked c l

/-- Energy of the refunds in a log. -/
def refunded (c : Cfg) : List Obs → ℚ
  | [] => 0
  | .ret tx rx :: l => energyFor c.energy tx rx + refunded c l
  | _ :: l => refunded c l

/-- What the timer will refund if it expires. -/
def Ev.credit (c : Cfg) : Ev → ℚ
  | .ackTimeout _ => energyFor c.energy 0 18
  | .dataTimeout _ => energyFor c.energy 18 c.frameLength
  | .ctsTimeout _ => energyFor c.energy c.frameLength 36
  | .checkResources _ => 0

def credits (c : Cfg) : List (Nat × Ev) → ℚ
  | [] => 0
  | e :: l => e.2.credit c + credits c l

/-- Neither a granted booking nor a refund. -/
def Obs.free : Obs → Prop
  | .book true _ _ => False
  | .ret _ _ => False
  | _ => True

theorem booked_free (c : Cfg) {l l' : List Obs} (h : ∀ o ∈ l, o.free) :
    booked c (l ++ l') = booked c l' ∧ refunded c (l ++ l') = refunded c l' := by
  induction l with
  | nil => exact ⟨rfl, rfl⟩
  | cons o l ih =>
    obtain ⟨h1, h2⟩ := ih (fun o' ho' => h o' (List.mem_cons_of_mem _ ho'))
    have ho := h o List.mem_cons_self
    cases o with
    | book g tx rx =>
      cases g with
      | true => exact ho.elim
      | false => exact ⟨h1, h2⟩
    | ret tx rx => exact ho.elim
    | _ => exact ⟨h1, h2⟩

theorem credit_nonneg {c : Cfg} (hs : c.energy.Sane) (e : Ev) : 0 ≤ e.credit c := by
  have h : ∀ tx rx : ℚ, 0 ≤ tx → 0 ≤ rx → 0 ≤ energyFor c.energy tx rx := by
    intro tx rx h1 h2
    rw [← cost_eq]; exact cost_nonneg _ hs _ _ h1 h2
  cases e
  · exact h _ _ (by positivity) (by norm_num)
  · exact h _ _ (by norm_num) (by norm_num)
  · exact h _ _ (by norm_num) (by positivity)
  · exact le_refl _

theorem credits_append (c : Cfg) (l l' : List (Nat × Ev)) : credits c (l ++ l') = credits c l + credits c l' := by
  induction l with
  | nil => simp [credits]
  | cons e l ih => simp only [List.cons_append, credits, ih]; ring

theorem credits_filter {c : Cfg} (hs : c.energy.Sane) (P : Nat × Ev → Bool) (l : List (Nat × Ev)) :
    credits c (l.filter P) ≤ credits c l := by
  induction l with
  | nil => exact le_refl _
  | cons e l ih =>
    have := credit_nonneg hs e.2
    rw [List.filter_cons]
    split_ifs
    · simp only [credits]; linarith
    · simp only [credits]; linarith

theorem credits_remove {c : Cfg} (hs : c.energy.Sane) {P : Nat × Ev → Bool} {l : List (Nat × Ev)} {e}
    (he : e ∈ l) (hP : P e = false) : credits c (l.filter P) + e.2.credit c ≤ credits c l := by
  induction l with
  | nil => simp at he
  | cons x l ih =>
    rw [List.filter_cons]
    rcases List.mem_cons.mp he with rfl | h
    · rw [hP]
      have := credits_filter hs P l
      simp only [Bool.false_eq_true, if_false, credits]; linarith
    · have := ih h
      have := credit_nonneg hs x.2
      split_ifs
      · simp only [credits]; linarith
      · simp only [credits]; linarith

/-- Booked minus refunded minus what may still be refunded. -/
def bal (c : Cfg) (s : St) : ℚ := booked c s.log - refunded c s.log - credits c s.pend

/-- The energy store and the ledger agree: what is stored plus what was booked is what was refunded plus a constant. -/
def net (c : Cfg) (s : St) : ℚ := s.energy + booked c s.log - refunded c s.log

theorem bal_free {c : Cfg} {s s' : St} (h : Adds Obs.free s s') (hp : credits c s'.pend ≤ credits c s.pend) :
    bal c s ≤ bal c s' := by
  obtain ⟨new, e, hn⟩ := h
  unfold bal
  rw [e, (booked_free c hn).1, (booked_free c hn).2]
  linarith

theorem net_free {c : Cfg} {s s' : St} (h : Adds Obs.free s s') (hp : s'.energy = s.energy) :
    net c s' = net c s := by
  obtain ⟨new, e, hn⟩ := h
  unfold net
  rw [e, (booked_free c hn).1, (booked_free c hn).2, hp]

theorem bal_book {c : Cfg} (s : St) (tx rx : Nat) :
    bal c (s.book c tx rx).2 = bal c s + if (s.book c tx rx).1 = true then energyFor c.energy tx rx else 0 := by
  unfold bal St.book
  dsimp only [St.emit]
  cases h : (c.energy.book s.energy tx rx).1
  · simp [booked, refunded]
  · simp only [booked, refunded, if_true]; ring

theorem net_book {c : Cfg} (s : St) (tx rx : Nat) : net c (s.book c tx rx).2 = net c s := by
  have h := C08_book_all_or_nothing c.energy s.energy tx rx
  unfold net St.book
  dsimp only [St.emit]
  cases hb : (c.energy.book s.energy tx rx).1
  · simp only [booked, refunded, (h.2.2 hb).1]
  · simp only [booked, refunded, h.2.1 hb]; ring

theorem net_ret {c : Cfg} (s : St) (tx rx : Nat) : net c (s.ret c tx rx) = net c s := by
  unfold net St.ret EParams.ret
  dsimp only [St.emit]
  simp only [booked, refunded, cost_eq]; ring

theorem bal_ret {c : Cfg} (s : St) (tx rx : Nat) : bal c (s.ret c tx rx) = bal c s - energyFor c.energy tx rx := by
  unfold bal St.ret
  dsimp only [St.emit]
  simp only [booked, refunded]; ring

theorem bal_schedule {c : Cfg} (s : St) (e : Ev) : bal c (s.schedule e) = bal c s - e.credit c := by
  unfold bal St.schedule
  dsimp only
  rw [credits_append]
  simp only [credits]; ring

/-! ## The store -/

theorem net_sendData {c : Cfg} (me : Mac48) (p : Pkt) (s : St) : net c (sendData me p s) = net c s := by
  refine net_free ((sendData_adds me p s).mono ?_) ?_
  · rintro o rfl; trivial
  · unfold sendData; split_ifs <;> rfl

theorem net_checkResources {c : Cfg} (me : Mac48) (p : Pkt) (s : St) :
    net c (checkResources c me p s) = net c s := by
  unfold checkResources
  dsimp only
  split_ifs
  · rw [show net c (sendRts me p (s.book c (p.size + 18) (2 * 18)).2) = net c (s.book c (p.size + 18) (2 * 18)).2
      from net_free (Adds.one (o := .tx (rtsFrame me p)) rfl trivial) rfl, net_book]
  · rw [show net c ((s.book c (p.size + 18) (2 * 18)).2.emit (.starved p)) = net c (s.book c (p.size + 18) (2 * 18)).2
      from net_free (Adds.one (o := .starved p) rfl trivial) rfl, net_book]
  · rw [net_sendData, net_book]
  · rw [show net c ((s.book c p.size 17).2.emit (.starved p)) = net c (s.book c p.size 17).2
      from net_free (Adds.one (o := .starved p) rfl trivial) rfl, net_book]

theorem net_txFirstPacket {c : Cfg} (me : Mac48) (s : St) : net c (txFirstPacket c me s) = net c s := by
  unfold txFirstPacket
  split
  · rfl
  · exact net_checkResources me _ s

theorem sendDataDone_free (ok : Bool) (p : Pkt) (s : St) : Adds Obs.free s (sendDataDone ok p s) :=
  (sendDataDone_adds ok p s).mono (by rintro o ⟨t, -, -, rfl⟩; trivial)

theorem net_sendDataDone {c : Cfg} (ok : Bool) (p : Pkt) (s : St) : net c (sendDataDone ok p s) = net c s :=
  net_free (sendDataDone_free ok p s) (sendDataDone_rest ok p s).2.2.2.2.1

theorem net_retryOrDiscard {c : Cfg} (q : UInt16) (g : Pkt → Pkt) (s : St) :
    net c (retryOrDiscard c q g s) = net c s := by
  unfold retryOrDiscard
  split
  · rfl
  · dsimp only
    split_ifs
    · rw [net_sendDataDone]; rfl
    · exact net_free (Adds.one (o := .backoff _) rfl trivial) rfl

theorem net_filterUp {c : Cfg} (f : Frame) (s : St) : net c (filterUp f s) = net c s := by
  unfold filterUp
  dsimp only
  split_ifs
  · exact net_free (Adds.one (o := .up f.body f.src f.dst f.seq) rfl trivial) rfl
  · rfl

theorem net_acceptData {c : Cfg} (me : Mac48) (f : Frame) (s : St) : net c (acceptData me f s) = net c s := by
  unfold acceptData
  rw [net_filterUp]
  have h1 : (clearData f.seq s).log = s.log ∧ (clearData f.seq s).energy = s.energy := by
    unfold clearData; split <;> exact ⟨rfl, rfl⟩
  refine net_free (Adds.one (o := .tx ⟨.ack, me, f.src, f.seq, ⟨0, 0⟩⟩) ?_ trivial) h1.2
  show _ :: (clearData f.seq s).log = _
  rw [h1.1]

/-- Energy enters the store only by harvesting, bookings and refunds, unless the energy model is initialised again. -/
theorem net_step (c : Cfg) (me : Mac48) (s : St) (op : Op) (hno : op ≠ .einit) :
    net c (step c me s op) = net c s + if op = .harvest then c.energy.harvest else 0 := by
  cases op with
  | enqueue b d =>
    rw [if_neg (by simp), add_zero]
    show net c (enqueue c me b d s).2 = _
    have ha : net c (accept s b d) = net c s := net_free (Adds.one (o := .accepted (newPkt s b d)) rfl trivial) rfl
    rcases enqueue_cases c me b d s with e | ⟨⟨e, -⟩, -⟩ | ⟨⟨e, -⟩, -⟩
    · rw [e]
    · rw [e, ha]
    · rw [e, net_txFirstPacket, ha]
  | recv f ok =>
    rw [if_neg (by simp), add_zero]
    show net c (receivePacketDone c me f ok s) = _
    unfold receivePacketDone
    split_ifs
    · rfl
    · split
      · unfold receiveRts
        dsimp only
        split_ifs
        · exact net_book s 0 f.size
        · rw [← net_book s 0 f.size, ← net_book (s.book c 0 f.size).2 (2 * f.size) c.frameLength]
          exact net_free (Adds.one (o := .tx ⟨.cts, me, f.src, f.seq, ⟨0, 0⟩⟩) rfl trivial) rfl
        · rw [net_book, net_book]
      · unfold receiveCts answerCts
        have h1 : net c (clearCts f.seq s) = net c s := by
          unfold clearCts
          split <;> rfl
        split_ifs
        · rfl
        · split
          · rw [net_sendData, h1]
          · exact h1
      · unfold receiveData
        dsimp only
        split_ifs
        · exact net_filterUp f s
        · rfl
        · rw [net_acceptData, net_book]
        · exact net_book s 18 f.body.size
        · exact net_acceptData me f s
      · unfold receiveAck
        split_ifs
        · split
          · rename_i a _
            exact net_sendDataDone true a.pkt (s.cancel a.tid)
          · rfl
        · rfl
      · rfl
  | fire tid =>
    rw [if_neg (by simp), add_zero]
    show net c (fire c me tid s) = _
    unfold fire
    split
    · rename_i e he
      obtain ⟨i, ev⟩ := e
      cases ev with
      | ctsTimeout p =>
        show net c (ctsTimeout c p _) = _
        rw [ctsTimeout_eq, net_retryOrDiscard]
        exact net_ret ((St.emit { s with pend := s.pend.filter (fun e => e.1 ≠ tid) } (.timeout p.seq))) _ _
      | ackTimeout q =>
        show net c (ackTimeout c q _) = _
        rw [ackTimeout_eq, net_retryOrDiscard]
        exact net_ret ((St.emit { s with pend := s.pend.filter (fun e => e.1 ≠ tid) } (.timeout q))) _ _
      | dataTimeout q => exact net_ret { s with pend := s.pend.filter (fun e => e.1 ≠ tid) } _ _
      | checkResources p => exact net_checkResources me p _
    · rfl
  | harvest =>
    rw [if_pos rfl]
    have h1 : net c { s with energy := (c.energy.harvestStep s.energy).2 } = net c s + c.energy.harvest := by
      unfold net EParams.harvestStep
      dsimp only
      ring
    show net c (harvest c me s) = _
    unfold harvest
    dsimp only
    split_ifs
    · rw [net_txFirstPacket, h1]
    · exact h1
  | einit => exact absurd rfl hno

/-! ## Refunds are covered by bookings, without RTS -/

/-- The assumptions of the partial result: RTS is off, receiving a bit is not much more expensive than sending one. -/
structure Cheap (c : Cfg) : Prop where
  sane : c.energy.Sane
  rts : c.rts = false
  rx : c.energy.pulseRx ≤ 17 * (c.energy.weight * c.energy.pulseTx)

theorem bal_checkResources {c : Cfg} (h : Cheap c) (me : Mac48) (p : Pkt) (s : St) :
    bal c s ≤ bal c (checkResources c me p s) := by
  have hsz : (17 : ℚ) ≤ p.size := by
    have : 17 ≤ p.size := by unfold Pkt.size; omega
    exact_mod_cast this
  have hw : 0 ≤ c.energy.weight * c.energy.pulseTx := mul_nonneg h.sane.weight h.sane.pulseTx
  have hx := h.sane.pulseRx
  have hb := bal_book (c := c) s p.size 17
  unfold checkResources
  rw [if_neg (by simp [h.rts])]
  dsimp only
  split_ifs with hg
  · rw [if_pos hg] at hb
    unfold sendData
    split_ifs
    · refine le_trans ?_ (bal_free (s := (s.book c p.size 17).2) (Adds.one rfl trivial) (le_refl _))
      rw [hb]
      unfold energyFor
      have : (0:ℚ) ≤ 8 * p.size * (c.energy.weight * c.energy.pulseTx) := by positivity
      have : (0:ℚ) ≤ 8 * 17 * c.energy.pulseRx := by positivity
      push_cast
      linarith
    · have e : bal c (((s.book c p.size 17).2.emit (.tx ⟨.data, me, p.dst, p.seq, p.body⟩)).schedule
          (.ackTimeout p.seq)) = bal c (s.book c p.size 17).2 - energyFor c.energy 0 18 := by
        rw [bal_schedule]
        rfl
      show bal c s ≤ bal c (((s.book c p.size 17).2.emit (.tx ⟨.data, me, p.dst, p.seq, p.body⟩)).schedule
          (.ackTimeout p.seq))
      rw [e, hb]
      unfold energyFor
      have h1 := h.rx
      have h2 := mul_le_mul_of_nonneg_right hsz hw
      push_cast
      linarith
  · rw [if_neg hg, add_zero] at hb
    rw [← hb]
    exact bal_free (Adds.one rfl trivial) (le_refl _)

theorem bal_txFirstPacket {c : Cfg} (h : Cheap c) (me : Mac48) (s : St) :
    bal c s ≤ bal c (txFirstPacket c me s) := by
  unfold txFirstPacket
  split
  · exact le_refl _
  · exact bal_checkResources h me _ s

theorem bal_sendDataDone {c : Cfg} (ok : Bool) (p : Pkt) (s : St) : bal c s ≤ bal c (sendDataDone ok p s) := by
  refine bal_free (sendDataDone_free ok p s) ?_
  rw [(sendDataDone_rest ok p s).1]
  unfold startNext
  split
  · show credits c (s.pend ++ [_]) ≤ _
    rw [credits_append]
    simp [credits, Ev.credit]
  · exact le_refl _

theorem bal_retryOrDiscard {c : Cfg} (q : UInt16) (g : Pkt → Pkt) (s : St) :
    bal c s ≤ bal c (retryOrDiscard c q g s) := by
  unfold retryOrDiscard
  split
  · exact le_refl _
  · dsimp only
    split_ifs
    · exact bal_sendDataDone false _ { s with pktTx := bumpRetry q s.pktTx }
    · refine bal_free (Adds.one (o := .backoff _) rfl trivial) ?_
      show credits c (s.pend ++ [_]) ≤ _
      rw [credits_append]
      simp [credits, Ev.credit]

theorem bal_filterUp {c : Cfg} (f : Frame) (s : St) : bal c s ≤ bal c (filterUp f s) := by
  unfold filterUp
  dsimp only
  split_ifs
  · exact bal_free (Adds.one (o := .up f.body f.src f.dst f.seq) rfl trivial) (le_refl _)
  · exact le_refl _

theorem bal_acceptData {c : Cfg} (h : Cheap c) (me : Mac48) (f : Frame) (s : St) :
    bal c s ≤ bal c (acceptData me f s) := by
  unfold acceptData
  refine le_trans ?_ (bal_filterUp f _)
  have h1 : (clearData f.seq s).log = s.log ∧ credits c (clearData f.seq s).pend ≤ credits c s.pend := by
    unfold clearData
    split
    · exact ⟨rfl, credits_filter h.sane _ _⟩
    · exact ⟨rfl, le_refl _⟩
  refine bal_free (Adds.one (o := .tx ⟨.ack, me, f.src, f.seq, ⟨0, 0⟩⟩) ?_ trivial) h1.2
  show _ :: (clearData f.seq s).log = _
  rw [h1.1]

theorem bal_book_le {c : Cfg} (h : Cheap c) (s : St) (tx rx : Nat) : bal c s ≤ bal c (s.book c tx rx).2 := by
  rw [bal_book]
  have : 0 ≤ energyFor c.energy tx rx := by
    rw [← cost_eq]; exact cost_nonneg _ h.sane _ _ (by positivity) (by positivity)
  split_ifs <;> linarith

/-- No intact CTS for this node arrives (it sends no RTS). -/
def NoCts (me : Mac48) : Op → Prop
  | .recv f ok => ok = true → f.dst = me → f.kind ≠ .cts
  | _ => True

theorem bal_step {c : Cfg} (h : Cheap c) (me : Mac48) (s : St) (op : Op) (hop : NoCts me op) :
    bal c s ≤ bal c (step c me s op) := by
  cases op with
  | enqueue b d =>
    show bal c s ≤ bal c (enqueue c me b d s).2
    have ha : bal c s ≤ bal c (accept s b d) :=
      bal_free (Adds.one (o := .accepted (newPkt s b d)) rfl trivial) (le_refl _)
    rcases enqueue_cases c me b d s with e | ⟨⟨e, -⟩, -⟩ | ⟨⟨e, -⟩, -⟩
    · rw [e]
    · rw [e]; exact ha
    · rw [e]; exact ha.trans (bal_txFirstPacket h me _)
  | recv f ok =>
    show bal c s ≤ bal c (receivePacketDone c me f ok s)
    unfold receivePacketDone
    split_ifs with hok
    · exact le_refl _
    · cases hk : f.kind with
      | rts =>
        dsimp only
        unfold receiveRts
        dsimp only
        split_ifs with h1 h2
        · exact bal_book_le h s 0 f.size
        · refine (bal_book_le h s 0 f.size).trans ?_
          have hb := bal_book (c := c) (s.book c 0 f.size).2 (2 * f.size) c.frameLength
          rw [if_pos h2] at hb
          have e : bal c (((s.book c 0 f.size).2.book c (2 * f.size) c.frameLength).2.schedule
              (.dataTimeout f.seq)) = bal c ((s.book c 0 f.size).2.book c (2 * f.size) c.frameLength).2 -
              energyFor c.energy 18 c.frameLength := by
            rw [bal_schedule]; rfl
          refine le_trans ?_ (bal_free (s := (((s.book c 0 f.size).2.book c (2 * f.size) c.frameLength).2.schedule
              (.dataTimeout f.seq))) (Adds.one (o := .tx ⟨.cts, me, f.src, f.seq, ⟨0, 0⟩⟩) rfl trivial) (le_refl _))
          rw [e, hb]
          have hsz : (18 : ℚ) ≤ f.size := by
            have : 18 ≤ f.size := by unfold Frame.size; rw [hk]; simp [Kind.hdrSize]
            exact_mod_cast this
          have hw : 0 ≤ c.energy.weight * c.energy.pulseTx := mul_nonneg h.sane.weight h.sane.pulseTx
          unfold energyFor
          push_cast
          nlinarith
        · exact (bal_book_le h s 0 f.size).trans (bal_book_le h _ _ _)
      | cts =>
        dsimp only
        unfold receiveCts
        split_ifs with hd
        · exact le_refl _
        · exact absurd hk (hop (by simpa using hok) (not_not.mp hd))
      | data =>
        dsimp only
        unfold receiveData
        dsimp only
        split_ifs
        · exact bal_filterUp f s
        · exact le_refl _
        · exact (bal_book_le h s _ _).trans (bal_acceptData h me f _)
        · exact bal_book_le h s _ _
        · exact bal_acceptData h me f s
      | ack =>
        dsimp only
        unfold receiveAck
        split_ifs
        · split
          · rename_i a _
            have h1 : bal c s ≤ bal c (s.cancel a.tid) := bal_free (Adds.of_eq rfl) (credits_filter h.sane _ _)
            exact h1.trans (bal_sendDataDone true a.pkt _)
          · exact le_refl _
        · exact le_refl _
      | cta => exact le_refl _
  | fire tid =>
    show bal c s ≤ bal c (fire c me tid s)
    unfold fire
    split
    · rename_i e he
      obtain ⟨i, ev⟩ := e
      have hm := List.mem_of_find?_eq_some he
      have hi : i = tid := by simpa using List.find?_some he
      have hrem := credits_remove (c := c) h.sane (P := fun e => decide (e.1 ≠ tid)) hm (by simp [hi])
      dsimp only at hrem
      have hb : bal c s + ev.credit c ≤ bal c { s with pend := s.pend.filter (fun e => e.1 ≠ tid) } := by
        unfold bal
        dsimp only
        linarith
      cases ev with
      | ctsTimeout p =>
        show _ ≤ bal c (ctsTimeout c p _)
        rw [ctsTimeout_eq]
        refine le_trans ?_ (bal_retryOrDiscard _ _ _)
        have e : bal c (ctsPre c p { s with pend := s.pend.filter (fun e => e.1 ≠ tid) }) =
            bal c (({ s with pend := s.pend.filter (fun e => e.1 ≠ tid) }.emit (.timeout p.seq)).ret c
              c.frameLength (2 * 18)) := rfl
        rw [e, bal_ret]
        have e2 : bal c ({ s with pend := s.pend.filter (fun e => e.1 ≠ tid) }.emit (.timeout p.seq)) =
            bal c { s with pend := s.pend.filter (fun e => e.1 ≠ tid) } := rfl
        rw [e2]
        simp only [Ev.credit] at hb
        have h36 : ((2 * 18 : ℕ) : ℚ) = 36 := by norm_num
        rw [h36]
        linarith
      | ackTimeout q =>
        show _ ≤ bal c (ackTimeout c q _)
        rw [ackTimeout_eq]
        refine le_trans ?_ (bal_retryOrDiscard _ _ _)
        have e : bal c (ackPre c q { s with pend := s.pend.filter (fun e => e.1 ≠ tid) }) =
            bal c (({ s with pend := s.pend.filter (fun e => e.1 ≠ tid) }.emit (.timeout q)).ret c 0 18) := rfl
        rw [e, bal_ret]
        have e2 : bal c ({ s with pend := s.pend.filter (fun e => e.1 ≠ tid) }.emit (.timeout q)) =
            bal c { s with pend := s.pend.filter (fun e => e.1 ≠ tid) } := rfl
        rw [e2]
        simp only [Ev.credit] at hb
        push_cast
        linarith
      | dataTimeout q =>
        have e : bal c (dataTimeout c q { s with pend := s.pend.filter (fun e => e.1 ≠ tid) }) =
            bal c ({ s with pend := s.pend.filter (fun e => e.1 ≠ tid) }.ret c 18 c.frameLength) := rfl
        show _ ≤ bal c (dataTimeout c q _)
        rw [e, bal_ret]
        simp only [Ev.credit] at hb
        push_cast
        linarith
      | checkResources p =>
        simp only [Ev.credit, add_zero] at hb
        exact hb.trans (bal_checkResources h me p _)
    · exact le_refl _
  | harvest =>
    show bal c s ≤ bal c (harvest c me s)
    unfold harvest
    dsimp only
    split_ifs
    · exact bal_txFirstPacket h me { s with energy := (c.energy.harvestStep s.energy).2 }
    · exact le_refl _
  | einit =>
    show bal c s ≤ bal c (energyInit c me s)
    unfold energyInit harvest
    dsimp only
    split_ifs
    · exact bal_txFirstPacket h me { s with energy := (c.energy.harvestStep c.energy.initial).2 }
    · exact le_refl _

theorem credits_nonneg {c : Cfg} (hs : c.energy.Sane) (l : List (Nat × Ev)) : 0 ≤ credits c l := by
  induction l with
  | nil => exact le_refl _
  | cons e l ih =>
    have := credit_nonneg hs e.2
    simp only [credits]; linarith

theorem bal_run {c : Cfg} (h : Cheap c) (me : Mac48) (s : St) (ops : List Op) (hops : ∀ o ∈ ops, NoCts me o) :
    bal c s ≤ bal c (run c me s ops) := by
  induction ops generalizing s with
  | nil => exact le_refl _
  | cons o os ih =>
    exact (bal_step h me s o (hops o List.mem_cons_self)).trans
      (ih _ (fun o' ho' => hops o' (List.mem_cons_of_mem _ ho')))

theorem net_run (c : Cfg) (me : Mac48) (s : St) (ops : List Op) (hno : .einit ∉ ops) :
    net c (run c me s ops) = net c s + ops.count .harvest * c.energy.harvest := by
  induction ops generalizing s with
  | nil => simp [run]
  | cons o os ih =>
    show net c (run c me (step c me s o) os) = _
    rw [ih _ (fun h => hno (List.mem_cons_of_mem _ h)), net_step c me s o (fun h => hno (by rw [h]; exact List.mem_cons_self)), List.count_cons]
    by_cases ho : o = .harvest
    · simp [ho]; ring
    · simp [ho]

end Thz.Nano
