import Verif.ClientMicro

/-! # Every step of the client is a sequence of micro-steps -/

namespace Thz.Client

open Thz Thz.Central
open Thz.Nano (Body Kind bcast)

variable {c : Cfg} {me : Mac48} {T : Prop} {K : Ev → Prop}

theorem v_emit (s : St) (o : Obs) : (s.emit o).v = s.v.note o := rfl
theorem v_sched (s : St) (d : ℤ) (e : Ev) : (s.sched d e).v = s.v.push d e := rfl
theorem v_cancel (s : St) (t : Nat) : (s.cancel t).v = s.v.drop t := rfl

/-- `SendPacket` either hands the frame over, or changes nothing but the log. -/
theorem v_sendPacket (f : Frame) (m : Nat) (s : St) :
    ((sendPacket c f m s).1 = true ∧ s.phyTx = none ∧ (sendPacket c f m s).2.v = s.v.hand (c.frameDur f m) f) ∨
    ((sendPacket c f m s).1 = false ∧ Mis c me T K s.v (sendPacket c f m s).2.v) := by
  unfold sendPacket
  split
  · split
    · rename_i h
      exact .inl ⟨rfl, Option.isNone_iff_eq_none.1 h, rfl⟩
    · exact .inr ⟨rfl, Mis.one (.note s.v (.refused f) trivial)⟩
  · exact .inr ⟨rfl, Mis.one (.note s.v (.blocked f) trivial)⟩

theorem mis_handRts (f : Frame) (s : St) (hk : f.kind = .rts) (hw : HandWhy c me T s.log s.now f) :
    Mis c me T K s.v (sendPacket c f 0 s).2.v := by
  rcases v_sendPacket (c := c) (me := me) (T := T) (K := K) f 0 s with ⟨_, h2, h3⟩ | ⟨_, h2⟩
  · rw [h3]; exact Mis.one (.handRts s.v _ f hk hw h2)
  · exact h2

theorem mis_sendRts (p : Pkt) (s : St)
    (hw : ∀ id, HandWhy c me T s.log s.now (rtsFrame me id p)) : Mis c me T K s.v (sendRts c me p s).v :=
  mis_handRts (c := c) (rtsFrame me s.nextId p) { s with nextId := s.nextId + 1 } rfl (hw _)

theorem mis_sendData (p : Pkt) (m : Nat) (s : St)
    (hw : p.dst ≠ bcast → HandWhy c me T s.log s.now (dataFrame me p)) :
    Mis c me T K s.v (sendData c me p m s).v := by
  unfold sendData
  dsimp only
  split
  · exact .refl
  · rename_i hb
    rcases v_sendPacket (c := c) (me := me) (T := T) (K := K) (dataFrame me p) m { s with state := .waitTx }
      with ⟨h1, h2, h3⟩ | ⟨h1, h2⟩
    · split
      · rename_i s' e
        rw [e] at h3
        refine Mis.one ?_
        have h6 : s'.nextTid = s.nextTid + 1 := congrArg V.nextTid h3
        have h7 : s'.ackTO = s.ackTO := congrArg V.ackTO h3
        convert Mi.handData (c := c) (me := me) (T := T) (K := K) s.v (c.frameDur (dataFrame me p) m) (ackTimeoutDur c s') p
          (hw hb) h2 using 1
        have h8 : ({ s'.sched (ackTimeoutDur c s') (.ackTimeout p.seq) with
            ackTO := s'.ackTO ++ [⟨p.seq, s'.nextTid⟩] } : St).v
            = { s'.v.push (ackTimeoutDur c s') (.ackTimeout p.seq) with
                ackTO := s'.ackTO ++ [⟨p.seq, s'.nextTid⟩] } := rfl
        rw [h8, h3, h6, h7]
        rfl
      · rename_i s' e
        rw [e] at h1; cases h1
    · split
      · rename_i s' e
        rw [e] at h1; cases h1
      · rename_i s' e
        rw [e] at h2
        exact h2

/-! ## Completion and timeouts -/

theorem mis_doneLoop (ok : Bool) (q : UInt16) : ∀ (rest pre : List Rec) (s : St), DoneWhy me s.log ok q →
    Mis c me T K { s.v with recs := pre ++ rest } (doneLoop ok q pre rest s).v
  | [], pre, s, _ => by
    unfold doneLoop
    rw [List.append_nil]; exact .refl
  | r :: rest, pre, s, hw => by
    unfold doneLoop
    split
    · rename_i hq
      split
      · exact .refl
      · rename_i hne
        have h1 : Mi c me T K { s.v with recs := pre ++ r :: rest }
            { (settle ok r s).v with recs := pre ++ rest } := by
          have := Mi.settle (c := c) (me := me) (T := T) (K := K) { s.v with recs := pre ++ r :: rest } ok pre r rest rfl
            (hq ▸ hw) (fun ho he => hne ⟨ho, he⟩)
          convert this using 1
          unfold settle
          cases ok <;> rfl
        match rest with
        | [] => dsimp only; rw [List.append_nil] at h1; exact Mis.one h1
        | r' :: rest' =>
          dsimp only
          have hl : (settle ok r s).log = s.log ++ [.done ok r.pkt] := by unfold settle; cases ok <;> rfl
          have := mis_doneLoop ok q rest' (pre ++ [r']) (settle ok r s) (hl ▸ hw.mono _)
          rw [List.append_assoc] at this
          exact (Mis.one h1).trans this
    · have := mis_doneLoop ok q rest (pre ++ [r]) s hw
      rw [List.append_assoc] at this
      exact this

theorem mis_sendDataDone (ok : Bool) (q : UInt16) (s : St) (hw : DoneWhy me s.log ok q) :
    Mis c me T K s.v (sendDataDone ok q s).v := mis_doneLoop ok q s.recs [] s hw

theorem mis_results (s : St) : Mis c me T K s.v (resultsRecord s).v := by
  unfold resultsRecord
  split
  · exact .refl
  · exact Mis.one (.note s.v _ trivial)

theorem mi_charge (limit : UInt16) (hlim : limit = c.rtsRetryLimit ∨ limit = c.dataRetryLimit)
    (pre : List Rec) (r : Rec) (rest : List Rec) (s : St) (hpre : ∀ x ∈ pre, x.pkt.seq ≠ r.pkt.seq)
    (ht : Tried c me s.log r.pkt.seq) :
    Mi c me T K { s.v with recs := pre ++ r :: rest }
      { (charge c limit r s).2.v with recs := pre ++ (charge c limit r s).1 :: rest } := by
  unfold charge
  dsimp only
  split
  · rename_i h
    exact Mi.giveUp (c := c) (me := me) (T := T) (K := K) { s.v with recs := pre ++ r :: rest } limit pre r rest rfl
      hpre hlim h ht
  · rename_i h
    exact Mi.charge (c := c) (me := me) (T := T) (K := K) { s.v with recs := pre ++ r :: rest } limit s.rngIdx pre r
      rest rfl hpre h ht

theorem snoc_ne {pre : List Rec} {r : Rec} {q : UInt16} (h : ∀ x ∈ pre, x.pkt.seq ≠ q) (hr : r.pkt.seq ≠ q) :
    ∀ x ∈ pre ++ [r], x.pkt.seq ≠ q := by
  intro x hx
  rcases List.mem_append.1 hx with hx | hx
  · exact h x hx
  · rw [List.mem_singleton.1 hx]; exact hr

theorem mis_chargeLoop (limit q : UInt16) (hlim : limit = c.rtsRetryLimit ∨ limit = c.dataRetryLimit) :
    ∀ (rest pre : List Rec) (s : St), (∀ x ∈ pre, x.pkt.seq ≠ q) → Tried c me s.log q →
    Mis c me T K { s.v with recs := pre ++ rest } (chargeLoop c limit q pre rest s).v
  | [], pre, s, _, _ => by
    unfold chargeLoop
    rw [List.append_nil]; exact .refl
  | r :: rest, pre, s, hp, ht => by
    unfold chargeLoop
    split
    · rename_i hq
      exact Mis.one (mi_charge limit hlim pre r rest s (hq ▸ hp) (hq ▸ ht))
    · rename_i hq
      have := mis_chargeLoop limit q hlim rest (pre ++ [r]) s (snoc_ne hp hq) ht
      rw [List.append_assoc] at this
      exact this

theorem charge_pkt (limit : UInt16) (r : Rec) (s : St) : (charge c limit r s).1.pkt = r.pkt := by
  unfold charge; dsimp only; split <;> rfl

theorem chargeLoop_pkts (limit q : UInt16) : ∀ (rest pre : List Rec) (s : St),
    (chargeLoop c limit q pre rest s).recs.map (·.pkt) = (pre ++ rest).map (·.pkt)
  | [], pre, s => by unfold chargeLoop; rw [List.append_nil]
  | r :: rest, pre, s => by
    unfold chargeLoop
    split
    · exact pkts_congr (charge_pkt _ _ _)
    · rw [chargeLoop_pkts limit q rest (pre ++ [r]) s, List.append_assoc]; rfl

/-- The charge loop changes neither the time nor the sector. -/
theorem chargeLoop_now (limit q : UInt16) : ∀ (rest pre : List Rec) (s : St),
    (chargeLoop c limit q pre rest s).now = s.now ∧ (chargeLoop c limit q pre rest s).sector = s.sector
  | [], pre, s => ⟨rfl, rfl⟩
  | r :: rest, pre, s => by
    unfold chargeLoop
    split
    · unfold charge; dsimp only; split <;> exact ⟨rfl, rfl⟩
    · exact chargeLoop_now limit q rest (pre ++ [r]) s

theorem mis_ctsTimeout (q : UInt16) (s : St) (ht : Tried c me s.log q) : Mis c me T K s.v (ctsTimeout c q s).v := by
  unfold ctsTimeout
  have h := mis_chargeLoop (T := T) (K := K) (c := c) (me := me) c.rtsRetryLimit q (.inl rfl) s.recs []
    { s with state := .idle } (by simp) ht
  dsimp only
  split <;> exact h

theorem ctsTimeout_pkts (q : UInt16) (s : St) :
    (ctsTimeout c q s).recs.map (·.pkt) = s.recs.map (·.pkt) ∧ (ctsTimeout c q s).now = s.now ∧
    (ctsTimeout c q s).sector = s.sector := by
  unfold ctsTimeout
  dsimp only
  have h1 := chargeLoop_pkts (c := c) c.rtsRetryLimit q s.recs [] { s with state := .idle }
  have h2 := chargeLoop_now (c := c) c.rtsRetryLimit q s.recs [] { s with state := .idle }
  split <;> exact ⟨h1, h2⟩

theorem mis_ackTimeout (q : UInt16) (s : St) (ht : Tried c me s.log q) : Mis c me T K s.v (ackTimeout c q s).v := by
  unfold ackTimeout
  exact (Mis.one (.eraseAck s.v q)).trans
    (mis_chargeLoop (T := T) (K := K) (c := c) (me := me) c.dataRetryLimit q (.inr rfl) s.recs []
      { s with state := .idle, ackTO := s.ackTO.eraseP (fun t => t.seq = q) } (by simp) ht)

theorem mis_tickLoop : ∀ (rest pre : List Rec) (s : St), (∀ x ∈ pre, x.pkt.seq ≠ s.backoffSeq) →
    s.backoffActive = true →
    Mis c me T K { s.v with recs := pre ++ rest } (tickLoop s.backoffSeq pre rest s).v
  | [], pre, s, _, _ => by unfold tickLoop; rw [List.append_nil]; exact .refl
  | r :: rest, pre, s, hp, ha => by
    unfold tickLoop
    split
    · rename_i hq
      exact Mis.one (.life { s.v with recs := pre ++ r :: rest } pre r rest rfl (hq ▸ hp) hq.symm ha)
    · rename_i hq
      have := mis_tickLoop rest (pre ++ [r]) s (snoc_ne hp hq) ha
      rw [List.append_assoc] at this
      exact this

theorem mis_decreaseBackoff (s : St) (ha : s.backoffActive = true) : Mis c me T K s.v (decreaseBackoff s).v :=
  mis_tickLoop s.recs [] s (by simp) ha

/-! ## Reception -/

theorem drawSlot_spec (i : Nat) : ∃ k : Nat, c.drawSlot i = k ∧ 1 ≤ k ∧ k ≤ max 1 c.boSlots := by
  refine ⟨1 + c.rng i % max 1 c.boSlots, rfl, by omega, ?_⟩
  have := Nat.mod_lt (c.rng i) (show 0 < max 1 c.boSlots by omega)
  omega

/-- Contending: the CTA `f` came at the end of `l1`, the first record's packet was the oldest unsettled one then. -/
theorem mis_contend (f : Frame) (s : St) (l1 l2 : List Obs) (hl : s.log = l1 ++ Obs.rx s.now f :: l2)
    (hw : c.ways = 3) (hk : f.kind = .cta) (hf : f.flags ≠ 1) (hn : ¬ IsFeedback c me f)
    (hs : s.sector = assigned c me l1) (ho : ∀ r rest, s.recs = r :: rest → Oldest l1 r.pkt) :
    Mis c me T K s.v (contend c f s).v := by
  unfold contend
  dsimp only
  split
  · rename_i ha; exact mis_decreaseBackoff s ha
  · split
    · exact .refl
    · rename_i hsec
      split
      · exact .refl
      · rename_i r rest hrec
        obtain ⟨k, hk1, hk2, hk3⟩ := drawSlot_spec (c := c) s.rngIdx
        refine Mis.one (Mi.planRts (c := c) (me := me) (T := T) (K := K) s.v (c.slotTime * c.drawSlot s.rngIdx) r.pkt ?_)
        refine ⟨l1, s.now, f, l2, k, hl, hw, hk, hf, hn, ?_, ho r rest hrec, hk2, hk3, ?_⟩
        · rw [← hs]
          by_cases h : s.sector = none
          · exact .inl h
          · by_cases h' : s.sector = some f.sector
            · exact .inr h'
            · exact absurd ⟨h, h'⟩ hsec
        · show s.now + _ = _; rw [hk1]

/-- A CTA in place of the expected CTS: the timeout, then contending. -/
theorem mis_lateCta (f : Frame) (s1 : St) (q : UInt16) (l1 : List Obs) (hl : s1.log = l1 ++ [Obs.rx s1.now f])
    (hq : Tried c me s1.log q) (hw : c.ways = 3) (hk : f.kind = .cta) (hf : f.flags ≠ 1) (hn : ¬ IsFeedback c me f)
    (hs : s1.sector = assigned c me l1) (ho : ∀ r rest, s1.recs = r :: rest → Oldest l1 r.pkt) :
    Mis c me T K s1.v (contend c f { ctsTimeout c q s1 with rtsAnswered := true }).v := by
  have h3 := mis_ctsTimeout (c := c) (me := me) (T := T) (K := K) q s1 hq
  obtain ⟨p1, p2, p3⟩ := ctsTimeout_pkts (c := c) q s1
  obtain ⟨x, hx⟩ := h3.log
  refine h3.trans ?_
  have h4 : Mi c me T K (ctsTimeout c q s1).v ({ ctsTimeout c q s1 with rtsAnswered := true } : St).v :=
    Mi.answered (c := c) (me := me) (T := T) (K := K) (ctsTimeout c q s1).v
  refine (Mis.one h4).trans ?_
  refine mis_contend f _ l1 x ?_ hw hk hf hn ?_ ?_
  · show (ctsTimeout c q s1).log = l1 ++ Obs.rx (ctsTimeout c q s1).now f :: x
    rw [p2]
    have : (ctsTimeout c q s1).log = s1.log ++ x := hx
    rw [this, hl, List.append_assoc]; rfl
  · show (ctsTimeout c q s1).sector = _
    rw [p3]; exact hs
  · intro r rest hr
    have hr : (ctsTimeout c q s1).recs = r :: rest := hr
    rw [hr] at p1
    cases hs1 : s1.recs with
    | nil => rw [hs1] at p1; cases p1
    | cons r' rest' =>
      rw [hs1] at p1
      have e : r.pkt = r'.pkt := (List.cons.inj p1).1
      rw [e]; exact ho r' rest' hs1

theorem mis_receiveCta3 (f : Frame) (g : UInt16) (s : St) (b : Basic c me s.v) (hw : c.ways = 3) (hk : f.kind = .cta) :
    Mis c me T K s.v (receiveCta3 c me f g (s.emit (.rx s.now f))).v := by
  have hrx := Mi.rx (c := c) (me := me) (T := T) (K := K) s.v f
  unfold receiveCta3
  dsimp only
  split
  · rename_i hf
    have hn : ¬ IsFeedback c me f := by
      rintro ⟨_, _, h, _⟩; rw [hf] at h; exact absurd h (by decide)
    rw [if_neg hn] at hrx
    obtain ⟨k, hk1, hk2, hk3⟩ := drawSlot_spec (c := c) s.rngIdx
    refine (Mis.one hrx).trans (Mis.one ?_)
    refine Mi.planDummy (c := c) (me := me) (T := T) (K := K) { s.v.note (.rx s.now f) with sector := s.v.sector }
      (c.slotTime * c.drawSlot s.rngIdx) (dummyFrame me f.src s.nextId g) ?_
    refine ⟨s.log, s.now, f, [], k, rfl, hw, hk, hf, rfl, rfl, rfl, rfl, hk2, hk3, ?_⟩
    show s.now + _ = _; rw [hk1]
  · rename_i hf
    split
    · rename_i h2
      rw [if_pos ⟨hw, hk, h2⟩] at hrx
      exact Mis.one hrx
    · rename_i h2
      have hn : ¬ IsFeedback c me f := by rintro ⟨_, _, h⟩; exact h2 h
      rw [if_neg hn] at hrx
      have ho : ∀ r rest, s.recs = r :: rest → Oldest s.log r.pkt := fun r rest hr => b.headOldest hr
      have b1 := b.mi hrx
      refine (Mis.one hrx).trans ?_
      split
      · exact .refl
      · split
        · rename_i ha
          have hq : Asked c me (s.log ++ [.rx s.now f]) s.lastSeq := by
            have h := b1.asked s.lastSeq
            refine h ?_
            show (if s.rtsAnswered = true then none else some s.lastSeq) = some s.lastSeq
            rw [show s.rtsAnswered = false from ha.2]; rfl
          exact mis_lateCta f { s.emit (.rx s.now f) with state := .idle } s.lastSeq s.log rfl (.inr hq) hw hk hf hn
            b.sec ho
        · exact mis_contend f { s.emit (.rx s.now f) with state := .idle } s.log [] rfl hw hk hf hn b.sec ho

theorem mis_receiveCta1 (f : Frame) (s : St) (b : Basic c me s.v) (hw : c.ways = 1) (hk : f.kind = .cta) :
    Mis c me T K s.v (receiveCta1 c (s.emit (.rx s.now f))).v := by
  have hrx := Mi.rx (c := c) (me := me) (T := T) (K := K) s.v f
  have hn : ¬ IsFeedback c me f := by rintro ⟨h, _⟩; rw [hw] at h; cases h
  rw [if_neg hn] at hrx
  refine (Mis.one hrx).trans ?_
  unfold receiveCta1
  dsimp only
  split
  · exact .refl
  · split
    · rename_i ha; exact mis_decreaseBackoff { s.emit (.rx s.now f) with state := .idle } ha
    · split
      · exact .refl
      · rename_i r rest hrec
        obtain ⟨k, hk1, hk2, hk3⟩ := drawSlot_spec (c := c) s.rngIdx
        refine Mis.one (Mi.planData1 (c := c) (me := me) (T := T) (K := K)
          { s.v.note (.rx s.now f) with sector := s.v.sector } (c.fairness + c.slotTime * c.drawSlot s.rngIdx) r.pkt 0 ?_)
        refine .inr ⟨s.log, s.now, f, [], k, rfl, hw, hk, b.headOldest (rest := rest) hrec, hk2, hk3, ?_⟩
        · show s.now + _ = _; rw [hk1]; omega

theorem mis_grantLoop (f : Frame) (l1 : List Obs) (hk : f.kind = .cts) (hd : f.dst = me) :
    ∀ (rest : List Rec) (s : St), s.log = l1 ++ [Obs.rx s.now f] → (∀ r ∈ rest, Open l1 r.pkt) →
    Mis c me T K s.v (grantLoop c f rest s).v
  | [], s, _, _ => .refl
  | r :: rest, s, hl, ho => by
    unfold grantLoop
    have ho' : ∀ r ∈ rest, Open l1 r.pkt := fun r hr => ho r (List.mem_cons_of_mem _ hr)
    split
    · rename_i hq
      have hwhy : DataWhy c me s.v.log r.pkt (s.v.now + durTime c.tpn f.dur) :=
        .inl ⟨l1, s.now, f, [], hl, hk, hd, hq.symm, ho r List.mem_cons_self, rfl⟩
      have h1 := Mi.planData (c := c) (me := me) (T := T) (K := K) s.v (durTime c.tpn f.dur) r.pkt (mcsOf f.flags) hwhy
      have h2 := Mi.answered (c := c) (me := me) (T := T) (K := K) (s.v.push (durTime c.tpn f.dur) (.sendData r.pkt (mcsOf f.flags)))
      refine ((Mis.one h1).trans (Mis.one h2)).trans ?_
      exact mis_grantLoop f l1 hk hd rest
        ({ s.sched (durTime c.tpn f.dur) (.sendData r.pkt (mcsOf f.flags)) with
          rtsAnswered := true, timeCts := s.now }) hl ho'
    · exact mis_grantLoop f l1 hk hd rest s hl ho'

theorem mis_rxOther (f : Frame) (s : St) (hn : ¬ IsFeedback c me f) : Mis c me T K s.v (s.emit (.rx s.now f)).v := by
  have hrx := Mi.rx (c := c) (me := me) (T := T) (K := K) s.v f
  rw [if_neg hn] at hrx
  exact Mis.one hrx

theorem mis_receiveCts (f : Frame) (s : St) (b : Basic c me s.v) (hk : f.kind = .cts) :
    Mis c me T K s.v (receiveCts c me f (s.emit (.rx s.now f))).v := by
  have hn : ¬ IsFeedback c me f := by rintro ⟨_, h, _⟩; rw [hk] at h; cases h
  refine (mis_rxOther f s hn).trans ?_
  unfold receiveCts
  dsimp only
  split
  · rename_i hd
    exact mis_grantLoop f s.log hk hd s.recs
      { s.emit (.rx s.now f) with state := .idle, ctsReceived := (s.emit (.rx s.now f)).ctsReceived + 1 } rfl
      (fun r hr => b.recIsOpen r hr)
  · exact .refl

theorem mis_receiveAck (f : Frame) (s : St) (b : Basic c me s.v) (hk : f.kind = .ack) :
    Mis c me T K s.v (receiveAck c me f (s.emit (.rx s.now f))).v := by
  have hn : ¬ IsFeedback c me f := by rintro ⟨_, h, _⟩; rw [hk] at h; cases h
  refine (mis_rxOther f s hn).trans ?_
  unfold receiveAck
  split
  · rename_i hd
    dsimp only
    split
    · rename_i t ht
      refine Mis.one (Mi.ackIn (c := c) (me := me) (T := T) (K := K) (s.emit (.rx s.now f)).v t f.seq ht ?_)
      have h2 : t.seq = f.seq := by simpa using List.find?_some ht
      exact ⟨s.log, s.now, f, [], rfl, hk, hd, rfl, h2 ▸ b.ack t (List.mem_of_find?_eq_some ht)⟩
    · exact .refl
  · exact .refl

theorem mis_receivePacket (s : St) : Mis c me T K s.v (receivePacket s).v := by
  have h : Mis c me T K s.v (match s.sendDataEv with | some t => s.cancel t | none => s).v := by
    split
    · rename_i t ht
      exact Mis.one (.dropData s.v t ht)
    · exact .refl
  unfold receivePacket
  dsimp only
  split <;> exact h

theorem mis_receivePacketDone (f : Frame) (ok : Bool) (g : UInt16) (s : St) (b : Basic c me s.v) :
    Mis c me T K s.v (receivePacketDone c me f ok g s).v := by
  unfold receivePacketDone
  split
  · split
    · exact .refl
    · dsimp only
      split
      · rename_i hk
        split
        · rename_i hw; exact mis_receiveCta1 f s b hw hk
        · split
          · rename_i hw; exact mis_receiveCta3 f g s b hw hk
          · rename_i hw; exact mis_rxOther f s (fun h => hw h.1)
      · rename_i hk; exact mis_receiveCts f s b hk
      · rename_i hk; exact mis_receiveAck f s b hk
      · rename_i hk _ _; exact mis_rxOther f s (fun h => hk h.2.1)
  · exact .refl

theorem mis_enqueue (bd : Body) (dst : Mac48) (s : St) : Mis c me T K s.v (enqueue c bd dst s).2.v := by
  unfold enqueue
  split
  · exact Mis.one (.note s.v _ trivial)
  · rename_i h
    exact Mis.one (.accept s.v bd dst (not_lt.1 h))

/-! ## Steps -/

theorem mis_runEv (due : ℤ) (e : Ev) (s : St) (hnp : ∀ f, e ≠ .phyDone f) (hw : EvWhy c me s.log due e) (h1 : due ≤ s.now)
    (h2 : T → s.now = due) : Mis c me T K s.v (runEv c me e s).v := by
  cases e with
  | dummyRts f =>
    have hk : f.kind = .rts := by obtain ⟨_, _, _, _, _, _, _, _, _, h, _⟩ := hw; exact h
    have hf : f.flags = 1 := by obtain ⟨_, _, _, _, _, _, _, _, _, _, h, _⟩ := hw; exact h
    exact mis_handRts f s hk ⟨due, h1, h2, .inr (.inl ⟨hk, hf, hw⟩)⟩
  | sendRts p => exact mis_sendRts p s (fun id => ⟨due, h1, h2, .inl ⟨rfl, rfl, p, id, rfl, hw⟩⟩)
  | sendData p m => exact mis_sendData p m s (fun hb => ⟨due, h1, h2, .inr (.inr ⟨rfl, p, rfl, hb, hw⟩)⟩)
  | ackTimeout q => exact mis_ackTimeout q s (.inl hw)
  | sendDataDone ok q => exact mis_sendDataDone ok q s hw
  | results => exact mis_results s
  | phyDone f => exact absurd rfl (hnp f)

theorem v_sendPacketDone (f : Frame) (s : St) :
    (sendPacketDone f s).v = ({ s.v with phyTx := none } : V).note (.txEnd f) := by
  unfold sendPacketDone
  dsimp only
  split
  · rfl
  · split <;> rfl

/-- Every step of the client is a sequence of micro-steps. -/
theorem mis_step (s : St) (o : Op) (b : Basic c me s.v) (ht : T → timelyOp s o = true)
    (hk : ∀ tid due e, o = .fire tid → (tid, due, e) ∈ s.pend → K e) :
    Mis c me T K s.v (step c me s o).v := by
  cases o with
  | enqueue bd dst => exact mis_enqueue bd dst s
  | rxStart => exact mis_receivePacket s
  | rxDone f ok g => exact mis_receivePacketDone f ok g s b
  | advance d =>
    refine Mis.one (Mi.tick s.v d ?_)
    intro hT e he
    have := ht hT
    unfold timelyOp at this
    show s.now + _ ≤ _
    simpa using List.all_eq_true.1 this e he
  | fire tid =>
    show Mis c me T K s.v (fire c me tid s).v
    unfold fire
    split
    · exact .refl
    · rename_i t due e hf
      have hm : (t, due, e) ∈ s.pend := List.mem_of_find?_eq_some hf
      have htt : t = tid := by simpa using List.find?_some hf
      subst htt
      have htime : T → s.now ≤ due ∧ ∀ e' ∈ s.pend, due ≤ e'.2.1 := by
        intro hT
        have h := ht hT
        unfold timelyOp at h
        have h1 := List.all_eq_true.1 h _ hm
        simpa using h1
      generalize hs1 : ({ s with pend := s.pend.filter (fun e => e.1 ≠ t), now := max s.now due } : St) = s1
      have e1 : s1.v = { s.v.drop t with now := max s.now due } := by rw [← hs1]; rfl
      have e2 : s1.now = max s.now due := by rw [← hs1]
      have e3 : s1.log = s.log := by rw [← hs1]
      by_cases hp : ∃ f, e = .phyDone f
      · obtain ⟨f, rfl⟩ := hp
        show Mis c me T K s.v (sendPacketDone f s1).v
        rw [v_sendPacketDone, e1]
        exact Mis.one (Mi.txEnd s.v t due f hm htime)
      · have hnp : ∀ f, e ≠ .phyDone f := fun f hf => hp ⟨f, hf⟩
        have hpop : Mi c me T K s.v s1.v := by
          rw [e1]; exact Mi.pop s.v t due e hm htime hnp (hk t due e rfl hm)
        refine (Mis.one hpop).trans (mis_runEv due e s1 hnp ?_ ?_ ?_)
        · rw [e3]; exact b.ev _ hm
        · rw [e2]; omega
        · intro hT; have := (htime hT).1; rw [e2]; omega

theorem run_cons (s : St) (o : Op) (ops : List Op) : run c me s (o :: ops) = run c me (step c me s o) ops := rfl

/-- Every run is a sequence of micro-steps. -/
theorem mis_run (ops : List Op) : ∀ s : St, Basic c me s.v → (T → timely c me s ops = true) →
    Mis c me T (fun _ => True) s.v (run c me s ops).v := by
  induction ops with
  | nil => intro s _ _; exact .refl
  | cons o ops ih =>
    intro s b ht
    have h1 := mis_step (c := c) (me := me) (T := T) (K := fun _ => True) s o b (fun hT => by
      have := ht hT; simp only [timely, Bool.and_eq_true] at this; exact this.1) (fun _ _ _ _ _ => trivial)
    refine h1.trans (ih (step c me s o) (b.mis h1) (fun hT => by
      have := ht hT; simp only [timely, Bool.and_eq_true] at this; exact this.2))

/-- An invariant of the micro-steps is an invariant of the runs. -/
theorem run_inv {P : V → Prop} {s : St} {ops : List Op} (T : Prop) (ht : T → timely c me s ops = true)
    (b : Basic c me s.v) (hi : P s.v)
    (hm : ∀ v w, Basic c me v → P v → Mi c me T (fun _ => True) v w → P w) : P (run c me s ops).v := by
  have key : ∀ w, Mis c me T (fun _ => True) s.v w → P w ∧ Basic c me w := by
    intro w hw
    induction hw with
    | refl => exact ⟨hi, b⟩
    | tail _ hs ih => exact ⟨hm _ _ ih.2 ih.1 hs, ih.2.mi hs⟩
  exact (key _ (mis_run ops s b ht)).1

theorem basic_after (seq0 last0 : UInt16) (ops : List Op) : Basic c me (after c me seq0 last0 ops).v :=
  (Basic.init seq0 last0).mis (mis_run (T := False) ops _ (Basic.init seq0 last0) (fun h => h.elim))

end Thz.Client
