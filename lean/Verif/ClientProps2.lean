import Verif.ClientProps

/-!
# More about the client: counting grants (C41), back-off (C44), waiting for an ACK (C77), broadcast packets (C80)
-/

namespace Thz.Client

open Thz Thz.Central
open Thz.Nano (Body Kind bcast)

variable {c : Cfg} {me : Mac48}

/-! ## C41: no more transmissions than grants -/

/-- A frame of this type went on the air. -/
def isHanded (k : Kind) : Obs → Bool
  | .handed _ f => f.kind = k
  | _ => false

/-- A frame was received that grants one transmission of this type: a CTA an RTS in the three-way protocol; a CTS for this
node, or a CTA in the one-way protocol, a DATA frame. -/
def isGrant (c : Cfg) (me : Mac48) (k : Kind) : Obs → Bool
  | .rx _ f => (k = .rts ∧ c.ways = 3 ∧ f.kind = .cta) ∨
      (k = .data ∧ ((f.kind = .cts ∧ f.dst = me) ∨ (c.ways = 1 ∧ f.kind = .cta)))
  | _ => false

/-- A transmission of this type is scheduled. -/
def plans (k : Kind) : Ev → Bool
  | .dummyRts _ => k = .rts
  | .sendRts _ => k = .rts
  | .sendData _ _ => k = .data
  | _ => false

/-- Transmissions made and scheduled. -/
def ld (k : Kind) (s : St) : Nat := s.log.countP (isHanded k) + s.pend.countP (fun e => plans k e.2.2)
/-- Grants received. -/
def gr (c : Cfg) (me : Mac48) (k : Kind) (s : St) : Nat := s.log.countP (isGrant c me k)

/-- At most `n` more transmissions, no more grants. -/
structure Bal (c : Cfg) (me : Mac48) (k : Kind) (s s' : St) (n : Nat) : Prop where
  l : ld k s' ≤ ld k s + n
  g : gr c me k s' = gr c me k s

variable {k : Kind}

theorem Bal.trans {a b d : St} {m n : Nat} (h1 : Bal c me k a b m) (h2 : Bal c me k b d n) : Bal c me k a d (m + n) :=
  ⟨by have := h1.l; have := h2.l; omega, h2.g.trans h1.g⟩

theorem Bal.mono {a b : St} {m n : Nat} (h : Bal c me k a b m) (hm : m ≤ n) : Bal c me k a b n :=
  ⟨by have := h.l; omega, h.g⟩

theorem bal_of {s s' : St} {n : Nat} (x : List Obs) (P y : List (Nat × ℤ × Ev)) (hl : s'.log = s.log ++ x)
    (hp : s'.pend = P ++ y) (hP : P.Sublist s.pend)
    (hx : x.countP (isHanded k) + y.countP (fun e => plans k e.2.2) ≤ n)
    (hg : x.countP (isGrant c me k) = 0) : Bal c me k s s' n := by
  constructor
  · unfold ld
    rw [hl, hp, List.countP_append, List.countP_append]
    have := hP.countP_le (p := fun e => plans k e.2.2)
    omega
  · unfold gr
    rw [hl, List.countP_append, hg, Nat.add_zero]

/-- Neither log nor pending events changed. -/
theorem bal_same {s s' : St} {n : Nat} (hl : s'.log = s.log) (hp : s'.pend = s.pend) : Bal c me k s s' n :=
  bal_of [] s.pend [] (by rw [hl, List.append_nil]) (by rw [hp, List.append_nil]) (List.Sublist.refl _) (Nat.zero_le _) rfl

/-- One note was made. -/
theorem bal_note {s s' : St} {n : Nat} (o : Obs) (hl : s'.log = s.log ++ [o]) (hp : s'.pend = s.pend)
    (h1 : isHanded k o = false) (h2 : isGrant c me k o = false) : Bal c me k s s' n :=
  bal_of [o] s.pend [] hl (by rw [hp, List.append_nil]) (List.Sublist.refl _) (by simp [h1]) (by simp [h2])

/-- One event was scheduled. -/
theorem bal_ev {s s' : St} {n : Nat} (e : Nat × ℤ × Ev) (hl : s'.log = s.log) (hp : s'.pend = s.pend ++ [e])
    (hn : (if plans k e.2.2 then 1 else 0) ≤ n) : Bal c me k s s' n :=
  bal_of [] s.pend [e] (by rw [hl, List.append_nil]) hp (List.Sublist.refl _)
    (by simpa [List.countP_cons] using hn) rfl

theorem bal_sendPacket (f : Frame) (m : Nat) (s : St) :
    Bal c me k s (sendPacket c f m s).2 (if f.kind = k then 1 else 0) := by
  unfold sendPacket
  split
  · split
    · refine bal_of [.handed s.now f] s.pend [_] rfl rfl (List.Sublist.refl _) ?_ rfl
      simp [List.countP_cons, isHanded, plans]
    · exact bal_note (.refused f) rfl rfl rfl rfl
  · exact bal_note (.blocked f) rfl rfl rfl rfl

theorem bal_sendRts (p : Pkt) (s : St) : Bal c me k s (sendRts c me p s) (if k = .rts then 1 else 0) := by
  have h := bal_sendPacket (c := c) (me := me) (k := k) (rtsFrame me s.nextId p) 0 { s with nextId := s.nextId + 1 }
  have e : (rtsFrame me s.nextId p).kind = .rts := rfl
  rw [e] at h
  exact ⟨by have := h.l; simp only [eq_comm] at this ⊢; exact this, h.g⟩

theorem bal_sendData (p : Pkt) (m : Nat) (s : St) : Bal c me k s (sendData c me p m s) (if k = .data then 1 else 0) := by
  unfold sendData
  dsimp only
  split
  · exact bal_same rfl rfl
  · have h := bal_sendPacket (c := c) (me := me) (k := k) (dataFrame me p) m { s with state := .waitTx }
    have e : (dataFrame me p).kind = .data := rfl
    rw [e] at h
    generalize sendPacket c (dataFrame me p) m { s with state := .waitTx } = r at h
    obtain ⟨ok, s1⟩ := r
    have h' : Bal c me k s s1 (if k = .data then 1 else 0) :=
      ⟨by have := h.l; simp only [eq_comm] at this ⊢; exact this, h.g⟩
    cases ok
    · exact (h'.trans (n := 0) (bal_same (s' := { s1 with state := .idle }) rfl rfl)).mono (Nat.le_refl _)
    · dsimp only
      exact (h'.trans (n := 0) (bal_ev (s' := { s1.sched (ackTimeoutDur c s1) (.ackTimeout p.seq) with
        ackTO := s1.ackTO ++ [⟨p.seq, s1.nextTid⟩] }) (s1.nextTid, _, .ackTimeout p.seq) rfl rfl (Nat.le_refl _))).mono
        (Nat.le_refl _)

theorem bal_sendPacketDone (f : Frame) (s : St) : Bal c me k s (sendPacketDone f s) 0 := by
  unfold sendPacketDone
  dsimp only
  split
  · exact bal_note (.txEnd f) rfl rfl rfl rfl
  · split <;> exact bal_note (.txEnd f) rfl rfl rfl rfl

theorem bal_settle (ok : Bool) (r : Rec) (s : St) : Bal c me k s (settle ok r s) 0 := by
  unfold settle
  split
  · exact bal_of [.done true r.pkt] s.pend [_] rfl rfl (List.Sublist.refl _) (Nat.le_refl _) rfl
  · exact bal_of [.done false r.pkt] s.pend [_] rfl rfl (List.Sublist.refl _) (Nat.le_refl _) rfl

theorem bal_doneLoop (ok : Bool) (q : UInt16) : ∀ (rest pre : List Rec) (s : St),
    Bal c me k s (doneLoop ok q pre rest s) 0
  | [], pre, s => by unfold doneLoop; exact bal_same rfl rfl
  | r :: rest, pre, s => by
    unfold doneLoop
    split
    · split
      · exact bal_same rfl rfl
      · match rest with
        | [] => exact (bal_settle ok r s).trans (n := 0) (bal_same (s' := { settle ok r s with recs := pre, ub := true }) rfl rfl)
        | r' :: rest' => exact (bal_settle ok r s).trans (bal_doneLoop ok q rest' (pre ++ [r']) (settle ok r s))
    · exact bal_doneLoop ok q rest (pre ++ [r]) s

theorem bal_results (s : St) : Bal c me k s (resultsRecord s) 0 := by
  unfold resultsRecord
  split
  · exact bal_same rfl rfl
  · exact bal_note _ rfl rfl rfl rfl

theorem bal_charge (limit : UInt16) (r : Rec) (s : St) : Bal c me k s (charge c limit r s).2 0 := by
  unfold charge
  dsimp only
  split
  · exact bal_of [.timedOut r.pkt (r.retry + 1), .gaveUp s.now r.pkt] s.pend [_] (List.append_assoc _ [_] [_]) rfl
      (List.Sublist.refl _) (Nat.le_refl _) rfl
  · exact bal_note _ rfl rfl rfl rfl

theorem bal_chargeLoop (limit q : UInt16) : ∀ (rest pre : List Rec) (s : St),
    Bal c me k s (chargeLoop c limit q pre rest s) 0
  | [], pre, s => by unfold chargeLoop; exact bal_same rfl rfl
  | r :: rest, pre, s => by
    unfold chargeLoop
    split
    · exact (bal_charge limit r s).trans (n := 0)
        (bal_same (s' := { (charge c limit r s).2 with recs := pre ++ (charge c limit r s).1 :: rest }) rfl rfl)
    · exact bal_chargeLoop limit q rest (pre ++ [r]) s

theorem bal_ctsTimeout (q : UInt16) (s : St) : Bal c me k s (ctsTimeout c q s) 0 := by
  unfold ctsTimeout
  dsimp only
  have h := bal_chargeLoop (c := c) (me := me) (k := k) c.rtsRetryLimit q s.recs [] { s with state := .idle }
  split
  · exact ⟨h.l, h.g⟩
  · exact ⟨h.l, h.g⟩

theorem bal_ackTimeout (q : UInt16) (s : St) : Bal c me k s (ackTimeout c q s) 0 := by
  unfold ackTimeout
  have h := bal_chargeLoop (c := c) (me := me) (k := k) c.dataRetryLimit q s.recs []
    { s with state := .idle, ackTO := s.ackTO.eraseP (fun t => t.seq = q) }
  exact ⟨h.l, h.g⟩

theorem bal_tickLoop (q : UInt16) : ∀ (rest pre : List Rec) (s : St), Bal c me k s (tickLoop q pre rest s) 0
  | [], pre, s => by unfold tickLoop; exact bal_same rfl rfl
  | r :: rest, pre, s => by
    unfold tickLoop
    split
    · exact bal_same rfl rfl
    · exact bal_tickLoop q rest (pre ++ [r]) s

theorem bal_contend (f : Frame) (s : St) : Bal c me k s (contend c f s) (if k = .rts then 1 else 0) := by
  unfold contend
  split
  · exact (bal_tickLoop _ _ _ _).mono (Nat.zero_le _)
  · dsimp only
    split
    · exact bal_same rfl rfl
    · split
      · exact bal_same rfl rfl
      · refine bal_ev (s.nextTid, _, .sendRts _) rfl rfl ?_
        simp [plans]

theorem bal_receiveCta3 (f : Frame) (g : UInt16) (s : St) :
    Bal c me k s (receiveCta3 c me f g s) (if k = .rts then 1 else 0) := by
  unfold receiveCta3
  dsimp only
  split
  · refine bal_ev (s.nextTid, _, .dummyRts _) rfl rfl ?_
    simp [plans]
  · split
    · exact bal_same rfl rfl
    · split
      · exact bal_same rfl rfl
      · split
        · have h1 := bal_ctsTimeout (c := c) (me := me) (k := k) s.lastSeq { s with state := .idle }
          have h2 := bal_contend (c := c) (me := me) (k := k) f
            { ctsTimeout c s.lastSeq { s with state := .idle } with rtsAnswered := true }
          have h3 := Bal.trans ⟨h1.l, h1.g⟩ (Bal.mk h2.l h2.g)
          exact ⟨by have := h3.l; simp only [Nat.zero_add] at this; exact this, h3.g⟩
        · have h2 := bal_contend (c := c) (me := me) (k := k) f { s with state := .idle }
          exact ⟨h2.l, h2.g⟩

theorem bal_receiveCta1 (s : St) : Bal c me k s (receiveCta1 c s) (if k = .data then 1 else 0) := by
  unfold receiveCta1
  dsimp only
  split
  · exact bal_same rfl rfl
  · split
    · exact ((bal_tickLoop s.backoffSeq s.recs [] { s with state := .idle }).mono (Nat.zero_le _)) |> fun h => ⟨h.l, h.g⟩
    · split
      · exact bal_same rfl rfl
      · refine bal_ev (s.nextTid, _, .sendData _ 0) rfl rfl ?_
        simp [plans]

theorem bal_grantLoop (f : Frame) : ∀ (rest : List Rec) (s : St),
    Bal c me k s (grantLoop c f rest s) (if k = .data then rest.countP (fun r => r.pkt.seq = f.seq) else 0)
  | [], s => by unfold grantLoop; exact bal_same rfl rfl
  | r :: rest, s => by
    unfold grantLoop
    split
    · rename_i h
      have h1 := bal_ev (c := c) (me := me) (k := k) (s := s)
        (s' := { s.sched (durTime c.tpn f.dur) (.sendData r.pkt (mcsOf f.flags)) with rtsAnswered := true, timeCts := s.now })
        (s.nextTid, s.now + durTime c.tpn f.dur, .sendData r.pkt (mcsOf f.flags)) rfl rfl (Nat.le_refl _)
      refine (h1.trans (bal_grantLoop f rest _)).mono ?_
      by_cases hk : k = .data <;> simp [plans, hk, List.countP_cons, h]
      omega
    · rename_i h
      refine (bal_grantLoop f rest s).mono ?_
      by_cases hk : k = .data <;> simp [hk, List.countP_cons, h]

theorem bal_receiveAck (f : Frame) (s : St) : Bal c me k s (receiveAck c me f s) 0 := by
  unfold receiveAck
  dsimp only
  split
  · split
    · exact bal_of [] _ [_] (List.append_nil _).symm rfl List.filter_sublist (Nat.le_refl _) rfl
    · exact bal_same rfl rfl
  · exact bal_same rfl rfl

theorem bal_receivePacket (s : St) : Bal c me k s (receivePacket s) 0 := by
  unfold receivePacket
  cases s.sendDataEv with
  | none => dsimp only; split <;> exact bal_same rfl rfl
  | some t =>
    have h : ∀ s', s'.log = s.log → s'.pend = s.pend.filter (fun e => e.1 ≠ t) → Bal c me k s s' 0 :=
      fun s' hl hp => bal_of [] _ [] (by rw [hl, List.append_nil]) (by rw [hp, List.append_nil]) List.filter_sublist
        (Nat.le_refl _) rfl
    dsimp only
    split <;> exact h _ rfl rfl

/-- The invariant: no more transmissions made and scheduled than granted. -/
def Covered (c : Cfg) (me : Mac48) (k : Kind) (s : St) : Prop := ld k s ≤ gr c me k s

theorem Covered.of {s s' : St} (i : Covered c me k s) (h : Bal c me k s s' 0) : Covered c me k s' := by
  have := h.l; have := h.g; unfold Covered at *; omega

/-- Reception of an intact frame. -/
theorem covered_rx (f : Frame) {s s' : St} {n : Nat} (i : Covered c me k s)
    (h : Bal c me k (s.emit (.rx s.now f)) s' n) (hn : n ≤ if isGrant c me k (.rx s.now f) then 1 else 0) :
    Covered c me k s' := by
  have h1 := h.l
  have h2 := h.g
  have h3 : ld k (s.emit (.rx s.now f)) = ld k s := by
    unfold ld St.emit; simp [List.countP_append, isHanded]
  have h4 : gr c me k (s.emit (.rx s.now f)) = gr c me k s + if isGrant c me k (.rx s.now f) then 1 else 0 := by
    unfold gr St.emit; simp only [List.countP_append, List.countP_cons, List.countP_nil, Nat.zero_add]
  unfold Covered at *
  omega

theorem covered_rxDone (hk : k = .rts ∨ k = .data) (f : Frame) (ok : Bool) (g : UInt16) (s : St)
    (hnd : k = .data → (s.recs.map (·.pkt.seq)).Nodup) (i : Covered c me k s) :
    Covered c me k (receivePacketDone c me f ok g s) := by
  unfold receivePacketDone
  split
  · split
    · exact i
    · dsimp only
      split
      · rename_i hf
        split
        · rename_i hw
          refine covered_rx f i (bal_receiveCta1 _) ?_
          rcases hk with rfl | rfl <;> simp [isGrant, hf, hw]
        · split
          · rename_i hw
            refine covered_rx f i (bal_receiveCta3 f g _) ?_
            rcases hk with rfl | rfl <;> simp [isGrant, hf, hw]
          · exact covered_rx (n := 0) f i (bal_same rfl rfl) (Nat.zero_le _)
      · rename_i hf
        unfold receiveCts
        dsimp only
        split
        · rename_i hd
          have h := bal_grantLoop (c := c) (me := me) (k := k) f s.recs
            { s.emit (.rx s.now f) with state := .idle, ctsReceived := s.ctsReceived + 1 }
          refine covered_rx f i ⟨h.l, h.g⟩ ?_
          rcases hk with rfl | rfl
          · simp
          · have : s.recs.countP (fun r => r.pkt.seq = f.seq) ≤ 1 := by
              have h1 := List.nodup_iff_count_le_one.1 (hnd rfl) f.seq
              rw [List.count_eq_countP, List.countP_map] at h1
              refine Nat.le_trans (Nat.le_of_eq (List.countP_congr ?_)) h1
              intro r _
              simp
            simpa [isGrant, hf, hd] using this
        · exact covered_rx (n := 0) f i (bal_same rfl rfl) (Nat.zero_le _)
      · exact covered_rx f i (bal_receiveAck f _) (Nat.zero_le _)
      · exact covered_rx (n := 0) f i (bal_same rfl rfl) (Nat.zero_le _)
  · exact i

theorem covered_step (hk : k = .rts ∨ k = .data) (s : St) (o : Op) (b : Basic c me s.v)
    (hnd : k = .data → (s.recs.map (·.pkt.seq)).Nodup) (i : Covered c me k s) : Covered c me k (step c me s o) := by
  cases o with
  | enqueue bd dst =>
    refine i.of ?_
    show Bal c me k s (enqueue c bd dst s).2 0
    unfold enqueue
    split <;> exact bal_note _ rfl rfl rfl rfl
  | rxStart => exact i.of (bal_receivePacket s)
  | rxDone f ok g => exact covered_rxDone hk f ok g s hnd i
  | advance d => exact i.of (bal_same rfl rfl)
  | fire tid =>
    show Covered c me k (fire c me tid s)
    unfold fire
    split
    · exact i
    · rename_i t due e hf
      have hm : (t, due, e) ∈ s.pend := List.mem_of_find?_eq_some hf
      have htt : t = tid := by simpa using List.find?_some hf
      subst htt
      have hw := b.ev _ hm
      generalize hs1 : ({ s with pend := s.pend.filter (fun e => e.1 ≠ t), now := max s.now due } : St) = s1
      have e1 : s1.pend = s.pend.filter (fun e => e.1 ≠ t) := by rw [← hs1]
      have e3 : s1.log = s.log := by rw [← hs1]
      have hb : ld k s1 + (if plans k e then 1 else 0) ≤ ld k s := by
        unfold ld
        rw [e1, e3]
        have : (s.pend.filter (fun e => e.1 ≠ t)).countP (fun e => plans k e.2.2) + (if plans k e then 1 else 0) ≤
            s.pend.countP (fun e => plans k e.2.2) := by
          clear hf hs1 e1 e3 i b hw hnd
          generalize s.pend = l at hm
          induction l with
          | nil => cases hm
          | cons x l ih =>
            rcases List.mem_cons.1 hm with h | h
            · subst h
              have h1 : (l.filter (fun e => e.1 ≠ t)).countP (fun e => plans k e.2.2) ≤ l.countP (fun e => plans k e.2.2) :=
                List.Sublist.countP_le List.filter_sublist
              simp only [ne_eq, decide_not, List.filter_cons, decide_true, Bool.not_true, Bool.false_eq_true, if_false,
                List.countP_cons]
              simp only [ne_eq, decide_not] at h1
              omega
            · have h1 := ih h
              rw [List.countP_cons, List.filter_cons]
              split
              · rw [List.countP_cons]; omega
              · omega
        omega
      have hg : gr c me k s1 = gr c me k s := by unfold gr; rw [e3]
      have key : ∀ s2, Bal c me k s1 s2 (if plans k e then 1 else 0) → Covered c me k s2 := by
        intro s2 h
        have h1 := h.l; have h2 := h.g
        unfold Covered at *
        omega
      apply key
      cases e with
      | dummyRts f =>
        have hk : f.kind = .rts := by obtain ⟨_, _, _, _, _, _, _, _, _, h, _⟩ := hw; exact h
        refine (bal_sendPacket (c := c) (me := me) f 0 s1).mono ?_
        rw [hk]; simp [plans, eq_comm]
      | sendRts p =>
        refine (bal_sendRts p s1).mono ?_
        simp [plans]
      | sendData p m =>
        refine (bal_sendData p m s1).mono ?_
        simp [plans]
      | ackTimeout q => exact (bal_ackTimeout q s1).mono (Nat.zero_le _)
      | sendDataDone ok q => exact (bal_doneLoop ok q _ _ s1).mono (Nat.zero_le _)
      | results => exact (bal_results s1).mono (Nat.zero_le _)
      | phyDone f => exact (bal_sendPacketDone f s1).mono (Nat.zero_le _)

theorem covered_run {seq0 : UInt16} (hk : k = .rts ∨ k = .data) (ops : List Op) : ∀ s : St, Basic c me s.v →
    PkInv seq0 s.v → (k = .data → (run c me s ops).nextUid ≤ 65536) → Covered c me k s →
    Covered c me k (run c me s ops) := by
  induction ops with
  | nil => intro s _ _ _ i; exact i
  | cons o ops ih =>
    intro s b p hn i
    have h := mis_step (c := c) (me := me) (T := False) (K := fun _ => True) s o b (fun h => h.elim) (fun _ _ _ _ _ => trivial)
    have b1 := b.mis h
    have p1 : PkInv seq0 (step c me s o).v :=
      run_inv (ops := [o]) False (fun h => h.elim) b p (fun _ _ b i h => i.mi b h)
    refine ih (step c me s o) b1 p1 hn (covered_step hk s o b (fun hd => ?_) i)
    have h1 := nextUid_run (c := c) (me := me) ops (step c me s o) b1
    have h0 := nextUid_step s o b
    have h2 : (run c me (step c me s o) ops).nextUid ≤ 65536 := hn hd
    exact recs_nodup b p (by omega)

/-- **C41, counting RTSs.**  The client never sends more RTSs than CTAs it received. -/
theorem C41_rts_per_cta (seq0 last0 : UInt16) (ops : List Op) :
    (after c me seq0 last0 ops).log.countP (isHanded .rts) ≤ (after c me seq0 last0 ops).log.countP (isGrant c me .rts) := by
  have h := covered_run (c := c) (me := me) (k := .rts) (seq0 := seq0) (.inl rfl) ops (init seq0 last0) (Basic.init seq0 last0)
    (PkInv.init seq0 last0) (fun h => by cases h) (Nat.le_refl _)
  unfold Covered ld at h
  exact Nat.le_trans (Nat.le_add_right _ _) h

/-- **C41, counting DATA frames.**  With at most 65536 packets the client never sends more DATA frames than it was
granted: by a CTS addressed to it, or by a CTA in the one-way protocol. -/
theorem C41_data_per_grant (seq0 last0 : UInt16) (ops : List Op) (hn : accepted (after c me seq0 last0 ops).log ≤ 65536) :
    (after c me seq0 last0 ops).log.countP (isHanded .data) ≤ (after c me seq0 last0 ops).log.countP (isGrant c me .data) := by
  have i := pkinv_after (c := c) (me := me) seq0 last0 ops
  have hn' : (after c me seq0 last0 ops).v.nextUid ≤ 65536 := by rw [← i.num]; exact hn
  have h := covered_run (c := c) (me := me) (k := .data) (seq0 := seq0) (.inr rfl) ops (init seq0 last0) (Basic.init seq0 last0)
    (PkInv.init seq0 last0) (fun _ => hn') (Nat.le_refl _)
  unfold Covered ld at h
  exact Nat.le_trans (Nat.le_add_right _ _) h

/-- Seven RTSs on fourteen CTAs; one DATA frame on one CTS. -/
example : (after (exCfg 3 0) exMe 0 0 runDiscard).log.countP (isHanded .rts) = 7 ∧
    (after (exCfg 3 0) exMe 0 0 runDiscard).log.countP (isGrant (exCfg 3 0) exMe .rts) = 14 ∧
    (after (exCfg 3 0) exMe 0 0 runOk).log.countP (isHanded .data) = 1 ∧
    (after (exCfg 3 0) exMe 0 0 runOk).log.countP (isGrant (exCfg 3 0) exMe .data) = 1 := by decide +kernel

end Thz.Client
