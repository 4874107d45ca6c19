import Verif.MacroInv
import Verif.MacroProps
import Verif.SeqProps

/-!
# The order in which the macro MAC transmits (helper lemmas)

A packet's RTS and DATA frames are handed to the PHY only when no earlier packet is queued any more, provided no CTS arrives for a
packet that has its outcome already.  Also: what is passed up per source has increasing sequence numbers.
-/

namespace Thz.Macro

open Thz
open Thz.Nano (Body Kind bcast)

variable {c : Cfg} {me : Mac48}

/-! ## RTS and DATA frames handed over, and DATA transmissions scheduled -/

/-- RTS and DATA frames handed to the PHY. -/
def airOf : Obs → Option Frame
  | .handed f => if f.kind = .rts ∨ f.kind = .data then some f else none
  | _ => none

def air (l : List Obs) : List Frame := l.filterMap airOf

theorem mem_air {l : List Obs} {f : Frame} : f ∈ air l ↔ Obs.handed f ∈ l ∧ (f.kind = .rts ∨ f.kind = .data) := by
  unfold air
  rw [List.mem_filterMap]
  constructor
  · rintro ⟨o, ho, h⟩
    cases o <;> simp only [airOf] at h <;> try cases h
    split at h
    · rename_i hk
      cases h; exact ⟨ho, hk⟩
    · cases h
  · rintro ⟨h, hk⟩
    exact ⟨_, h, if_pos hk⟩

/-- The packet of a pending `SendData`. -/
def sdOf : Nat × ℤ × Ev → Option Pkt
  | (_, _, .sendData p) => some p
  | _ => none

def sds (l : List (Nat × ℤ × Ev)) : List Pkt := l.filterMap sdOf

theorem mem_sds {l : List (Nat × ℤ × Ev)} {p : Pkt} : p ∈ sds l ↔ ∃ t d, (t, d, Ev.sendData p) ∈ l := by
  unfold sds
  rw [List.mem_filterMap]
  constructor
  · rintro ⟨⟨t, d, e⟩, ho, h⟩
    cases e <;> simp only [sdOf] at h <;> cases h
    exact ⟨t, d, ho⟩
  · rintro ⟨t, d, h⟩
    exact ⟨_, h, rfl⟩

theorem sds_append (a b : List (Nat × ℤ × Ev)) : sds (a ++ b) = sds a ++ sds b := List.filterMap_append

theorem sds_filter {l : List (Nat × ℤ × Ev)} {q : Nat × ℤ × Ev → Bool} {p : Pkt} (h : p ∈ sds (l.filter q)) : p ∈ sds l := by
  obtain ⟨t, d, h⟩ := mem_sds.1 h
  exact mem_sds.2 ⟨t, d, (List.mem_filter.1 h).1⟩

/-- Nothing of this kind happens. -/
structure Qt (s s' : St) : Prop where
  air : air s'.log = air s.log
  sds : ∀ p ∈ sds s'.pend, p ∈ sds s.pend

theorem Qt.refl {s : St} : Qt s s := ⟨rfl, fun _ h => h⟩

theorem Qt.trans {a b c : St} (h : Qt a b) (h' : Qt b c) : Qt a c :=
  ⟨h'.air.trans h.air, fun p hp => h.sds p (h'.sds p hp)⟩

/-- Changes to other parts of the state. -/
theorem Qt.same {s s' : St} (h : s'.log = s.log) (h' : s'.pend = s.pend) : Qt s s' :=
  ⟨by rw [h], fun p hp => by rwa [h'] at hp⟩

theorem Qt.sched (s : St) (d : ℤ) (e : Ev) (he : ∀ p, e ≠ .sendData p) : Qt s (s.sched d e) := by
  refine ⟨rfl, fun p hp => ?_⟩
  obtain ⟨t, x, h⟩ := mem_sds.1 hp
  rcases List.mem_append.1 h with h | h
  · exact mem_sds.2 ⟨t, x, h⟩
  · have := List.mem_singleton.1 h
    simp only [Prod.mk.injEq] at this
    exact absurd this.2.2.symm (he p)

theorem Qt.emit (s : St) (o : Obs) (ho : airOf o = none) : Qt s (s.emit o) := by
  refine ⟨?_, fun _ h => h⟩
  show Macro.air (s.log ++ [o]) = _
  unfold Macro.air
  rw [List.filterMap_append]
  simp [ho]

theorem Qt.schedCca (s : St) (d : ℤ) (e : Ev) (he : ∀ p, e ≠ .sendData p) : Qt s (s.schedCca d e) :=
  (Qt.sched s d e he).trans (.same rfl rfl)

theorem Qt.cancel (s : St) (t : Nat) : Qt s (s.cancel t) := ⟨rfl, fun _ h => sds_filter h⟩

theorem qt_cca (c : Cfg) (s : St) : Qt s (cca c s) := by
  unfold cca
  split_ifs
  · exact .refl
  all_goals exact .schedCca _ _ _ (by simp)

theorem qt_backoffStart (c : Cfg) (s : St) : Qt s (backoffStart c s) := by
  unfold backoffStart
  dsimp only
  have h : Qt s (drawBackoff c s) := by unfold drawBackoff; split <;> exact .same rfl rfl
  split_ifs
  · exact h.trans (.schedCca _ _ _ (by simp))
  · exact (h.trans (.sched _ _ .granted (by simp))).trans (.same rfl rfl)

theorem qt_busy (c : Cfg) (s : St) : Qt s (channelBecomesBusy c s) := by
  unfold channelBecomesBusy
  split_ifs
  · exact Qt.trans (b := { s with pend := s.pend.filter (fun e => some e.1 ≠ s.boEv), boRemain := residual c s })
      ⟨rfl, fun _ h => sds_filter h⟩ (qt_cca _ _)
  · exact qt_cca _ _

theorem qt_updateNav (c : Cfg) (d : ℤ) (s : St) : Qt s (updateNav c d s) := by
  unfold updateNav; split <;> exact .same rfl rfl

theorem qt_startOver (c : Cfg) (s : St) : Qt s (startOver c s) :=
  Qt.trans (b := { s with boStart := 0, boRemain := 0 }) (.same rfl rfl) (qt_cca _ _)

theorem qt_sendPacket_ctrl (c : Cfg) (f : Frame) (s : St) (h1 : f.kind ≠ .rts) (h2 : f.kind ≠ .data) :
    Qt s (sendPacket c f s).2 := by
  unfold sendPacket
  split_ifs
  · have h3 : Qt s { s with state := .tx, pktTx := some f, phyTx := some f } := .same rfl rfl
    exact (h3.trans (Qt.sched _ (c.frameDur f) (.phyDone f) (by simp))).trans
      (Qt.emit _ (.handed f) (by simp [airOf, h1, h2]))
  · exact Qt.trans (b := { s with state := .idle }) (.same rfl rfl) (Qt.emit _ _ rfl)
  · exact .refl

/-- An RTS or DATA frame is handed over or not. -/
theorem qt_sendPacket (c : Cfg) (f : Frame) (s : St) :
    (∀ g ∈ air (sendPacket c f s).2.log, g ∈ air s.log ∨ g = f) ∧
    (∀ p ∈ sds (sendPacket c f s).2.pend, p ∈ sds s.pend) := by
  by_cases h : f.kind ≠ .rts ∧ f.kind ≠ .data
  · have := qt_sendPacket_ctrl c f s h.1 h.2
    exact ⟨fun g hg => .inl (by rwa [this.air] at hg), this.sds⟩
  · unfold sendPacket
    split_ifs
    · refine ⟨fun g hg => ?_, ?_⟩
      · have e : air (s.log ++ [Obs.handed f]) = air s.log ++ air [Obs.handed f] := List.filterMap_append
        have hg' : g ∈ air (s.log ++ [Obs.handed f]) := hg
        rw [e] at hg'
        rcases List.mem_append.1 hg' with h | h
        · exact .inl h
        · obtain ⟨h3, -⟩ := mem_air.1 h
          right
          exact Obs.handed.inj (List.mem_singleton.1 h3)
      · exact (Qt.sched { s with state := .tx, pktTx := some f, phyTx := some f } (c.frameDur f) (.phyDone f)
          (by simp)).sds
    · exact ⟨fun g hg => .inl (by
        rw [(Qt.emit { s with state := .idle } (.refused f) rfl).air] at hg; exact hg), fun _ h => h⟩
    · exact ⟨fun g hg => .inl hg, fun _ h => h⟩

theorem qt_enqueue (c : Cfg) (b : Body) (d : Mac48) (g : UInt16) (s : St) : Qt s (enqueue c b d g s).2 := by
  unfold enqueue
  split_ifs
  · exact .emit _ _ rfl
  · dsimp only
    refine (Qt.trans (.same ?_ ?_) (Qt.sched _ _ _ (by simp))).trans (Qt.emit _ _ rfl) <;> rfl

theorem qt_settle (ok : Bool) (r : Rec) (s : St) : Qt s (settle ok r s) := by
  unfold settle
  dsimp only
  have h := Qt.sched s 0 .results (by simp)
  split_ifs
  · refine (h.trans (.same ?_ ?_)).trans (Qt.emit _ _ rfl) <;> rfl
  · refine (h.trans (.same ?_ ?_)).trans (Qt.emit _ _ rfl) <;> rfl

theorem qt_doneLoop (ok : Bool) (q : UInt16) (rest : List Rec) : ∀ (pre : List Rec) (s : St),
    Qt s (doneLoop ok q pre rest s) := by
  induction hn : rest.length using Nat.strong_induction_on generalizing rest with
  | _ n ih =>
    intro pre s
    match rest with
    | [] => exact .same rfl rfl
    | r :: rest =>
      unfold doneLoop
      split_ifs
      · exact (Qt.sched s 0 .results (by simp)).trans (.same rfl rfl)
      · match rest with
        | [] => exact (qt_settle ok r s).trans (.same rfl rfl)
        | r' :: rest' =>
          exact (qt_settle ok r s).trans (ih _ (by simp only [List.length_cons] at hn; omega) rest' rfl _ _)
      · exact ih _ (by simp only [List.length_cons] at hn; omega) rest rfl _ _

theorem qt_sendDataDone (ok : Bool) (q : UInt16) (s : St) : Qt s (sendDataDone ok q s) := qt_doneLoop _ _ _ _ _

theorem qt_results (s : St) : Qt s (resultsRecord s) := by
  unfold resultsRecord
  split
  · exact .same rfl rfl
  · exact .emit _ _ rfl

theorem qt_sendPacketDone (c : Cfg) (f : Frame) (s : St) : Qt s (sendPacketDone c f s) := by
  unfold sendPacketDone
  dsimp only
  have h : Qt s (({ s with phyTx := none } : St).emit (.txEnd f)) :=
    Qt.trans (b := { s with phyTx := none }) (.same rfl rfl) (Qt.emit _ _ rfl)
  have h2 : Qt s { (({ s with phyTx := none } : St).emit (.txEnd f)) with state := .idle } := h.trans (.same rfl rfl)
  split
  · exact h
  · split
    · exact h2
    · exact h2
    · split
      · exact (h2.trans (qt_sendDataDone _ _ _)).trans (qt_cca _ _)
      · exact h2
    · exact h2.trans (qt_cca _ _)

theorem qt_backoff (c : Cfg) (k : UInt16) (s : St) : Qt s (backoff c k s) :=
  Qt.trans (b := { s with retry := k, rngIdx := s.rngIdx + 1 }) (.same rfl rfl) (Qt.sched _ _ _ (by simp))

theorem qt_charge (c : Cfg) (r : Rec) (s : St) : Qt s (charge c r s) := by
  unfold charge
  dsimp only
  have h := Qt.emit s (.timedOut r.pkt r.retry) rfl
  split
  · refine (h.trans (.same ?_ ?_)).trans (Qt.sched _ _ _ (by simp)) <;> rfl
  · exact h.trans (qt_backoff _ _ _)

theorem qt_foldl_charge (c : Cfg) (l : List Rec) (s : St) : Qt s (l.foldl (fun s r => charge c r s) s) := by
  induction l generalizing s with
  | nil => exact .refl
  | cons r l ih => exact (qt_charge c r s).trans (ih _)

theorem qt_timeoutLoop (c : Cfg) (q : UInt16) (s : St) : Qt s (timeoutLoop c q s) :=
  Qt.trans (b := { s with state := .idle, recs := s.recs.map (Rec.bump q) }) (.same rfl rfl) (qt_foldl_charge _ _ _)

theorem qt_ctsTimeout (c : Cfg) (q : UInt16) (s : St) : Qt s (ctsTimeout c q s) :=
  Qt.trans (b := { s with ctsTO := s.ctsTO.eraseP (fun t => t.seq = q) }) (.same rfl rfl) (qt_timeoutLoop _ _ _)

theorem qt_ackTimeout (c : Cfg) (q : UInt16) (s : St) : Qt s (ackTimeout c q s) :=
  Qt.trans (b := { s with ackTO := s.ackTO.eraseP (fun t => t.seq = q) }) (.same rfl rfl) (qt_timeoutLoop _ _ _)

theorem qt_receiveRts (c : Cfg) (me : Mac48) (f : Frame) (g : UInt16) (s : St) : Qt s (receiveRts c me f g s) := by
  unfold receiveRts
  split_ifs
  · exact ((qt_updateNav _ _ _).trans (Qt.same (s' := { updateNav c (durOf c g) s with state := .idle }) rfl rfl)).trans
      (qt_cca _ _)
  · exact qt_cca _ _
  · exact Qt.trans (b := { updateLocalNav c (durOf c g) s with state := .waitTx }) (.same rfl rfl)
      (Qt.sched _ _ _ (by simp))

theorem qt_sendCts (c : Cfg) (me d : Mac48) (t : ℤ) (q : UInt16) (s : St) : Qt s (sendCts c me d t q s) := by
  unfold sendCts
  have h := qt_sendPacket_ctrl c (ctsFrame c me d t q) s (by simp [ctsFrame]) (by simp [ctsFrame])
  split
  · rename_i s' e
    rw [e] at h
    exact h.trans (.same rfl rfl)
  · rename_i s' e
    rw [e] at h; exact h

theorem qt_sendAck (c : Cfg) (me d : Mac48) (q : UInt16) (s : St) : Qt s (sendAck c me d q s) :=
  Qt.trans (b := updateLocalNav c (c.ctrlDur .ack + c.tProp + c.slot) s) (.same rfl rfl)
    (qt_sendPacket_ctrl c (ackFrame me d q) _ (by simp [ackFrame]) (by simp [ackFrame]))

theorem qt_forward (f : Frame) (s : St) : Qt s (forwardIfNew f s) := by
  unfold forwardIfNew
  dsimp only
  split
  · exact Qt.trans (b := { s with seqList := (isNewSequence s.seqList f.src f.seq).2 }) (.same rfl rfl) (Qt.emit _ _ rfl)
  · exact .same rfl rfl

theorem qt_receiveData (c : Cfg) (me : Mac48) (f : Frame) (s : St) : Qt s (receiveData c me f s) := by
  unfold receiveData
  split_ifs
  · have h : Qt s { s with state := .idle } := .same rfl rfl
    exact (h.trans (qt_forward f _)).trans (qt_cca c _)
  · exact ((qt_updateNav _ _ _).trans (Qt.same (s' := { updateNav c (durOf c f.dur) s with state := .idle }) rfl rfl)).trans
      (qt_cca _ _)
  · have h : Qt s { updateLocalNav c (durOf c f.dur) s with state := .waitTx } := .same rfl rfl
    exact (h.trans (Qt.sched _ c.sifs (.sendAck f.src f.seq) (by simp))).trans (qt_forward f _)

theorem qt_receiveAck (c : Cfg) (me : Mac48) (f : Frame) (s : St) : Qt s (receiveAck c me f s) := by
  unfold receiveAck
  dsimp only
  have h : Qt s { s with state := .idle } := .same rfl rfl
  split
  · split
    · exact ((h.trans (Qt.cancel _ _)).trans (Qt.sched _ _ _ (by simp))).trans (.same rfl rfl)
    · exact h.trans (qt_cca _ _)
  · exact h.trans (qt_cca _ _)

theorem qt_receivePacket (c : Cfg) (s : St) : Qt s (receivePacket c s) := by
  unfold receivePacket
  dsimp only
  split
  · exact qt_busy _ _
  · exact (qt_busy _ _).trans (.same rfl rfl)

/-! ## The two exceptions -/

/-- `ReceiveCts` schedules at most one `SendData`. -/
theorem receiveCts_sds (c : Cfg) (me : Mac48) (f : Frame) (s : St) :
    air (receiveCts c me f s).log = air s.log ∧
    ∀ p ∈ sds (receiveCts c me f s).pend, p ∈ sds s.pend ∨
      (f.dst = me ∧ (∃ t ∈ s.ctsTO, t.seq = f.seq) ∧ findPkt f.seq s.recs s.pktData = some p) := by
  unfold receiveCts
  split
  · have h := ((qt_updateNav c (durOf c f.dur) s).trans
      (Qt.same (s' := { updateNav c (durOf c f.dur) s with state := .idle }) rfl rfl)).trans (qt_cca c _)
    exact ⟨h.air, fun p hp => .inl (h.sds p hp)⟩
  · rename_i hd
    dsimp only
    split
    · rename_i t p h1 h2
      refine ⟨rfl, fun x hx => ?_⟩
      have hx' : x ∈ sds (s.pend.filter (fun e => e.1 ≠ t.tid) ++ [(s.nextTid, s.now + c.ps 1, .sendData p)]) := hx
      rw [sds_append] at hx'
      rcases List.mem_append.1 hx' with h | h
      · exact .inl (sds_filter h)
      · right
        have e : x = p := by simpa [sds, sdOf] using h
        subst e
        exact ⟨not_not.1 hd, ⟨t, List.mem_of_find?_eq_some h1, by simpa using List.find?_some h1⟩, h2⟩
    · exact ⟨rfl, fun p hp => .inl hp⟩

theorem sendRts_air (c : Cfg) (me : Mac48) (p : Pkt) (s : St) :
    (∀ g ∈ air (sendRts c me p s).log, g ∈ air s.log ∨ g = rtsFrame me p) ∧
    (∀ x ∈ sds (sendRts c me p s).pend, x ∈ sds s.pend) := by
  have h := qt_sendPacket c (rtsFrame me p) s
  unfold sendRts
  split
  · rename_i s' e
    rw [e] at h
    have h2 : Qt s' { (updateLocalNav c (ctsTimeoutDur c) s').sched (ctsTimeoutDur c) (.ctsTimeout p.seq) with
        ctsTO := (updateLocalNav c (ctsTimeoutDur c) s').ctsTO ++ [⟨p.seq, (updateLocalNav c (ctsTimeoutDur c) s').nextTid⟩] } :=
      Qt.trans (Qt.trans (b := updateLocalNav c (ctsTimeoutDur c) s') (.same rfl rfl)
        (Qt.sched _ (ctsTimeoutDur c) (.ctsTimeout p.seq) (by simp))) (.same rfl rfl)
    exact ⟨fun g hg => h.1 g (by rw [← h2.air]; exact hg), fun x hx => h.2 x (h2.sds x hx)⟩
  · rename_i s' e
    rw [e] at h
    have h2 := qt_startOver c s'
    exact ⟨fun g hg => h.1 g (by rw [← h2.air]; exact hg), fun x hx => h.2 x (h2.sds x hx)⟩

theorem sendData_air (c : Cfg) (me : Mac48) (p : Pkt) (s : St) :
    (∀ g ∈ air (sendData c me p s).log, g ∈ air s.log ∨ g = dataFrame me p) ∧
    (∀ x ∈ sds (sendData c me p s).pend, x ∈ sds s.pend) := by
  have h := qt_sendPacket c (dataFrame me p) { s with pktData := some p }
  unfold sendData
  split
  · exact ⟨fun g hg => .inl hg, fun x hx => hx⟩
  · split
    · rename_i s' e
      rw [e] at h
      split
      · exact h
      · have h2 : Qt s' { (updateLocalNav c (ackTimeoutDur c p) s').sched (ackTimeoutDur c p) (.ackTimeout p.seq) with
            ackTO := (updateLocalNav c (ackTimeoutDur c p) s').ackTO ++
              [⟨p.seq, (updateLocalNav c (ackTimeoutDur c p) s').nextTid⟩] } :=
          Qt.trans (Qt.trans (b := updateLocalNav c (ackTimeoutDur c p) s') (.same rfl rfl)
            (Qt.sched _ (ackTimeoutDur c p) (.ackTimeout p.seq) (by simp))) (.same rfl rfl)
        exact ⟨fun g hg => h.1 g (by rw [← h2.air]; exact hg), fun x hx => h.2 x (h2.sds x hx)⟩
    · rename_i s' e
      rw [e] at h
      have h2 := qt_startOver c s'
      exact ⟨fun g hg => h.1 g (by rw [← h2.air]; exact hg), fun x hx => h.2 x (h2.sds x hx)⟩

theorem granted_air (c : Cfg) (me : Mac48) (s : St) :
    (∀ g ∈ air (granted c me s).log, g ∈ air s.log ∨
      ∃ p, s.queue.head? = some p ∧ (g = rtsFrame me p ∨ g = dataFrame me p)) ∧
    (∀ x ∈ sds (granted c me s).pend, x ∈ sds s.pend) := by
  unfold granted
  split
  · exact ⟨fun g hg => .inl hg, fun x hx => hx⟩
  · rename_i p rest e
    dsimp only
    split
    · have h := sendRts_air c me p { s with boStart := 0, boRemain := 0, pktData := some p, state := .waitTx }
      refine ⟨fun g hg => ?_, h.2⟩
      rcases h.1 g hg with h | h
      · exact .inl h
      · exact .inr ⟨p, by rw [e]; rfl, .inl h⟩
    · have h := sendData_air c me p { s with boStart := 0, boRemain := 0, pktData := some p, state := .waitTx }
      refine ⟨fun g hg => ?_, h.2⟩
      rcases h.1 g hg with h | h
      · exact .inl h
      · exact .inr ⟨p, by rw [e]; rfl, .inr h⟩

/-- What a step adds to the RTS and DATA frames handed over. -/
theorem step_air (c : Cfg) (me : Mac48) (s : St) (op : Op) :
    ∀ g ∈ air (step c me s op).log, g ∈ air s.log ∨
      (∃ p, s.queue.head? = some p ∧ (g = rtsFrame me p ∨ g = dataFrame me p)) ∨
      ∃ p ∈ sds s.pend, g = dataFrame me p := by
  have q : ∀ {s'}, Qt s s' → ∀ g ∈ air s'.log, g ∈ air s.log ∨
      (∃ p, s.queue.head? = some p ∧ (g = rtsFrame me p ∨ g = dataFrame me p)) ∨
      ∃ p ∈ sds s.pend, g = dataFrame me p := fun h g hg => .inl (by rwa [h.air] at hg)
  cases op with
  | enqueue b d g => exact q (qt_enqueue c b d g s)
  | rxStart => exact q (qt_receivePacket c s)
  | sense b => exact q (.same rfl rfl)
  | advance d => exact q (.same rfl rfl)
  | rxDone f ok g =>
    show ∀ x ∈ air (receivePacketDone c me f ok g s).log, _
    unfold receivePacketDone
    dsimp only
    split
    · exact q (.same rfl rfl)
    · have h : Qt s (({ s with state := .idle } : St).emit (.rx f)) :=
        Qt.trans (b := { s with state := .idle }) (.same rfl rfl) (Qt.emit _ _ rfl)
      split
      · exact q (h.trans (qt_receiveRts _ _ _ _ _))
      · intro x hx
        rw [(receiveCts_sds c me f _).1, h.air] at hx
        exact .inl hx
      · exact q (h.trans (qt_receiveData _ _ _ _))
      · exact q (h.trans (qt_receiveAck _ _ _ _))
      · exact q (h.trans (qt_cca _ _))
  | fire tid =>
    show ∀ x ∈ air (fire c me tid s).log, _
    unfold fire
    split
    · exact fun g hg => .inl hg
    · rename_i t due e he
      have hm : (t, due, e) ∈ s.pend := List.mem_of_find?_eq_some he
      set s1 : St := { s with pend := s.pend.filter (fun e => e.1 ≠ tid), now := max s.now due } with hs1
      have h1 : Qt s s1 := ⟨rfl, fun _ h => sds_filter h⟩
      unfold runEv
      cases e with
      | cca => exact q (h1.trans (qt_cca _ _))
      | backoffStart => exact q (h1.trans (qt_backoffStart _ _))
      | granted =>
        intro g hg
        rcases (granted_air c me s1).1 g hg with h | ⟨p, h, h'⟩
        · exact .inl h
        · exact .inr (.inl ⟨p, h, h'⟩)
      | ctsTimeout x => exact q (h1.trans (qt_ctsTimeout _ _ _))
      | ackTimeout x => exact q (h1.trans (qt_ackTimeout _ _ _))
      | sendCts d y x => exact q (h1.trans (qt_sendCts _ _ _ _ _ _))
      | sendData p =>
        intro g hg
        rcases (sendData_air c me p s1).1 g hg with h | h
        · exact .inl h
        · exact .inr (.inr ⟨p, mem_sds.2 ⟨t, due, hm⟩, h⟩)
      | sendAck d x => exact q (h1.trans (qt_sendAck _ _ _ _ _))
      | sendDataDone ok x => exact q (h1.trans (qt_sendDataDone _ _ _))
      | results => exact q (h1.trans (qt_results _))
      | phyDone f => exact q (h1.trans (qt_sendPacketDone _ _ _))

/-- What a step adds to the pending DATA transmissions. -/
theorem step_sds (c : Cfg) (me : Mac48) (s : St) (op : Op) :
    ∀ p ∈ sds (step c me s op).pend, p ∈ sds s.pend ∨
      ∃ f g, op = .rxDone f true g ∧ f.kind = .cts ∧ f.dst = me ∧ (∃ t ∈ s.ctsTO, t.seq = f.seq) ∧
        findPkt f.seq s.recs s.pktData = some p := by
  have q : ∀ {s'}, Qt s s' → ∀ p ∈ sds s'.pend, p ∈ sds s.pend ∨
      ∃ f g, op = .rxDone f true g ∧ f.kind = .cts ∧ f.dst = me ∧ (∃ t ∈ s.ctsTO, t.seq = f.seq) ∧
        findPkt f.seq s.recs s.pktData = some p := fun h p hp => .inl (h.sds p hp)
  cases op with
  | enqueue b d g => exact q (qt_enqueue c b d g s)
  | rxStart => exact q (qt_receivePacket c s)
  | sense b => exact q (.same rfl rfl)
  | advance d => exact q (.same rfl rfl)
  | rxDone f ok g =>
    show ∀ x ∈ sds (receivePacketDone c me f ok g s).pend, _
    unfold receivePacketDone
    dsimp only
    split
    · exact q (.same rfl rfl)
    · rename_i hok
      have hok : ok = true := by simpa using hok
      subst hok
      have h : Qt s (({ s with state := .idle } : St).emit (.rx f)) :=
        Qt.trans (b := { s with state := .idle }) (.same rfl rfl) (Qt.emit _ _ rfl)
      split
      · exact q (h.trans (qt_receiveRts _ _ _ _ _))
      · rename_i hk
        intro x hx
        rcases (receiveCts_sds c me f _).2 x hx with h' | ⟨h1, h2, h3⟩
        · exact .inl h'
        · exact .inr ⟨f, g, rfl, hk, h1, h2, h3⟩
      · exact q (h.trans (qt_receiveData _ _ _ _))
      · exact q (h.trans (qt_receiveAck _ _ _ _))
      · exact q (h.trans (qt_cca _ _))
  | fire tid =>
    show ∀ x ∈ sds (fire c me tid s).pend, _
    unfold fire
    split
    · exact fun g hg => .inl hg
    · rename_i t due e he
      set s1 : St := { s with pend := s.pend.filter (fun e => e.1 ≠ tid), now := max s.now due } with hs1
      have h1 : Qt s s1 := ⟨rfl, fun _ h => sds_filter h⟩
      unfold runEv
      cases e with
      | cca => exact q (h1.trans (qt_cca _ _))
      | backoffStart => exact q (h1.trans (qt_backoffStart _ _))
      | granted => exact fun p hp => .inl (h1.sds p ((granted_air c me s1).2 p hp))
      | ctsTimeout x => exact q (h1.trans (qt_ctsTimeout _ _ _))
      | ackTimeout x => exact q (h1.trans (qt_ackTimeout _ _ _))
      | sendCts d y x => exact q (h1.trans (qt_sendCts _ _ _ _ _ _))
      | sendData p => exact fun x hx => .inl (h1.sds x ((sendData_air c me p s1).2 x hx))
      | sendAck d x => exact q (h1.trans (qt_sendAck _ _ _ _ _))
      | sendDataDone ok x => exact q (h1.trans (qt_sendDataDone _ _ _))
      | results => exact q (h1.trans (qt_results _))
      | phyDone f => exact q (h1.trans (qt_sendPacketDone _ _ _))

/-! ## Transmission in order -/

/-- No earlier packet is queued. -/
def Passed (s : St) (p : Pkt) : Prop := ∀ x ∈ s.queue, p.uid ≤ x.uid

/-- What micro-steps do to the queue. -/
theorem mis_queue {A : Frame → Prop} {v w : SV} (h : Mis c me A v w) :
    v.nextUid ≤ w.nextUid ∧ ∀ x ∈ w.queue, x ∈ v.queue ∨ v.nextUid ≤ x.uid := by
  induction h with
  | refl => exact ⟨le_refl _, fun x hx => .inl hx⟩
  | tail _ h ih =>
    rename_i b d _
    have key : b.nextUid ≤ d.nextUid ∧ ∀ x ∈ d.queue, x ∈ b.queue ∨ b.nextUid ≤ x.uid := by
      cases h.eff with
      | silent l hq _ hu _ _ _ => rw [hq, hu]; exact ⟨le_refl _, fun x hx => .inl hx⟩
      | accept bd dst g t hq _ hu _ _ =>
        rw [hq, hu]
        refine ⟨Nat.le_succ _, fun x hx => ?_⟩
        rcases List.mem_append.1 hx with h | h
        · exact .inl h
        · rw [List.mem_singleton.1 h]; exact .inr (le_refl _)
      | settle ok pre r rest _ _ hq _ hu _ _ =>
        rw [hq, hu]
        refine ⟨le_refl _, fun x hx => .inl ?_⟩
        cases ok
        · exact hx
        · exact (List.mem_filter.1 hx).1
      | charge pre r rest _ _ _ hq _ hu _ _ => rw [hq, hu]; exact ⟨le_refl _, fun x hx => .inl hx⟩
      | giveUp pre r rest _ _ _ hq _ hu _ _ =>
        rw [hq, hu]; exact ⟨le_refl _, fun x hx => .inl (List.mem_filter.1 hx).1⟩
    refine ⟨ih.1.trans key.1, fun x hx => ?_⟩
    rcases key.2 x hx with h | h
    · exact ih.2 x h
    · exact .inr (ih.1.trans h)

theorem Passed.step {s : St} {p : Pkt} (h : Passed s p) (b : Basic c me s.sv) (hp : p.uid < s.nextUid) (op : Op) :
    Passed (step c me s op) p := by
  intro x hx
  have hm := mis_queue (mis_step (A := fun _ => True) s op b (fun _ _ _ => trivial))
  rcases hm.2 x hx with h1 | h1
  · exact h x h1
  · exact hp.le.trans h1

/-- RTS and DATA frames handed over or scheduled belong to packets before which nothing is queued. -/
structure OrdInv (s : St) : Prop where
  hand : ∀ f ∈ air s.log, ∃ p, Obs.accepted p ∈ s.log ∧ f.seq = p.seq ∧ Passed s p
  sd : ∀ p ∈ sds s.pend, Obs.accepted p ∈ s.log ∧ Passed s p

/-- No CTS for a packet that has its outcome. -/
def NotLate (me : Mac48) (s : St) (op : Op) : Prop :=
  ∀ f g, op = .rxDone f true g → f.kind = .cts → f.dst = me → ∀ ok p, Obs.done ok p ∈ s.log → p.seq ≠ f.seq

theorem OrdInv.init (seq0 : UInt16) : OrdInv (init seq0) := by
  constructor <;> simp [Macro.init, Macro.air, Macro.sds]

theorem head_passed {seq0 : UInt16} {s : St} (k : PkInv seq0 s.sv) {p : Pkt} (h : s.queue.head? = some p) : Passed s p := by
  intro x hx
  have hs : s.queue.Pairwise (fun a b => a.uid < b.uid) := k.qSorted
  cases hq : s.queue with
  | nil => rw [hq] at hx; cases hx
  | cons y l =>
    rw [hq] at h hx hs
    have e : y = p := by simpa using h
    subst e
    rcases List.mem_cons.1 hx with rfl | h1
    · exact le_refl _
    · exact ((List.pairwise_cons.1 hs).1 x h1).le

theorem OrdInv.step {seq0 : UInt16} {s : St} (i : OrdInv s) (b : Basic c me s.sv) (k : PkInv seq0 s.sv)
    (hcts : ∀ t ∈ s.ctsTO, ∃ f, Obs.handed f ∈ s.log ∧ f.kind = .rts ∧ f.seq = t.seq) (hn : s.nextUid ≤ 65536)
    {op : Op} (hl : NotLate me s op) : OrdInv (step c me s op) := by
  have hm := mis_step (A := fun _ => True) s op b (fun _ _ _ => trivial)
  have hlog : ∀ o ∈ s.log, o ∈ (Macro.step c me s op).log := hm.log_mem
  have hst : ∀ p, Obs.accepted p ∈ s.log → Passed s p →
      Obs.accepted p ∈ (Macro.step c me s op).log ∧ Passed (Macro.step c me s op) p :=
    fun p h h' => ⟨hlog _ h, h'.step b (k.accLt p h).1 op⟩
  constructor
  · intro f hf
    rcases step_air c me s op f hf with h | ⟨p, h, h'⟩ | ⟨p, h, h'⟩
    · obtain ⟨p, h1, h2, h3⟩ := i.hand f h
      exact ⟨p, (hst p h1 h3).1, h2, (hst p h1 h3).2⟩
    · have h1 : Obs.accepted p ∈ s.log := b.queue p (List.mem_of_mem_head? h)
      have h2 := hst p h1 (head_passed k h)
      refine ⟨p, h2.1, ?_, h2.2⟩
      rcases h' with rfl | rfl <;> rfl
    · obtain ⟨h1, h2⟩ := i.sd p h
      have h3 := hst p h1 h2
      exact ⟨p, h3.1, by rw [h']; rfl, h3.2⟩
  · intro p hp
    rcases step_sds c me s op p hp with h | ⟨f, g, h1, h2, h3, ⟨t, h4, h5⟩, h6⟩
    · obtain ⟨h1, h2⟩ := i.sd p h
      exact hst p h1 h2
    · obtain ⟨r, hr1, hr2, hr3⟩ := hcts t h4
      obtain ⟨p0, hp1, hp2, hp3⟩ := i.hand r (mem_air.2 ⟨hr1, .inl hr2⟩)
      have hseq : p0.seq = f.seq := by rw [← hp2, hr3, h5]
      have hrec : ∃ x ∈ s.recs, x.pkt.seq = f.seq := by
        rcases k.kept p0 hp1 with ⟨x, hx, e⟩ | ⟨ok, hx⟩
        · exact ⟨x, hx, by rw [e, hseq]⟩
        · exact absurd hseq (hl f g h1 h2 h3 ok p0 hx)
      obtain ⟨x, hx1, hx2, hx3⟩ := findPkt_spec f.seq s.recs s.pktData hrec
      have e : p = x.pkt := by rw [h6] at hx2; exact Option.some.inj hx2
      have hacc : Obs.accepted p ∈ s.log := by rw [e]; exact (b.recs x hx1).1
      have e2 : p = p0 := k.seq_inj hn hacc hp1 (by rw [e, hx3, hseq])
      rw [e2]
      exact hst p0 hp1 hp3

/-! ## What is passed up -/

/-- The sequence numbers of the packets from `a` that were passed up, oldest first. -/
def upsFrom (a : Mac48) (log : List Obs) : List UInt16 :=
  log.filterMap fun o => match o with
    | .up _ src _ q => if src = a then some q else none
    | _ => none

theorem upsFrom_append (a : Mac48) (l1 l2 : List Obs) : upsFrom a (l1 ++ l2) = upsFrom a l1 ++ upsFrom a l2 :=
  List.filterMap_append

theorem mem_upsFrom {a : Mac48} {log : List Obs} {q} :
    q ∈ upsFrom a log ↔ ∃ b d, Obs.up b a d q ∈ log := by
  unfold upsFrom
  rw [List.mem_filterMap]
  constructor
  · rintro ⟨o, ho, h⟩
    cases o <;> simp at h
    obtain ⟨rfl, rfl⟩ := h
    exact ⟨_, _, ho⟩
  · rintro ⟨b, d, h⟩
    exact ⟨_, h, by simp⟩

/-- The sequence numbers passed up per source grow, and the filter holds the last one. -/
def UpInv (v : SV) : Prop :=
  ∀ a, (upsFrom a v.log).Pairwise (· < ·) ∧ (upsFrom a v.log).getLast? = stored v.seqList a

theorem UpInv.fwd {v : SV} (h : UpInv v) (f : Frame) : UpInv (v.fwd f) := by
  intro a
  have hs := isNew_stored v.seqList f.src a f.seq
  have hn := isNew_fst v.seqList f.src f.seq
  unfold SV.fwd
  dsimp only
  by_cases hb : (isNewSequence v.seqList f.src f.seq).1 = true
  · rw [if_pos hb] at hs ⊢
    show (upsFrom a (v.log ++ [Obs.up f.body f.src f.dst f.seq])).Pairwise _ ∧
      (upsFrom a (v.log ++ [Obs.up f.body f.src f.dst f.seq])).getLast? = stored (isNewSequence v.seqList f.src f.seq).2 a
    rw [hs, upsFrom_append]
    by_cases ha : a = f.src
    · subst ha
      have e : upsFrom f.src [Obs.up f.body f.src f.dst f.seq] = [f.seq] := by simp [upsFrom]
      rw [e, if_pos rfl]
      refine ⟨List.pairwise_append.2 ⟨(h f.src).1, List.pairwise_singleton _ _, ?_⟩, by simp⟩
      intro q hq x hx
      rw [List.mem_singleton.1 hx]
      obtain ⟨h1, h2⟩ := h f.src
      obtain ⟨l, z, hz⟩ : ∃ l z, upsFrom f.src v.log = l ++ [z] := by
        rcases List.eq_nil_or_concat (upsFrom f.src v.log) with h3 | ⟨l, z, h3⟩
        · rw [h3] at hq; cases hq
        · exact ⟨l, z, by simpa using h3⟩
      rw [hz] at h1 h2 hq
      have hlt : z < f.seq := hn.1 hb z (by rw [← h2]; simp)
      rcases List.mem_append.1 hq with h3 | h3
      · have := (List.pairwise_append.1 h1).2.2 q h3 z (List.mem_singleton.2 rfl)
        exact UInt16.lt_trans this hlt
      · rw [List.mem_singleton.1 h3]; exact hlt
    · have e : upsFrom a [Obs.up f.body f.src f.dst f.seq] = [] := by simp [upsFrom, Ne.symm ha]
      rw [e, if_neg ha, List.append_nil]
      exact h a
  · rw [if_neg hb] at hs ⊢
    show (upsFrom a v.log).Pairwise _ ∧ (upsFrom a v.log).getLast? = stored (isNewSequence v.seqList f.src f.seq).2 a
    rw [hs]
    by_cases ha : a = f.src
    · rw [if_pos ha, ← ha]; exact h a
    · rw [if_neg ha]; exact h a

/-- A micro-step other than `fwd` passes nothing up and leaves the filter alone. -/
theorem Mi.ups {A : Frame → Prop} {v w : SV} (h : Mi c me A v w) :
    (w.seqList = v.seqList ∧ ∃ l, w.log = v.log ++ l ∧ ∀ o ∈ l, ∀ b a d q, o ≠ Obs.up b a d q) ∨
    ∃ f, w = v.fwd f ∧ Obs.rx f ∈ v.log ∧ f.kind = .data ∧ (f.dst = me ∨ f.dst = bcast) := by
  cases h with
  | fwd f h1 h2 h3 => exact .inr ⟨f, rfl, h1, h2, h3⟩
  | note o ho => exact .inl ⟨rfl, [o], rfl, by rintro x hx b a d q rfl; rw [← List.mem_singleton.1 hx] at ho; exact ho⟩
  | rx f _ => exact .inl ⟨rfl, [.rx f], rfl, by simp⟩
  | accept b dst g t _ => exact .inl ⟨rfl, [_], rfl, by simp⟩
  | handRts p _ _ _ _ => exact .inl ⟨rfl, [_], rfl, by simp⟩
  | handData p _ _ _ => exact .inl ⟨rfl, [_], rfl, by simp⟩
  | handBcast p _ _ _ => exact .inl ⟨rfl, [_], rfl, by simp⟩
  | handCts d t q _ _ => exact .inl ⟨rfl, [_], rfl, by simp⟩
  | handAck d q _ _ => exact .inl ⟨rfl, [_], rfl, by simp⟩
  | txEnd t f _ => exact .inl ⟨rfl, [_], rfl, by simp⟩
  | settle ok q pre r rest _ _ _ _ => exact .inl ⟨rfl, [_], rfl, by simp⟩
  | charge q pre r rest _ _ _ _ => exact .inl ⟨rfl, [_], rfl, by simp⟩
  | giveUp q pre r rest _ _ _ _ => exact .inl ⟨rfl, [_], rfl, by simp⟩
  | _ => exact .inl ⟨rfl, [], (List.append_nil _).symm, by simp⟩

theorem upsFrom_none {a : Mac48} {l : List Obs} (h : ∀ o ∈ l, ∀ b a d q, o ≠ Obs.up b a d q) : upsFrom a l = [] := by
  by_contra hne
  obtain ⟨q, hq⟩ := List.exists_mem_of_ne_nil _ hne
  obtain ⟨b, d, hm⟩ := mem_upsFrom.mp hq
  exact h _ hm b a d q rfl

theorem UpInv.mi {A : Frame → Prop} {v w : SV} (i : UpInv v) (h : Mi c me A v w) : UpInv w := by
  rcases h.ups with ⟨h1, l, h2, h3⟩ | ⟨f, rfl, -⟩
  · intro a
    rw [h1, h2, upsFrom_append, upsFrom_none h3, List.append_nil]
    exact i a
  · exact i.fwd f

theorem UpInv.after (c : Cfg) (me : Mac48) (seq0 : UInt16) (ops : List Op) : UpInv (after c me seq0 ops).sv :=
  inv_after c me seq0 (by intro a; simp [upsFrom, Macro.init, St.sv, stored]) (fun _ _ _ i h => i.mi h) ops

end Thz.Macro
