import Verif.MacroInv
import Mathlib.Data.List.Nodup

/-!
# What one step of the macro MAC does to its PHY (helper lemmas)

Each operation of the macro MAC either leaves the transmitter alone, or hands over exactly one frame while the transmitter is free.
The end of a transmission stays scheduled until it is run: no timeout that is cancelled is mistaken for it.
-/

namespace Thz.Macro

open Thz
open Thz.Nano (Body Kind bcast)

variable {c : Cfg} {me : Mac48}

/-- The scheduled end of a transmission. -/
def txEvOf : Nat × ℤ × Ev → Option (Nat × ℤ × Frame)
  | (t, d, .phyDone f) => some (t, d, f)
  | _ => none

/-- The scheduled ends of transmissions. -/
def txEvs (l : List (Nat × ℤ × Ev)) : List (Nat × ℤ × Frame) := l.filterMap txEvOf

theorem txEvs_append (a b : List (Nat × ℤ × Ev)) : txEvs (a ++ b) = txEvs a ++ txEvs b := List.filterMap_append

theorem mem_txEvs {l : List (Nat × ℤ × Ev)} {t : Nat} {d : ℤ} {f : Frame} :
    (t, d, f) ∈ txEvs l ↔ (t, d, Ev.phyDone f) ∈ l := by
  unfold txEvs
  rw [List.mem_filterMap]
  constructor
  · rintro ⟨⟨t', d', e⟩, ho, h⟩
    cases e <;> simp only [txEvOf] at h <;> cases h
    exact ho
  · intro h
    exact ⟨_, h, rfl⟩

/-- Removing other events leaves the ends of transmissions. -/
theorem txEvs_filter {l : List (Nat × ℤ × Ev)} {q : Nat × ℤ × Ev → Bool}
    (h : ∀ t d f, (t, d, Ev.phyDone f) ∈ l → q (t, d, .phyDone f) = true) : txEvs (l.filter q) = txEvs l := by
  induction l with
  | nil => rfl
  | cons e l ih =>
    have ih' := ih (fun t d f hm => h t d f (List.mem_cons_of_mem _ hm))
    obtain ⟨t, d, e⟩ := e
    by_cases hq : q (t, d, e) = true
    · rw [List.filter_cons_of_pos hq]
      show txEvs ([(t, d, e)] ++ l.filter q) = txEvs ([(t, d, e)] ++ l)
      rw [txEvs_append, txEvs_append, ih']
    · rw [List.filter_cons_of_neg hq, ih']
      show txEvs l = txEvs ([(t, d, e)] ++ l)
      rw [txEvs_append]
      have : txEvs [(t, d, e)] = [] := by
        cases e <;> first | rfl | exact absurd (h t d _ List.mem_cons_self) hq
      rw [this]; rfl

/-- The event numbers the MAC may cancel. -/
def St.mayCancel (s : St) : List Nat := s.ctsTO.map (·.tid) ++ s.ackTO.map (·.tid) ++ s.boEv.toList

/-- Event numbers are below the counter and unique, and those the MAC may cancel are not ends of transmissions. -/
structure TidP (s : St) : Prop where
  lt : ∀ e ∈ s.pend, e.1 < s.nextTid
  uniq : (s.pend.map (·.1)).Nodup
  can : ∀ t ∈ s.mayCancel, t < s.nextTid ∧ ∀ d f, (t, d, Ev.phyDone f) ∉ s.pend

theorem TidP.init (q : UInt16) : TidP (init q) :=
  ⟨(by intro e h; cases h), (by simp [Macro.init]), (by intro t h; simp [St.mayCancel, Macro.init] at h)⟩

/-- The log entries about the PHY. -/
def phyObs : Obs → Bool
  | .handed _ => true
  | .txEnd _ => true
  | .rx _ => true
  | _ => false

/-- The transmitter is left alone. -/
structure Tq (s s' : St) : Prop where
  now : s'.now = s.now
  sense : s'.sense = s.sense
  phy : s'.phyTx = s.phyTx
  log : ∃ l, s'.log = s.log ++ l ∧ l.filter phyObs = []
  ok : TidP s → TidP s' ∧ txEvs s'.pend = txEvs s.pend

/-- One frame is handed over. -/
structure Th (c : Cfg) (f : Frame) (s s' : St) : Prop where
  now : s'.now = s.now
  sense : s'.sense = s.sense
  free : s.phyTx = none
  phy : s'.phyTx = some f
  log : ∃ l, s'.log = s.log ++ l ∧ l.filter phyObs = [.handed f]
  ok : TidP s → TidP s' ∧ ∃ t, txEvs s'.pend = txEvs s.pend ++ [(t, s.now + c.frameDur f, f)]

theorem Tq.refl {s : St} : Tq s s := ⟨rfl, rfl, rfl, ⟨[], by simp, rfl⟩, fun h => ⟨h, rfl⟩⟩

theorem Tq.trans {a b d : St} (h : Tq a b) (h' : Tq b d) : Tq a d := by
  refine ⟨h'.now.trans h.now, h'.sense.trans h.sense, h'.phy.trans h.phy, ?_, fun hp => ?_⟩
  · obtain ⟨l, e, q⟩ := h.log
    obtain ⟨l', e', q'⟩ := h'.log
    exact ⟨l ++ l', by rw [e', e, List.append_assoc], by rw [List.filter_append, q, q']; rfl⟩
  · obtain ⟨h1, e1⟩ := h.ok hp
    obtain ⟨h2, e2⟩ := h'.ok h1
    exact ⟨h2, e2.trans e1⟩

theorem Th.before {f : Frame} {a b d : St} (h : Tq a b) (h' : Th c f b d) : Th c f a d := by
  refine ⟨h'.now.trans h.now, h'.sense.trans h.sense, by rw [← h.phy]; exact h'.free, h'.phy, ?_, fun hp => ?_⟩
  · obtain ⟨l, e, q⟩ := h.log
    obtain ⟨l', e', q'⟩ := h'.log
    exact ⟨l ++ l', by rw [e', e, List.append_assoc], by rw [List.filter_append, q, q']; rfl⟩
  · obtain ⟨h1, e1⟩ := h.ok hp
    obtain ⟨h2, t, e2⟩ := h'.ok h1
    exact ⟨h2, t, by rw [e2, e1, h.now]⟩

theorem Th.after {f : Frame} {a b d : St} (h : Th c f a b) (h' : Tq b d) : Th c f a d := by
  refine ⟨h'.now.trans h.now, h'.sense.trans h.sense, h.free, h'.phy.trans h.phy, ?_, fun hp => ?_⟩
  · obtain ⟨l, e, q⟩ := h.log
    obtain ⟨l', e', q'⟩ := h'.log
    exact ⟨l ++ l', by rw [e', e, List.append_assoc], by rw [List.filter_append, q, q']; rfl⟩
  · obtain ⟨h1, t, e1⟩ := h.ok hp
    obtain ⟨h2, e2⟩ := h'.ok h1
    exact ⟨h2, t, e2.trans e1⟩

/-- Changes to other parts of the state; the events that may be cancelled become fewer. -/
theorem Tq.same {s s' : St} (h1 : s'.now = s.now) (h2 : s'.sense = s.sense) (h3 : s'.phyTx = s.phyTx) (h4 : s'.log = s.log)
    (h5 : s'.pend = s.pend) (h6 : s'.nextTid = s.nextTid) (h7 : ∀ t ∈ s'.mayCancel, t ∈ s.mayCancel) : Tq s s' :=
  ⟨h1, h2, h3, ⟨[], by rw [h4]; simp, rfl⟩, fun hp =>
    ⟨⟨by rw [h5, h6]; exact hp.lt, by rw [h5]; exact hp.uniq, by
      intro t ht; rw [h5, h6]; exact hp.can t (h7 t ht)⟩, by rw [h5]⟩⟩

/-- `Tq.same` for the usual case. -/
theorem Tq.same' {s s' : St} (h1 : s'.now = s.now) (h2 : s'.sense = s.sense) (h3 : s'.phyTx = s.phyTx) (h4 : s'.log = s.log)
    (h5 : s'.pend = s.pend) (h6 : s'.nextTid = s.nextTid) (h7 : s'.mayCancel = s.mayCancel) : Tq s s' :=
  .same h1 h2 h3 h4 h5 h6 (by rw [h7]; exact fun _ h => h)

theorem TidP.sched {s : St} (h : TidP s) (d : ℤ) (e : Ev) : TidP (s.sched d e) := by
  refine ⟨?_, ?_, ?_⟩
  · intro x hx
    rcases List.mem_append.1 hx with h1 | h1
    · exact Nat.lt_succ_of_lt (h.lt x h1)
    · rw [List.mem_singleton.1 h1]; exact Nat.lt_succ_self _
  · show ((s.pend ++ [(s.nextTid, s.now + d, e)]).map (·.1)).Nodup
    rw [List.map_append]
    refine List.nodup_append.2 ⟨h.uniq, by simp, ?_⟩
    rintro x hx y hy rfl
    obtain ⟨z, hz, rfl⟩ := List.mem_map.1 hx
    have := h.lt z hz
    simp only [List.map_cons, List.map_nil, List.mem_singleton] at hy
    omega
  · intro t ht
    obtain ⟨h1, h2⟩ := h.can t ht
    refine ⟨Nat.lt_succ_of_lt h1, fun x f hx => ?_⟩
    rcases List.mem_append.1 hx with h3 | h3
    · exact h2 x f h3
    · have h4 := congrArg Prod.fst (List.mem_singleton.1 h3)
      have h5 : t = s.nextTid := h4
      omega

theorem txEvs_sched (s : St) (d : ℤ) (e : Ev) (he : ∀ f, e ≠ .phyDone f) : txEvs (s.sched d e).pend = txEvs s.pend := by
  show txEvs (s.pend ++ [(s.nextTid, s.now + d, e)]) = _
  rw [txEvs_append]
  have : txEvs [(s.nextTid, s.now + d, e)] = [] := by
    cases e <;> first | rfl | exact absurd rfl (he _)
  rw [this, List.append_nil]

theorem Tq.sched (s : St) (d : ℤ) (e : Ev) (he : ∀ f, e ≠ .phyDone f) : Tq s (s.sched d e) :=
  ⟨rfl, rfl, rfl, ⟨[], (List.append_nil _).symm, rfl⟩, fun hp => ⟨hp.sched d e, txEvs_sched s d e he⟩⟩

/-- Schedule and remember the event, so that it may be cancelled. -/
theorem Tq.schedSave (s s' : St) (d : ℤ) (e : Ev) (he : ∀ f, e ≠ .phyDone f) (h1 : s'.now = s.now) (h2 : s'.sense = s.sense)
    (h3 : s'.phyTx = s.phyTx) (h4 : s'.log = s.log) (h5 : s'.pend = s.pend ++ [(s.nextTid, s.now + d, e)])
    (h6 : s'.nextTid = s.nextTid + 1) (h7 : ∀ t ∈ s'.mayCancel, t ∈ s.mayCancel ∨ t = s.nextTid) : Tq s s' := by
  refine ⟨h1, h2, h3, ⟨[], by rw [h4]; simp, rfl⟩, fun hp => ?_⟩
  have hs := hp.sched d e
  refine ⟨⟨?_, ?_, ?_⟩, ?_⟩
  · rw [h5, h6]; exact hs.lt
  · rw [h5]; exact hs.uniq
  · intro t ht
    rw [h5, h6]
    rcases h7 t ht with h | h
    · exact hs.can t h
    · refine ⟨by omega, fun x f hx => ?_⟩
      rcases List.mem_append.1 hx with h3 | h3
      · have h8 : t < s.nextTid := hp.lt _ h3
        omega
      · have h4 := congrArg (fun p => p.2.2) (List.mem_singleton.1 h3)
        exact he f h4.symm
  · rw [h5]; exact txEvs_sched s d e he

theorem Tq.emit (s : St) (o : Obs) (ho : phyObs o = false) : Tq s (s.emit o) :=
  ⟨rfl, rfl, rfl, ⟨[o], rfl, by simp [ho]⟩, fun hp => ⟨⟨hp.lt, hp.uniq, hp.can⟩, rfl⟩⟩

theorem Tq.schedCca (s : St) (d : ℤ) (e : Ev) (he : ∀ f, e ≠ .phyDone f) : Tq s (s.schedCca d e) :=
  (Tq.sched s d e he).trans (.same' rfl rfl rfl rfl rfl rfl rfl)

/-- Remove events that are not ends of transmissions. -/
theorem TidP.filter {s s' : St} (hp : TidP s) (q : Nat × ℤ × Ev → Bool) (h5 : s'.pend = s.pend.filter q)
    (h6 : s'.nextTid = s.nextTid) (h7 : ∀ t ∈ s'.mayCancel, t ∈ s.mayCancel) : TidP s' := by
  refine ⟨?_, ?_, ?_⟩
  · rw [h5, h6]; exact fun e he => hp.lt e (List.mem_filter.1 he).1
  · rw [h5]; exact hp.uniq.sublist (List.filter_sublist.map _)
  · intro t ht
    rw [h5, h6]
    exact ⟨(hp.can t (h7 t ht)).1, fun d f h => (hp.can t (h7 t ht)).2 d f (List.mem_filter.1 h).1⟩

theorem Tq.cancel (s : St) (t : Nat) (ht : t ∈ s.mayCancel) : Tq s (s.cancel t) := by
  refine ⟨rfl, rfl, rfl, ⟨[], (List.append_nil _).symm, rfl⟩, fun hp => ⟨hp.filter _ rfl rfl (fun _ h => h), ?_⟩⟩
  refine txEvs_filter (fun t' d f h => ?_)
  have : t' ≠ t := by
    rintro rfl
    exact (hp.can t' ht).2 d f h
  simpa using this

theorem tq_cca (c : Cfg) (s : St) : Tq s (cca c s) := by
  unfold cca
  split_ifs
  · exact .refl
  all_goals exact .schedCca _ _ _ (by simp)

theorem tq_backoffStart (c : Cfg) (s : St) : Tq s (backoffStart c s) := by
  unfold backoffStart
  dsimp only
  have h : Tq s (drawBackoff c s) := by unfold drawBackoff; split <;> exact .same' rfl rfl rfl rfl rfl rfl rfl
  split_ifs
  · exact h.trans (.schedCca _ _ _ (by simp))
  · refine h.trans (Tq.schedSave _ _ (drawBackoff c s).boRemain .granted (by simp) rfl rfl rfl rfl rfl rfl ?_)
    intro t ht
    simp only [St.mayCancel, List.mem_append, Option.toList_some, List.mem_singleton] at ht ⊢
    rcases ht with ht | ht
    · exact .inl (.inl ht)
    · exact .inr ht

theorem tq_busy (c : Cfg) (s : St) : Tq s (channelBecomesBusy c s) := by
  unfold channelBecomesBusy
  split_ifs
  · refine Tq.trans (b := { s with pend := s.pend.filter (fun e => some e.1 ≠ s.boEv), boRemain := residual c s }) ?_ (tq_cca _ _)
    refine ⟨rfl, rfl, rfl, ⟨[], (List.append_nil _).symm, rfl⟩, fun hp => ⟨hp.filter _ rfl rfl (fun _ h => h), ?_⟩⟩
    refine txEvs_filter (fun t' d f h => ?_)
    have : some t' ≠ s.boEv := by
      intro e
      refine (hp.can t' ?_).2 d f h
      simp [St.mayCancel, ← e]
    simpa using this
  · exact tq_cca _ _

theorem tq_updateNav (c : Cfg) (d : ℤ) (s : St) : Tq s (updateNav c d s) := by
  unfold updateNav; split <;> exact .same' rfl rfl rfl rfl rfl rfl rfl

theorem tq_updateLocalNav (c : Cfg) (d : ℤ) (s : St) : Tq s (updateLocalNav c d s) := .same' rfl rfl rfl rfl rfl rfl rfl

theorem tq_state (x : State) (s : St) : Tq s { s with state := x } := .same' rfl rfl rfl rfl rfl rfl rfl

theorem tq_startOver (c : Cfg) (s : St) : Tq s (startOver c s) :=
  Tq.trans (b := { s with boStart := 0, boRemain := 0 }) (.same' rfl rfl rfl rfl rfl rfl rfl) (tq_cca _ _)

/-- The frame is handed over or not. -/
theorem th_sendPacket (c : Cfg) (f : Frame) (s : St) :
    ((sendPacket c f s).1 = true ∧ Th c f s (sendPacket c f s).2) ∨
    ((sendPacket c f s).1 = false ∧ Tq s (sendPacket c f s).2) := by
  unfold sendPacket
  split_ifs with h1 h2
  · refine .inl ⟨rfl, rfl, rfl, h2, rfl, ⟨[.handed f], rfl, rfl⟩, fun hp => ⟨?_, s.nextTid, ?_⟩⟩
    · have h : TidP ({ s with state := .tx, pktTx := some f, phyTx := some f } : St) := ⟨hp.lt, hp.uniq, hp.can⟩
      have h' := h.sched (c.frameDur f) (.phyDone f)
      exact ⟨h'.lt, h'.uniq, h'.can⟩
    · show txEvs (s.pend ++ [(s.nextTid, s.now + c.frameDur f, .phyDone f)]) = _
      rw [txEvs_append]; rfl
  · exact .inr ⟨rfl, Tq.trans (b := { s with state := .idle }) (tq_state _ _) (Tq.emit _ _ rfl)⟩
  · exact .inr ⟨rfl, .refl⟩

/-- Quiet or one frame handed over. -/
def Tx (c : Cfg) (s s' : St) : Prop := Tq s s' ∨ ∃ f, Th c f s s'

theorem Tx.after {a b d : St} (h : Tx c a b) (h' : Tq b d) : Tx c a d := by
  rcases h with h | ⟨f, h⟩
  · exact .inl (h.trans h')
  · exact .inr ⟨f, h.after h'⟩

theorem Tx.before {a b d : St} (h : Tq a b) (h' : Tx c b d) : Tx c a d := by
  rcases h' with h' | ⟨f, h'⟩
  · exact .inl (h.trans h')
  · exact .inr ⟨f, h'.before h⟩

theorem tx_sendPacket (c : Cfg) (f : Frame) (s : St) : Tx c s (sendPacket c f s).2 := by
  rcases th_sendPacket c f s with ⟨-, h⟩ | ⟨-, h⟩
  · exact .inr ⟨f, h⟩
  · exact .inl h

theorem tq_enqueue (c : Cfg) (b : Body) (d : Mac48) (g : UInt16) (s : St) : Tq s (enqueue c b d g s).2 := by
  unfold enqueue
  split_ifs
  · exact .emit _ _ rfl
  · dsimp only
    refine (Tq.trans (.same' ?_ ?_ ?_ ?_ ?_ ?_ ?_) (Tq.sched _ _ _ (by simp))).trans (Tq.emit _ _ rfl) <;> rfl

theorem tq_settle (ok : Bool) (r : Rec) (s : St) : Tq s (settle ok r s) := by
  unfold settle
  dsimp only
  have h := Tq.sched s 0 .results (by simp)
  split_ifs
  · refine (h.trans (.same' ?_ ?_ ?_ ?_ ?_ ?_ ?_)).trans (Tq.emit _ _ rfl) <;> rfl
  · refine (h.trans (.same' ?_ ?_ ?_ ?_ ?_ ?_ ?_)).trans (Tq.emit _ _ rfl) <;> rfl

theorem tq_doneLoop (ok : Bool) (q : UInt16) (rest : List Rec) : ∀ (pre : List Rec) (s : St),
    Tq s (doneLoop ok q pre rest s) := by
  induction hn : rest.length using Nat.strong_induction_on generalizing rest with
  | _ n ih =>
    intro pre s
    match rest with
    | [] => exact .same' rfl rfl rfl rfl rfl rfl rfl
    | r :: rest =>
      unfold doneLoop
      split_ifs
      · exact (Tq.sched s 0 .results (by simp)).trans (.same' rfl rfl rfl rfl rfl rfl rfl)
      · match rest with
        | [] => exact (tq_settle ok r s).trans (.same' rfl rfl rfl rfl rfl rfl rfl)
        | r' :: rest' =>
          exact (tq_settle ok r s).trans (ih _ (by simp only [List.length_cons] at hn; omega) rest' rfl _ _)
      · exact ih _ (by simp only [List.length_cons] at hn; omega) rest rfl _ _

theorem tq_sendDataDone (ok : Bool) (q : UInt16) (s : St) : Tq s (sendDataDone ok q s) := tq_doneLoop _ _ _ _ _

theorem tq_results (s : St) : Tq s (resultsRecord s) := by
  unfold resultsRecord
  split
  · exact .same' rfl rfl rfl rfl rfl rfl rfl
  · exact .emit _ _ rfl

/-- The end of a transmission. -/
theorem tq_sendPacketDone (c : Cfg) (f : Frame) (s : St) :
    Tq (({ s with phyTx := none } : St).emit (.txEnd f)) (sendPacketDone c f s) := by
  unfold sendPacketDone
  dsimp only
  have h2 := tq_state .idle (({ s with phyTx := none } : St).emit (.txEnd f))
  split
  · exact .refl
  · split
    · exact h2
    · exact h2
    · split
      · exact (h2.trans (tq_sendDataDone _ _ _)).trans (tq_cca _ _)
      · exact h2
    · exact h2.trans (tq_cca _ _)

theorem tq_backoff (c : Cfg) (k : UInt16) (s : St) : Tq s (backoff c k s) :=
  Tq.trans (b := { s with retry := k, rngIdx := s.rngIdx + 1 }) (.same' rfl rfl rfl rfl rfl rfl rfl) (Tq.sched _ _ _ (by simp))

theorem tq_charge (c : Cfg) (r : Rec) (s : St) : Tq s (charge c r s) := by
  unfold charge
  dsimp only
  have h := Tq.emit s (.timedOut r.pkt r.retry) rfl
  split
  · refine (h.trans (.same' ?_ ?_ ?_ ?_ ?_ ?_ ?_)).trans (Tq.sched _ _ _ (by simp)) <;> rfl
  · exact h.trans (tq_backoff _ _ _)

theorem tq_foldl_charge (c : Cfg) (l : List Rec) (s : St) : Tq s (l.foldl (fun s r => charge c r s) s) := by
  induction l generalizing s with
  | nil => exact .refl
  | cons r l ih => exact (tq_charge c r s).trans (ih _)

theorem tq_timeoutLoop (c : Cfg) (q : UInt16) (s : St) : Tq s (timeoutLoop c q s) :=
  Tq.trans (b := { s with state := .idle, recs := s.recs.map (Rec.bump q) }) (.same' rfl rfl rfl rfl rfl rfl rfl)
    (tq_foldl_charge _ _ _)

theorem tq_ctsTimeout (c : Cfg) (q : UInt16) (s : St) : Tq s (ctsTimeout c q s) :=
  Tq.trans (b := { s with ctsTO := s.ctsTO.eraseP (fun t => t.seq = q) }) (.same rfl rfl rfl rfl rfl rfl (by
    intro t ht
    simp only [St.mayCancel, List.mem_append] at ht ⊢
    rcases ht with (ht | ht) | ht
    · exact .inl (.inl ((List.eraseP_sublist.map _).subset ht))
    · exact .inl (.inr ht)
    · exact .inr ht)) (tq_timeoutLoop _ _ _)

theorem tq_ackTimeout (c : Cfg) (q : UInt16) (s : St) : Tq s (ackTimeout c q s) :=
  Tq.trans (b := { s with ackTO := s.ackTO.eraseP (fun t => t.seq = q) }) (.same rfl rfl rfl rfl rfl rfl (by
    intro t ht
    simp only [St.mayCancel, List.mem_append] at ht ⊢
    rcases ht with (ht | ht) | ht
    · exact .inl (.inl ht)
    · exact .inl (.inr ((List.eraseP_sublist.map _).subset ht))
    · exact .inr ht)) (tq_timeoutLoop _ _ _)

theorem tq_receiveRts (c : Cfg) (me : Mac48) (f : Frame) (g : UInt16) (s : St) : Tq s (receiveRts c me f g s) := by
  unfold receiveRts
  split_ifs
  · exact ((tq_updateNav _ _ _).trans (tq_state .idle (updateNav c (durOf c g) s))).trans (tq_cca _ _)
  · exact tq_cca _ _
  · exact Tq.trans (b := { updateLocalNav c (durOf c g) s with state := .waitTx }) (.same' rfl rfl rfl rfl rfl rfl rfl)
      (Tq.sched _ _ _ (by simp))

theorem tx_sendCts (c : Cfg) (me d : Mac48) (t : ℤ) (q : UInt16) (s : St) : Tx c s (sendCts c me d t q s) := by
  unfold sendCts
  have h := tx_sendPacket c (ctsFrame c me d t q) s
  split
  · rename_i s' e
    rw [e] at h
    exact h.after (tq_updateLocalNav _ _ _)
  · rename_i s' e
    rw [e] at h; exact h

theorem tx_sendAck (c : Cfg) (me d : Mac48) (q : UInt16) (s : St) : Tx c s (sendAck c me d q s) :=
  Tx.before (tq_updateLocalNav c _ s) (tx_sendPacket c (ackFrame me d q) _)

theorem tq_forward (f : Frame) (s : St) : Tq s (forwardIfNew f s) := by
  unfold forwardIfNew
  dsimp only
  split
  · exact Tq.trans (b := { s with seqList := (isNewSequence s.seqList f.src f.seq).2 }) (.same' rfl rfl rfl rfl rfl rfl rfl)
      (Tq.emit _ _ rfl)
  · exact .same' rfl rfl rfl rfl rfl rfl rfl

theorem tq_receiveData (c : Cfg) (me : Mac48) (f : Frame) (s : St) : Tq s (receiveData c me f s) := by
  unfold receiveData
  split_ifs
  · exact ((tq_state .idle s).trans (tq_forward f _)).trans (tq_cca c _)
  · exact ((tq_updateNav _ _ _).trans (tq_state .idle (updateNav c (durOf c f.dur) s))).trans (tq_cca _ _)
  · have h : Tq s { updateLocalNav c (durOf c f.dur) s with state := .waitTx } := .same' rfl rfl rfl rfl rfl rfl rfl
    exact (h.trans (Tq.sched _ c.sifs (.sendAck f.src f.seq) (by simp))).trans (tq_forward f _)

theorem tq_receiveAck (c : Cfg) (me : Mac48) (f : Frame) (s : St) : Tq s (receiveAck c me f s) := by
  unfold receiveAck
  dsimp only
  have h := tq_state .idle s
  split
  · split
    · rename_i t ht
      have hm : t ∈ s.ackTO := List.mem_of_find?_eq_some ht
      refine (h.trans (Tq.cancel _ t.tid ?_)).trans ((Tq.sched _ _ _ (by simp)).trans (.same rfl rfl rfl rfl rfl rfl ?_))
      · simp only [St.mayCancel, List.mem_append]
        exact .inl (.inr (List.mem_map_of_mem hm))
      · intro t ht
        simp only [St.mayCancel, List.mem_append] at ht ⊢
        rcases ht with (ht | ht) | ht
        · exact .inl (.inl ht)
        · exact .inl (.inr ((List.eraseP_sublist.map _).subset ht))
        · exact .inr ht
    · exact h.trans (tq_cca _ _)
  · exact h.trans (tq_cca _ _)

theorem tq_receivePacket (c : Cfg) (s : St) : Tq s (receivePacket c s) := by
  unfold receivePacket
  dsimp only
  split
  · exact tq_busy _ _
  · exact (tq_busy _ _).trans (tq_state _ _)

theorem tq_receiveCts (c : Cfg) (me : Mac48) (f : Frame) (s : St) : Tq s (receiveCts c me f s) := by
  unfold receiveCts
  split
  · exact ((tq_updateNav c (durOf c f.dur) s).trans (tq_state .idle _)).trans (tq_cca c _)
  · dsimp only
    have h : Tq s (updateLocalNav c (durOf c f.dur) { s with pktData := findPkt f.seq s.recs s.pktData }) :=
      .same' rfl rfl rfl rfl rfl rfl rfl
    split
    · rename_i t p h1 h2
      have hm : t ∈ s.ctsTO := List.mem_of_find?_eq_some h1
      refine (h.trans (Tq.cancel _ t.tid ?_)).trans ((tq_state .waitTx _).trans ((Tq.sched _ _ _ (by simp)).trans
        (.same rfl rfl rfl rfl rfl rfl ?_)))
      · simp only [St.mayCancel, List.mem_append]
        exact .inl (.inl (List.mem_map_of_mem hm))
      · intro t ht
        simp only [St.mayCancel, List.mem_append] at ht ⊢
        rcases ht with (ht | ht) | ht
        · exact .inl (.inl ((List.eraseP_sublist.map _).subset ht))
        · exact .inl (.inr ht)
        · exact .inr ht
    · exact h

theorem tx_sendRts (c : Cfg) (me : Mac48) (p : Pkt) (s : St) : Tx c s (sendRts c me p s) := by
  have h := tx_sendPacket c (rtsFrame me p) s
  unfold sendRts
  split
  · rename_i s' e
    rw [e] at h
    refine (h.after (tq_updateLocalNav c (ctsTimeoutDur c) s')).after
      (Tq.schedSave _ _ (ctsTimeoutDur c) (.ctsTimeout p.seq) (by simp) rfl rfl rfl rfl rfl rfl ?_)
    intro t ht
    simp only [St.mayCancel, List.mem_append, List.map_append, List.map_cons, List.map_nil, List.mem_singleton] at ht ⊢
    rcases ht with ((ht | ht) | ht) | ht
    · exact .inl (.inl (.inl ht))
    · exact .inr ht
    · exact .inl (.inl (.inr ht))
    · exact .inl (.inr ht)
  · rename_i s' e
    rw [e] at h
    exact h.after (tq_startOver c s')

theorem tx_sendData (c : Cfg) (me : Mac48) (p : Pkt) (s : St) : Tx c s (sendData c me p s) := by
  have h := tx_sendPacket c (dataFrame me p) { s with pktData := some p }
  have h0 : Tq s { s with pktData := some p } := .same' rfl rfl rfl rfl rfl rfl rfl
  unfold sendData
  split
  · exact .inl (tq_state _ _)
  · split
    · rename_i s' e
      rw [e] at h
      have h := Tx.before h0 h
      split
      · exact h.after (tq_updateLocalNav _ _ _)
      · refine (h.after (tq_updateLocalNav c (ackTimeoutDur c p) s')).after
          (Tq.schedSave _ _ (ackTimeoutDur c p) (.ackTimeout p.seq) (by simp) rfl rfl rfl rfl rfl rfl ?_)
        intro t ht
        simp only [St.mayCancel, List.mem_append, List.map_append, List.map_cons, List.map_nil, List.mem_singleton] at ht ⊢
        rcases ht with (ht | (ht | ht)) | ht
        · exact .inl (.inl (.inl ht))
        · exact .inl (.inl (.inr ht))
        · exact .inr ht
        · exact .inl (.inr ht)
    · rename_i s' e
      rw [e] at h
      exact (Tx.before h0 h).after (tq_startOver c s')

theorem tx_granted (c : Cfg) (me : Mac48) (s : St) : Tx c s (granted c me s) := by
  unfold granted
  split
  · exact .inl .refl
  · rename_i p rest e
    dsimp only
    have h0 : Tq s { s with boStart := 0, boRemain := 0, pktData := some p, state := .waitTx } :=
      .same' rfl rfl rfl rfl rfl rfl rfl
    split
    · exact .before h0 (tx_sendRts c me p _)
    · exact .before h0 (tx_sendData c me p _)

/-! ## Steps -/

/-- An event that is not the end of a transmission, run when it is due. -/
theorem tx_fire (c : Cfg) (me : Mac48) (s : St) (tid t : Nat) (due : ℤ) (e : Ev)
    (h : s.pend.find? (fun e => e.1 = tid) = some (t, due, e)) (hd : due ≤ s.now) (he : ∀ f, e ≠ .phyDone f) :
    Tx c s (step c me s (.fire tid)) := by
  show Tx c s (fire c me tid s)
  unfold fire
  rw [h]
  dsimp only
  have hm : (t, due, e) ∈ s.pend := List.mem_of_find?_eq_some h
  have ht : t = tid := by simpa using List.find?_some h
  subst ht
  set s1 : St := { s with pend := s.pend.filter (fun e => e.1 ≠ t), now := max s.now due } with hs1
  have h1 : Tq s s1 := by
    have h0 : s1.now = s.now := show max s.now due = s.now by omega
    refine ⟨h0, rfl, rfl, ⟨[], (List.append_nil _).symm, rfl⟩, fun hp => ⟨hp.filter _ rfl rfl (fun _ h => h), ?_⟩⟩
    refine txEvs_filter (fun t' d f h' => ?_)
    have : t' ≠ t := by
      rintro rfl
      have := List.inj_on_of_nodup_map hp.uniq h' hm rfl
      exact he f (congrArg (fun p => p.2.2) this).symm
    simpa using this
  unfold runEv
  cases e with
  | cca => exact .inl (h1.trans (tq_cca _ _))
  | backoffStart => exact .inl (h1.trans (tq_backoffStart _ _))
  | granted => exact .before h1 (tx_granted _ _ _)
  | ctsTimeout x => exact .inl (h1.trans (tq_ctsTimeout _ _ _))
  | ackTimeout x => exact .inl (h1.trans (tq_ackTimeout _ _ _))
  | sendCts d y x => exact .before h1 (tx_sendCts _ _ _ _ _ _)
  | sendData p => exact .before h1 (tx_sendData _ _ _ _)
  | sendAck d x => exact .before h1 (tx_sendAck _ _ _ _ _)
  | sendDataDone ok x => exact .inl (h1.trans (tq_sendDataDone _ _ _))
  | results => exact .inl (h1.trans (tq_results _))
  | phyDone f => exact absurd rfl (he f)

/-- The end of a transmission, run when it is due. -/
theorem tx_fireDone (c : Cfg) (me : Mac48) (s : St) (tid t : Nat) (due : ℤ) (f : Frame)
    (h : s.pend.find? (fun e => e.1 = tid) = some (t, due, .phyDone f)) (hd : due ≤ s.now) (hp : TidP s) :
    (step c me s (.fire tid)).now = s.now ∧ (step c me s (.fire tid)).sense = s.sense ∧
    (step c me s (.fire tid)).phyTx = none ∧ TidP (step c me s (.fire tid)) ∧
    (∃ l, (step c me s (.fire tid)).log = s.log ++ l ∧ l.filter phyObs = [.txEnd f]) ∧
    txEvs (step c me s (.fire tid)).pend = (txEvs s.pend).filter (fun e => e.1 ≠ tid) := by
  have key : step c me s (.fire tid) = sendPacketDone c f
      { s with pend := s.pend.filter (fun e => e.1 ≠ tid), now := max s.now due } := by
    show fire c me tid s = _
    unfold fire
    rw [h]; rfl
  rw [key]
  set s1 : St := { s with pend := s.pend.filter (fun e => e.1 ≠ tid), now := max s.now due } with hs1
  have hp1 : TidP (({ s1 with phyTx := none } : St).emit (.txEnd f)) := hp.filter _ rfl rfl (fun _ h => h)
  have hq := tq_sendPacketDone c f s1
  obtain ⟨l, e, q⟩ := hq.log
  obtain ⟨hp2, e2⟩ := hq.ok hp1
  have h0 : s1.now = s.now := show max s.now due = s.now by omega
  refine ⟨hq.now.trans h0, hq.sense, hq.phy, hp2, ⟨.txEnd f :: l, ?_, ?_⟩, ?_⟩
  · rw [e]
    show (s.log ++ [_]) ++ l = _
    simp
  · rw [List.filter_cons_of_pos rfl, q]
  · rw [e2]
    show txEvs (s.pend.filter (fun e => e.1 ≠ tid)) = _
    unfold txEvs
    rw [List.filter_filterMap, List.filterMap_filter]
    congr 1
    funext x
    obtain ⟨x1, x2, x3⟩ := x
    cases x3 <;> simp [txEvOf, Option.filter]

/-- The end of a reception: it is noted in the log if it was successful. -/
theorem tq_rxDone (c : Cfg) (me : Mac48) (f : Frame) (ok : Bool) (g : UInt16) (s : St) :
    Tq (if ok = true then s.emit (.rx f) else s) (step c me s (.rxDone f ok g)) := by
  show Tq _ (receivePacketDone c me f ok g s)
  unfold receivePacketDone
  dsimp only
  cases ok with
  | false => exact tq_state _ _
  | true =>
    simp only [if_true, Bool.true_eq_false, if_false]
    have h : Tq (s.emit (.rx f)) (({ s with state := .idle } : St).emit (.rx f)) := .same' rfl rfl rfl rfl rfl rfl rfl
    split
    · exact h.trans (tq_receiveRts _ _ _ _ _)
    · exact h.trans (tq_receiveCts _ _ _ _)
    · exact h.trans (tq_receiveData _ _ _ _)
    · exact h.trans (tq_receiveAck _ _ _ _)
    · exact h.trans (tq_cca _ _)

end Thz.Macro
