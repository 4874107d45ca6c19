import Verif.MacroProps
import Mathlib.Data.List.Induction

/-!
# C71: progress of the macro MAC until the first outcome
-/

namespace Thz.Macro

open Thz
open Thz.Nano (Body Kind bcast)

/-- Events that lead to a transmission attempt or an outcome. -/
def Driver : Ev → Prop
  | .cca => True
  | .backoffStart => True
  | .granted => True
  | .ctsTimeout _ => True
  | .ackTimeout _ => True
  | .sendData _ => True
  | .sendDataDone _ _ => True
  | _ => False

/-- Event identifiers are unique and below the counter, and the remembered clear-channel event, if pending,
is one that leads on. -/
structure TidOK (s : St) : Prop where
  lt : ∀ e ∈ s.pend, e.1 < s.nextTid
  uniq : ∀ e ∈ s.pend, ∀ e' ∈ s.pend, e.1 = e'.1 → e = e'
  cca : ∀ t, s.ccaEv = some t → t < s.nextTid ∧ ∀ e ∈ s.pend, e.1 = t → Driver e.2.2

/-- Something that leads on is pending. -/
def Busy (s : St) : Prop := ∃ e ∈ s.pend, Driver e.2.2

/-- A queued packet has something pending. -/
def Live (s : St) : Prop := s.queue ≠ [] → Busy s

/-- Everything a function must keep. -/
def Good (s : St) : Prop := TidOK s ∧ Live s

theorem TidOK.sched {s : St} (h : TidOK s) (d : ℤ) (e : Ev) : TidOK (s.sched d e) := by
  refine ⟨?_, ?_, ?_⟩
  · intro x hx
    rcases List.mem_append.1 hx with h1 | h1
    · exact Nat.lt_succ_of_lt (h.lt x h1)
    · rw [List.mem_singleton.1 h1]; exact Nat.lt_succ_self _
  · intro x hx y hy he
    rcases List.mem_append.1 hx with h1 | h1 <;> rcases List.mem_append.1 hy with h2 | h2
    · exact h.uniq x h1 y h2 he
    · have := h.lt x h1
      rw [List.mem_singleton.1 h2] at he
      exact absurd he this.ne
    · have := h.lt y h2
      rw [List.mem_singleton.1 h1] at he
      exact absurd he.symm this.ne
    · rw [List.mem_singleton.1 h1, List.mem_singleton.1 h2]
  · intro t ht
    obtain ⟨h1, h2⟩ := h.cca t ht
    refine ⟨Nat.lt_succ_of_lt h1, fun x hx he => ?_⟩
    rcases List.mem_append.1 hx with h3 | h3
    · exact h2 x h3 he
    · rw [List.mem_singleton.1 h3] at he
      exact absurd he.symm h1.ne

theorem TidOK.schedCca {s : St} (h : TidOK s) (d : ℤ) (e : Ev) (he : Driver e) : TidOK (s.schedCca d e) := by
  have h1 := h.sched d e
  refine ⟨h1.lt, h1.uniq, ?_⟩
  intro t ht
  have ht' : t = s.nextTid := (Option.some.inj ht).symm
  subst ht'
  refine ⟨Nat.lt_succ_self _, fun x hx hxe => ?_⟩
  rcases List.mem_append.1 hx with h3 | h3
  · exact absurd hxe (h.lt x h3).ne
  · rw [List.mem_singleton.1 h3]; exact he

/-- The fields that matter here are the same. -/
theorem TidOK.congr {s s' : St} (h : TidOK s) (h1 : s'.pend = s.pend) (h2 : s'.nextTid = s.nextTid)
    (h3 : s'.ccaEv = s.ccaEv) : TidOK s' := by
  refine ⟨?_, ?_, ?_⟩
  · rw [h1, h2]; exact h.lt
  · rw [h1]; exact h.uniq
  · rw [h1, h2, h3]; exact h.cca

theorem TidOK.filter {s s' : St} (h : TidOK s) (p : Nat × ℤ × Ev → Bool) (h1 : s'.pend = s.pend.filter p)
    (h2 : s'.nextTid = s.nextTid) (h3 : s'.ccaEv = s.ccaEv) : TidOK s' := by
  have hs : ∀ x ∈ s'.pend, x ∈ s.pend := fun x hx => by rw [h1] at hx; exact (List.mem_filter.1 hx).1
  refine ⟨?_, ?_, ?_⟩
  · rw [h2]; exact fun x hx => h.lt x (hs x hx)
  · exact fun x hx y hy => h.uniq x (hs x hx) y (hs y hy)
  · intro t ht
    rw [h3] at ht
    rw [h2]
    exact ⟨(h.cca t ht).1, fun x hx => (h.cca t ht).2 x (hs x hx)⟩

theorem busy_sched (s : St) (d : ℤ) (e : Ev) (he : Driver e) : Busy (s.sched d e) :=
  ⟨_, List.mem_append_right _ (List.mem_singleton.2 rfl), he⟩

theorem Busy.sched {s : St} (h : Busy s) (d : ℤ) (e : Ev) : Busy (s.sched d e) := by
  obtain ⟨x, h1, h2⟩ := h
  exact ⟨x, List.mem_append_left _ h1, h2⟩

theorem good_sched {s : St} (h : Good s) (d : ℤ) (e : Ev) : Good (s.sched d e) :=
  ⟨h.1.sched d e, fun hq => (h.2 hq).sched d e⟩

theorem good_congr {s s' : St} (h : Good s) (h1 : s'.pend = s.pend) (h2 : s'.nextTid = s.nextTid)
    (h3 : s'.ccaEv = s.ccaEv) (h4 : s'.queue = s.queue) : Good s' := by
  refine ⟨h.1.congr h1 h2 h3, fun hq => ?_⟩
  rw [h4] at hq
  obtain ⟨x, h5, h6⟩ := h.2 hq
  exact ⟨x, by rw [h1]; exact h5, h6⟩

/-- `CcaForDifs` makes sure something is pending. -/
theorem good_cca (c : Cfg) {s : St} (h : TidOK s) : Good (cca c s) := by
  unfold cca
  split
  · rename_i h1
    refine ⟨h, fun hq => ?_⟩
    rcases h1 with h1 | h1
    · exact absurd h1 hq
    · cases hc : s.ccaEv with
      | none => rw [hc] at h1; simp [St.running] at h1
      | some t =>
        rw [hc] at h1
        simp only [St.running, List.any_eq_true, decide_eq_true_eq] at h1
        obtain ⟨e, h2, h3⟩ := h1
        exact ⟨e, h2, (h.cca t hc).2 e h2 h3⟩
  · split
    · exact ⟨h.schedCca _ _ trivial, fun _ => busy_sched s _ _ trivial⟩
    · split
      · exact ⟨h.schedCca _ _ trivial, fun _ => busy_sched s _ _ trivial⟩
      · exact ⟨h.schedCca _ _ trivial, fun _ => busy_sched s _ _ trivial⟩

theorem good_backoffStart (c : Cfg) {s : St} (h : TidOK s) : Good (backoffStart c s) := by
  have h1 : TidOK (drawBackoff c s) := by
    unfold drawBackoff
    split <;> exact h.congr rfl rfl rfl
  unfold backoffStart
  dsimp only
  split
  · exact ⟨h1.schedCca _ _ trivial, fun _ => busy_sched _ _ _ trivial⟩
  · refine ⟨(h1.sched _ .granted).congr rfl rfl rfl, fun _ => ?_⟩
    exact busy_sched (drawBackoff c s) _ .granted trivial

theorem good_startOver (c : Cfg) {s : St} (h : TidOK s) : Good (startOver c s) :=
  good_cca c (s := { s with boStart := 0, boRemain := 0 }) (h.congr rfl rfl rfl)

theorem good_busyChannel (c : Cfg) {s : St} (h : TidOK s) : Good (channelBecomesBusy c s) := by
  unfold channelBecomesBusy
  split
  · exact good_cca c (h.filter _ rfl rfl rfl)
  · exact good_cca c h

theorem tid_sendPacket (c : Cfg) (f : Frame) {s : St} (h : TidOK s) : TidOK (sendPacket c f s).2 := by
  unfold sendPacket
  split
  · split
    · exact ((h.congr rfl rfl rfl : TidOK { s with state := .tx, pktTx := some f, phyTx := some f }).sched _ _).congr
        rfl rfl rfl
    · exact h.congr rfl rfl rfl
  · exact h

theorem queue_sendPacket (c : Cfg) (f : Frame) (s : St) : (sendPacket c f s).2.queue = s.queue := by
  unfold sendPacket
  split
  · split <;> rfl
  · rfl

theorem good_sendPacket (c : Cfg) (f : Frame) {s : St} (h : Good s) : Good (sendPacket c f s).2 := by
  refine ⟨tid_sendPacket c f h.1, fun hq => ?_⟩
  rw [queue_sendPacket] at hq
  unfold sendPacket
  split
  · split
    · exact (h.2 hq).sched (s := s) _ _
    · exact h.2 hq
  · exact h.2 hq

theorem good_sendRts (c : Cfg) (me : Mac48) (p : Pkt) {s : St} (h : TidOK s) : Good (sendRts c me p s) := by
  unfold sendRts
  have h1 := tid_sendPacket c (rtsFrame me p) h
  split
  · rename_i s' e
    rw [e] at h1
    have h1' : TidOK s' := h1
    have h2 : TidOK (updateLocalNav c (ctsTimeoutDur c) s') := h1'.congr rfl rfl rfl
    exact ⟨(h2.sched (ctsTimeoutDur c) (.ctsTimeout p.seq)).congr rfl rfl rfl,
      fun _ => busy_sched (updateLocalNav c (ctsTimeoutDur c) s') _ _ trivial⟩
  · rename_i s' e
    rw [e] at h1
    exact good_startOver c h1

theorem good_sendData (c : Cfg) (me : Mac48) (p : Pkt) {s : St} (h : TidOK s) (hb : p.dst ≠ bcast) :
    Good (sendData c me p s) := by
  unfold sendData
  split
  · rename_i hq
    exact ⟨h.congr rfl rfl rfl, fun h => absurd hq h⟩
  · have h0 : TidOK { s with pktData := some p } := h.congr rfl rfl rfl
    have h1 := tid_sendPacket c (dataFrame me p) h0
    split
    · rename_i s' e
      rw [e] at h1
      have h1' : TidOK s' := h1
      dsimp only
      try rw [if_neg hb]
      have h2 : TidOK (updateLocalNav c (ackTimeoutDur c p) s') := h1'.congr rfl rfl rfl
      exact ⟨(h2.sched (ackTimeoutDur c p) (.ackTimeout p.seq)).congr rfl rfl rfl,
        fun _ => busy_sched (updateLocalNav c (ackTimeoutDur c p) s') _ _ trivial⟩
    · rename_i s' e
      rw [e] at h1
      exact good_startOver c h1

theorem good_granted (c : Cfg) (me : Mac48) {s : St} (h : TidOK s) (hb : ∀ p ∈ s.queue, p.dst ≠ bcast) :
    Good (granted c me s) := by
  unfold granted
  split
  · rename_i hq
    exact ⟨h, fun h => absurd hq h⟩
  · rename_i p rest hq
    dsimp only
    have h1 : TidOK { s with boStart := 0, boRemain := 0, pktData := some p, state := .waitTx } :=
      h.congr rfl rfl rfl
    split
    · exact good_sendRts c me p h1
    · exact good_sendData c me p h1 (hb p (by rw [hq]; exact List.mem_cons_self))

theorem tid_charge (c : Cfg) (r : Rec) {s : St} (h : TidOK s) : TidOK (charge c r s) ∧ Busy (charge c r s) := by
  unfold charge
  dsimp only
  split
  · have h1 : TidOK ({ s.emit (.timedOut r.pkt r.retry) with
        queue := s.queue.filter (fun p => p.uid ≠ r.pkt.uid) } : St) := h.congr rfl rfl rfl
    exact ⟨h1.sched _ _, busy_sched _ _ _ trivial⟩
  · unfold backoff
    have h1 : TidOK ({ s.emit (.timedOut r.pkt r.retry) with retry := r.retry, rngIdx := s.rngIdx + 1 } : St) :=
      h.congr rfl rfl rfl
    exact ⟨h1.sched _ _, busy_sched _ _ _ trivial⟩

theorem tid_foldl (c : Cfg) (l : List Rec) {s : St} (h : TidOK s) :
    TidOK (l.foldl (fun s r => charge c r s) s) ∧ (l ≠ [] → Busy (l.foldl (fun s r => charge c r s) s)) := by
  induction l using List.reverseRecOn with
  | nil => exact ⟨h, fun h => absurd rfl h⟩
  | append_singleton l r ih =>
    rw [List.foldl_append]
    have := tid_charge c r ih.1
    exact ⟨this.1, fun _ => this.2⟩

/-- A timeout leads on if the packet is still recorded. -/
theorem good_timeoutLoop (c : Cfg) (q : UInt16) {s : St} (h : TidOK s) (hr : ∃ r ∈ s.recs, r.seq = q) :
    Good (timeoutLoop c q s) := by
  unfold timeoutLoop
  have h1 : TidOK { s with state := .idle, recs := s.recs.map (Rec.bump q) } := h.congr rfl rfl rfl
  have h2 := tid_foldl c ((s.recs.map (Rec.bump q)).filter (fun r => r.seq = q)) h1
  refine ⟨h2.1, fun _ => h2.2 ?_⟩
  obtain ⟨r, h3, h4⟩ := hr
  have : Rec.bump q r ∈ (s.recs.map (Rec.bump q)).filter (fun r => r.seq = q) := by
    refine List.mem_filter.2 ⟨List.mem_map.2 ⟨r, h3, rfl⟩, ?_⟩
    unfold Rec.bump
    rw [if_pos h4]
    simpa using h4
  exact List.ne_nil_of_mem this

theorem good_forward (f : Frame) {s : St} (h : Good s) : Good (forwardIfNew f s) := by
  unfold forwardIfNew
  dsimp only
  split <;> exact good_congr h rfl rfl rfl rfl

theorem tid_updateNav (c : Cfg) (d : ℤ) {s : St} (h : TidOK s) : TidOK (updateNav c d s) := by
  unfold updateNav
  split
  · exact h.congr rfl rfl rfl
  · exact h

theorem good_receive (c : Cfg) (me : Mac48) (f : Frame) (ok : Bool) (g : UInt16) {s : St} (h : Good s) :
    Good (receivePacketDone c me f ok g s) := by
  unfold receivePacketDone
  dsimp only
  have h0 : Good { s with state := .idle } := good_congr h rfl rfl rfl rfl
  split
  · exact h0
  · set s1 : St := ({ s with state := .idle } : St).emit (.rx f) with hs1
    have h1 : Good s1 := good_congr h rfl rfl rfl rfl
    split
    · unfold receiveRts
      split
      · exact good_cca c ((tid_updateNav c _ h1.1).congr rfl rfl rfl)
      · split
        · exact good_cca c h1.1
        · refine good_sched ?_ _ _
          exact good_congr h1 rfl rfl rfl rfl
    · unfold receiveCts
      split
      · exact good_cca c ((tid_updateNav c _ h1.1).congr rfl rfl rfl)
      · dsimp only
        split
        · rename_i t p _ _
          have h2 : TidOK ({ (updateLocalNav c (durOf c f.dur)
              { s1 with pktData := findPkt f.seq s1.recs s1.pktData }).cancel t.tid with state := .waitTx } : St) :=
            h1.1.filter _ rfl rfl rfl
          exact ⟨(h2.sched (c.ps 1) (.sendData p)).congr rfl rfl rfl, fun _ => busy_sched _ _ _ trivial⟩
        · exact good_congr h1 rfl rfl rfl rfl
    · unfold receiveData
      split
      · exact good_cca c (good_forward f (good_congr h1 rfl rfl rfl rfl :
          Good { s1 with state := .idle })).1
      · split
        · exact good_cca c ((tid_updateNav c _ h1.1).congr rfl rfl rfl)
        · refine good_forward f (good_sched ?_ _ _)
          exact good_congr h1 rfl rfl rfl rfl
    · unfold receiveAck
      dsimp only
      have h2 : Good { s1 with state := .idle } := good_congr h1 rfl rfl rfl rfl
      split
      · split
        · rename_i t _
          have h3 : TidOK (({ s1 with state := .idle } : St).cancel t.tid) := h1.1.filter _ rfl rfl rfl
          exact ⟨(h3.sched (c.ps 1) (.sendDataDone true f.seq)).congr rfl rfl rfl,
            fun _ => busy_sched _ _ _ trivial⟩
        · exact good_cca c h2.1
      · exact good_cca c h2.1
    · exact good_cca c h1.1

/-- `SendDataDone` keeps the bookkeeping of events. -/
theorem tid_settle (ok : Bool) (r : Rec) {s : St} (h : TidOK s) : TidOK (settle ok r s) := by
  unfold settle
  dsimp only
  have h1 : TidOK ({ s.sched 0 .results with boStart := 0, boRemain := 0, state := .idle } : St) :=
    (h.sched 0 .results).congr rfl rfl rfl
  split <;> exact h1.congr rfl rfl rfl

theorem tid_doneLoop (ok : Bool) (q : UInt16) (pre rest : List Rec) {s : St} (h : TidOK s) :
    TidOK (doneLoop ok q pre rest s) := by
  induction pre, rest, s using doneLoop.induct (ok := ok) (seq := q) with
  | case1 pre s => rw [doneLoop]; exact h.congr rfl rfl rfl
  | case2 pre r rest s h1 h2 =>
    rw [doneLoop.eq_def]; dsimp only; rw [if_pos h1, if_pos h2]
    exact (h.sched 0 .results).congr rfl rfl rfl
  | case3 pre r s h1 h2 =>
    rw [doneLoop.eq_def]; dsimp only; rw [if_pos h1, if_neg h2]
    exact (tid_settle ok r h).congr rfl rfl rfl
  | case4 pre r s h1 h2 r' rest' ih =>
    rw [doneLoop.eq_def]; dsimp only; rw [if_pos h1, if_neg h2]
    exact ih (tid_settle ok r h)
  | case5 pre r rest s h1 ih =>
    rw [doneLoop.eq_def]; dsimp only; rw [if_neg h1]
    exact ih h

theorem log_settle (ok : Bool) (r : Rec) (s : St) : (settle ok r s).log = s.log ++ [.done ok r.pkt] := by
  unfold settle; cases ok <;> rfl

theorem log_doneLoop_ext (ok : Bool) (q : UInt16) (pre rest : List Rec) (s : St) :
    ∃ l, (doneLoop ok q pre rest s).log = s.log ++ l := by
  induction pre, rest, s using doneLoop.induct (ok := ok) (seq := q) with
  | case1 pre s => rw [doneLoop]; exact ⟨[], by simp⟩
  | case2 pre r rest s h1 h2 =>
    rw [doneLoop.eq_def]; dsimp only; rw [if_pos h1, if_pos h2]; exact ⟨[], by simp [St.sched]⟩
  | case3 pre r s h1 h2 =>
    rw [doneLoop.eq_def]; dsimp only; rw [if_pos h1, if_neg h2]; exact ⟨_, log_settle ok r s⟩
  | case4 pre r s h1 h2 r' rest' ih =>
    rw [doneLoop.eq_def]; dsimp only; rw [if_pos h1, if_neg h2]
    obtain ⟨l, hl⟩ := ih
    exact ⟨[.done ok r.pkt] ++ l, by rw [hl, log_settle]; simp⟩
  | case5 pre r rest s h1 ih =>
    rw [doneLoop.eq_def]; dsimp only; rw [if_neg h1]; exact ih

/-- With a matching record and packets queued, an outcome is reported. -/
theorem doneLoop_reports (ok : Bool) (q : UInt16) (pre rest : List Rec) (s : St) (hq : s.queue ≠ [])
    (hr : ∃ r ∈ rest, r.seq = q) : ∃ r, Obs.done ok r ∈ (doneLoop ok q pre rest s).log := by
  induction pre, rest, s using doneLoop.induct (ok := ok) (seq := q) with
  | case1 pre s => simp at hr
  | case2 pre r rest s h1 h2 => exact absurd h2.2 hq
  | case3 pre r s h1 h2 =>
    rw [doneLoop.eq_def]; dsimp only; rw [if_pos h1, if_neg h2]
    refine ⟨r.pkt, ?_⟩
    show Obs.done ok r.pkt ∈ (settle ok r s).log
    rw [log_settle]; simp
  | case4 pre r s h1 h2 r' rest' ih =>
    rw [doneLoop.eq_def]; dsimp only; rw [if_pos h1, if_neg h2]
    obtain ⟨l, hl⟩ := log_doneLoop_ext ok q (pre ++ [r']) rest' (settle ok r s)
    refine ⟨r.pkt, ?_⟩
    rw [hl, log_settle]; simp
  | case5 pre r rest s h1 ih =>
    rw [doneLoop.eq_def]; dsimp only; rw [if_neg h1]
    refine ih hq ?_
    obtain ⟨x, hx, hxq⟩ := hr
    rcases List.mem_cons.1 hx with h | h
    · rw [h] at hxq; exact absurd hxq h1
    · exact ⟨x, h, hxq⟩

/-- An event that leads nowhere is taken away. -/
theorem Good.pop {s : St} (h : Good s) {t : Nat} {d : ℤ} {e : Ev} (hm : (t, d, e) ∈ s.pend) (he : ¬ Driver e) (n : ℤ) :
    Good { s with pend := s.pend.filter (fun e => e.1 ≠ t), now := n } := by
  refine ⟨h.1.filter _ rfl rfl rfl, fun hq => ?_⟩
  obtain ⟨x, h1, h2⟩ := h.2 hq
  refine ⟨x, List.mem_filter.2 ⟨h1, ?_⟩, h2⟩
  simp only [decide_eq_true_eq]
  intro hx
  have := h.1.uniq x h1 _ hm hx
  rw [this] at h2
  exact he h2

/-- What is needed about the packets: no broadcasts, no outcomes. -/
structure Quiet (s : St) : Prop where
  uni : ∀ p, Obs.accepted p ∈ s.log → p.dst ≠ bcast
  open_ : ∀ ok p, Obs.done ok p ∉ s.log

theorem rec_of_tried {me : Mac48} {seq0 : UInt16} {v : SV} (k : PkInv seq0 v) (o : OutInv me v) {b : Basic c me v}
    (hd : ∀ ok p, Obs.done ok p ∉ v.log) {q : UInt16} (h : Tried v q) : ∃ r ∈ v.recs, r.seq = q := by
  obtain ⟨f, h1, h2, h3⟩ := h
  have : ∃ p, Obs.accepted p ∈ v.log ∧ p.seq = q := by
    rcases h2 with h2 | h2
    · obtain ⟨p, h4, h5⟩ := o.rts f h1 h2
      exact ⟨p, h4, by rw [h5] at h3; exact h3⟩
    · obtain ⟨p, h4, h5⟩ := o.data f h1 h2
      exact ⟨p, h4, by rw [h5] at h3; exact h3⟩
  obtain ⟨p, h4, h5⟩ := this
  rcases k.kept p h4 with ⟨r, h6, h7⟩ | ⟨ok, h6⟩
  · exact ⟨r, h6, by rw [(b.recs r h6).2, h7, h5]⟩
  · exact absurd h6 (hd ok p)

theorem rec_of_doneOK {c : Cfg} {me : Mac48} {seq0 : UInt16} {v : SV} (k : PkInv seq0 v) (o : OutInv me v)
    (b : Basic c me v) (hd : ∀ ok p, Obs.done ok p ∉ v.log) {ok : Bool} {q : UInt16} (h : DoneOK me v ok q) :
    ∃ r ∈ v.recs, r.seq = q := by
  unfold DoneOK at h
  cases ok
  · obtain ⟨p, n, h1, h2, _⟩ := h
    rcases k.kept p (k.tout p n h1).1 with ⟨r, h6, h7⟩ | ⟨ok, h6⟩
    · exact ⟨r, h6, by rw [(b.recs r h6).2, h7, h2]⟩
    · exact absurd h6 (hd ok p)
  · rw [if_pos rfl] at h
    rcases h with ⟨l1, f, l2, h1, _, _, _, g, h2, h3, h4⟩ | ⟨f, h1, h2, _, h4⟩
    · exact rec_of_tried (c := c) (b := b) k o hd ⟨g, by rw [h1]; exact List.mem_append_left _ h2, .inr h3, h4⟩
    · exact rec_of_tried (c := c) (b := b) k o hd ⟨f, h1, .inr h2, h4⟩

/-- One step keeps things going. -/
theorem good_step {c : Cfg} {me : Mac48} {seq0 : UInt16} {s : St} (k : PkInv seq0 s.sv) (o : OutInv me s.sv)
    (b : Basic c me s.sv) (q : Quiet s) (h : Good s) (op : Op) (hq' : Quiet (step c me s op)) :
    Good (step c me s op) := by
  cases op with
  | enqueue bd d g =>
    show Good (enqueue c bd d g s).2
    unfold enqueue
    split
    · exact good_congr h rfl rfl rfl rfl
    · dsimp only
      set p : Pkt := ⟨s.nextUid, s.seq + 1, d, g, bd⟩
      have h1 : TidOK { s with
        seq := s.seq + 1, nextUid := s.nextUid + 1, queue := s.queue ++ [p]
        recs := s.recs ++ [(⟨s.seq + 1, s.now, UInt16.ofNat p.size, 0, p⟩ : Rec)], pktData := some p } :=
        h.1.congr rfl rfl rfl
      exact ⟨(h1.sched (c.ps 1) .cca).congr rfl rfl rfl, fun _ => busy_sched _ _ _ trivial⟩
  | rxStart =>
    show Good (receivePacket c s)
    have h1 := good_busyChannel c h.1
    unfold receivePacket
    dsimp only
    split
    · exact h1
    · exact good_congr h1 rfl rfl rfl rfl
  | rxDone f ok g => exact good_receive c me f ok g h
  | sense x => exact good_congr h rfl rfl rfl rfl
  | advance d => exact good_congr h rfl rfl rfl rfl
  | fire tid =>
    have hq1 : Quiet (fire c me tid s) := hq'
    show Good (fire c me tid s)
    unfold fire at hq1 ⊢
    split
    · exact h
    · rename_i t due e hf
      have ht : t = tid := by simpa using List.find?_some hf
      subst ht
      rw [hf] at hq1
      have hm : (t, due, e) ∈ s.pend := List.mem_of_find?_eq_some hf
      have hok : EvOK c me s.sv e := b.pend (t, e) (List.mem_map.2 ⟨_, hm, rfl⟩)
      dsimp only at hq1
      set s1 : St := { s with pend := s.pend.filter (fun e => e.1 ≠ t), now := max s.now due } with hs1
      have t1 : TidOK s1 := h.1.filter _ rfl rfl rfl
      have hqueue : ∀ p ∈ s1.queue, p.dst ≠ bcast := fun p hp => q.uni p (b.queue p hp)
      cases e with
      | cca => exact good_cca c t1
      | backoffStart => exact good_backoffStart c t1
      | granted => exact good_granted c me t1 hqueue
      | ctsTimeout x =>
        have hr := rec_of_tried (c := c) (b := b) k o q.open_ hok
        exact good_timeoutLoop c x (s := { s1 with ctsTO := s1.ctsTO.eraseP (fun t => t.seq = x) })
          (t1.congr rfl rfl rfl) hr
      | ackTimeout x =>
        have hr := rec_of_tried (c := c) (b := b) k o q.open_ hok
        exact good_timeoutLoop c x (s := { s1 with ackTO := s1.ackTO.eraseP (fun t => t.seq = x) })
          (t1.congr rfl rfl rfl) hr
      | sendData p => exact good_sendData c me p t1 (q.uni p hok.2)
      | sendDataDone ok x =>
        refine ⟨tid_doneLoop ok x [] s1.recs t1, ?_⟩
        intro hne
        exfalso
        have hr := rec_of_doneOK k o b q.open_ hok
        by_cases hsq : s1.queue = []
        · apply hne
          show (doneLoop ok x [] s1.recs s1).queue = []
          have : ∀ (pre rest : List Rec) (s : St), s.queue = [] → (doneLoop ok x pre rest s).queue = [] := by
            intro pre rest s hs
            induction pre, rest, s using doneLoop.induct (ok := ok) (seq := x) with
            | case1 pre s => rw [doneLoop]; exact hs
            | case2 pre r rest s h1 h2 =>
              rw [doneLoop.eq_def]; dsimp only; rw [if_pos h1, if_pos h2]; exact hs
            | case3 pre r s h1 h2 =>
              rw [doneLoop.eq_def]; dsimp only; rw [if_pos h1, if_neg h2]
              show (settle ok r s).queue = []
              unfold settle
              cases ok
              · exact hs
              · show List.filter _ s.queue = []
                rw [hs]; rfl
            | case4 pre r s h1 h2 r' rest' ih =>
              rw [doneLoop.eq_def]; dsimp only; rw [if_pos h1, if_neg h2]
              refine ih ?_
              unfold settle
              cases ok
              · exact hs
              · show List.filter _ s.queue = []
                rw [hs]; rfl
            | case5 pre r rest s h1 ih =>
              rw [doneLoop.eq_def]; dsimp only; rw [if_neg h1]; exact ih hs
          exact this [] s1.recs s1 hsq
        · obtain ⟨p, hp⟩ := doneLoop_reports ok x [] s1.recs s1 hsq hr
          exact hq1.open_ ok p hp
      | sendCts d t' x =>
        have h1 : Good s1 := h.pop hm (by simp [Driver]) _
        show Good (sendCts c me d t' x s1)
        unfold sendCts
        have h2 := good_sendPacket c (ctsFrame c me d t' x) h1
        split
        · rename_i s' e; rw [e] at h2; exact good_congr h2 rfl rfl rfl rfl
        · rename_i s' e; rw [e] at h2; exact h2
      | sendAck d x =>
        have h1 : Good s1 := h.pop hm (by simp [Driver]) _
        exact good_sendPacket c (ackFrame me d x)
          (good_congr h1 rfl rfl rfl rfl : Good (updateLocalNav c (c.ctrlDur .ack + c.tProp + c.slot) s1))
      | results =>
        have h1 : Good s1 := h.pop hm (by simp [Driver]) _
        show Good (resultsRecord s1)
        unfold resultsRecord
        split <;> exact good_congr h1 rfl rfl rfl rfl
      | phyDone f =>
        have h1 : Good s1 := h.pop hm (by simp [Driver]) _
        show Good (sendPacketDone c f s1)
        unfold sendPacketDone
        dsimp only
        have h2 : Good (({ s1 with phyTx := none } : St).emit (.txEnd f)) := good_congr h1 rfl rfl rfl rfl
        split
        · exact h2
        · have h3 : Good ({ ({ s1 with phyTx := none } : St).emit (.txEnd f) with state := .idle } : St) :=
            good_congr h2 rfl rfl rfl rfl
          split
          · exact h3
          · exact h3
          · rename_i hk
            rw [if_neg ?_]
            · exact h3
            · obtain ⟨p, h4, h5⟩ := o.data f hok hk
              rw [h5]
              exact q.uni p h4
          · exact good_cca c h3.1

theorem good_init (seq0 : UInt16) : Good (init seq0) :=
  ⟨⟨by simp [init], by simp [init], by simp [init]⟩, fun h => absurd rfl h⟩

theorem log_step (c : Cfg) (me : Mac48) (s : St) (op : Op) (b : Basic c me s.sv) :
    ∃ l, (step c me s op).log = s.log ++ l :=
  Mis.log (mis_step (A := AnyRx) s op b (fun _ _ _ => trivial))

/-- As long as only unicast packets were accepted and none has its outcome yet: whenever a packet is queued,
an event is pending that leads to a transmission attempt or an outcome. -/
theorem C71_progress_partial (c : Cfg) (me : Mac48) (seq0 : UInt16) (ops : List Op)
    (hu : ∀ p, Obs.accepted p ∈ (after c me seq0 ops).log → p.dst ≠ bcast)
    (hd : ∀ ok p, Obs.done ok p ∉ (after c me seq0 ops).log)
    (hq : (after c me seq0 ops).queue ≠ []) :
    ∃ t due e, (t, due, e) ∈ (after c me seq0 ops).pend ∧ Driver e := by
  have key : ∀ ops, Quiet (after c me seq0 ops) → Good (after c me seq0 ops) := by
    intro ops
    induction ops using List.reverseRecOn with
    | nil => exact fun _ => good_init seq0
    | append_singleton ops o ih =>
      intro hq
      have e : after c me seq0 (ops ++ [o]) = step c me (after c me seq0 ops) o := by
        unfold after run; rw [List.foldl_append]; rfl
      rw [e] at hq ⊢
      have b := Basic.after c me seq0 ops
      obtain ⟨l, hl⟩ := log_step c me (after c me seq0 ops) o b
      have hq0 : Quiet (after c me seq0 ops) :=
        ⟨fun p hp => hq.uni p (by rw [hl]; exact List.mem_append_left _ hp),
          fun ok p hp => hq.open_ ok p (by rw [hl]; exact List.mem_append_left _ hp)⟩
      exact good_step (PkInv.after c me seq0 ops) (OutInv.after c me seq0 ops) b hq0 (ih hq0) o hq
  obtain ⟨⟨t, due, e⟩, h1, h2⟩ := (key ops ⟨hu, hd⟩).2 hq
  exact ⟨t, due, e, h1, h2⟩

example : (after (exCfg false 5) exA 0 (runLost.take 20)).queue = [exP1] ∧
    (after (exCfg false 5) exA 0 (runLost.take 20)).log.all (fun o => match o with
      | .accepted p => p.dst ≠ bcast | .done _ _ => false | _ => true) = true := by decide +kernel

/-! ## C72 -/

/-- What does hold: the value that the header field of the packet happened to hold is what the DATA frame
announces, and a node overhearing it considers the medium reserved for that long (minus half a slot). -/
theorem C72_overheard_partial (c : Cfg) (hp : 0 < c.tpn) (S : ℤ) (hS : 1 ≤ S) (hslot : c.slot = S * c.tpn)
    (me other : Mac48) (seq0 : UInt16) (ops later : List Op) (p : Pkt) (g : UInt16) (hd : p.dst ≠ me)
    (hb : p.dst ≠ bcast) :
    2 * ((after c me seq0 ops).now + p.dur.toNat * c.tpn) - c.slot <
      2 * reservedUntil (after c me seq0 (ops ++ [.rxDone (dataFrame other p) true g] ++ later)) := by
  have := C27_covers c hp S hS hslot me seq0 ops later (dataFrame other p) g hd hb (.inr (.inr rfl))
  simpa [announced, dataFrame] using this

example : (exP1.dst ≠ exC) ∧ exP1.dst ≠ bcast := by decide +kernel

end Thz.Macro
