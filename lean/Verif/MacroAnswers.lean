import Verif.MacroRtsTimed
import Verif.MacroNet

/-!
# What a macro MAC sends, and what it answers with it

Every CTS, ACK and reserved DATA frame that a node hands over belongs to a frame that it received the right time before.  With this the
claims C107, C109 and C110 follow from `Macro.data_answered`, `Macro.Rts.rts_answered` and `Macro.Rts.cts_leads` under conditions that do
not mention the content of the answer.
-/

namespace Thz.Macro

open Thz
open Thz.Nano (Body Kind bcast)

variable {c : Cfg} {me : Mac48}

/-- An intact frame was received at this time. -/
def Got (tr : List (ℤ × Op × List Obs)) (t : ℤ) (f : Frame) : Prop := ∃ x ∈ tr, x.1 = t ∧ ∃ g, x.2.1 = .rxDone f true g

theorem Got.mono {a b : List (ℤ × Op × List Obs)} (h : ∀ x ∈ a, x ∈ b) {t : ℤ} {f : Frame} (hs : Got a t f) : Got b t f := by
  obtain ⟨x, h1, h2⟩ := hs
  exact ⟨x, h x h1, h2⟩

/-! ## What an event sends -/

/-- The frames an event may hand over. -/
def evSends (c : Cfg) (me : Mac48) : Ev → Frame → Prop
  | .sendCts d t q, f => f = ctsFrame c me d t q
  | .sendAck d q, f => f = ackFrame me d q
  | .sendData p, f => f = dataFrame me p
  | .granted, f => (∃ p, f = rtsFrame me p) ∨ ∃ p, f = dataFrame me p ∧ (p.dst = bcast ∨ c.rts = false)
  | _, _ => False

/-- Only such frames are handed over. -/
def Hd (F : Frame → Prop) (s s' : St) : Prop := ∃ l, s'.log = s.log ++ l ∧ ∀ f, Obs.handed f ∈ l → F f

theorem Tq.hd {F : Frame → Prop} {s s' : St} (h : Tq s s') : Hd F s s' := by
  obtain ⟨l, h1, h2⟩ := h.log
  refine ⟨l, h1, fun f hf => ?_⟩
  have : Obs.handed f ∈ l.filter phyObs := List.mem_filter.2 ⟨hf, rfl⟩
  rw [h2] at this; cases this

theorem Hd.trans {F : Frame → Prop} {a b d : St} (h : Hd F a b) (h' : Hd F b d) : Hd F a d := by
  obtain ⟨l, h1, h2⟩ := h
  obtain ⟨l', h3, h4⟩ := h'
  refine ⟨l ++ l', by rw [h3, h1, List.append_assoc], fun f hf => ?_⟩
  rcases List.mem_append.1 hf with hf | hf
  · exact h2 f hf
  · exact h4 f hf

theorem hd_sendPacket {F : Frame → Prop} {f : Frame} (hf : F f) (s : St) : Hd F s (sendPacket c f s).2 := by
  rcases th_sendPacket c f s with ⟨-, h⟩ | ⟨-, h⟩
  · obtain ⟨l, h1, h2⟩ := h.log
    refine ⟨l, h1, fun f' hf' => ?_⟩
    have : Obs.handed f' ∈ l.filter phyObs := List.mem_filter.2 ⟨hf', rfl⟩
    rw [h2] at this
    have := List.mem_singleton.1 this
    cases this; exact hf
  · exact h.hd

theorem hd_log {F : Frame → Prop} {s s' : St} (h : s'.log = s.log) : Hd F s s' := ⟨[], by rw [h, List.append_nil], by intro f h; cases h⟩

theorem hd_sendCts {F : Frame → Prop} {d : Mac48} {t : ℤ} {q : UInt16} (hf : F (ctsFrame c me d t q)) (s : St) :
    Hd F s (sendCts c me d t q s) := by
  unfold sendCts
  have h := hd_sendPacket (c := c) hf s
  split
  · rename_i s' e
    rw [e] at h
    exact h.trans (tq_updateLocalNav _ _ _).hd
  · rename_i s' e
    rw [e] at h; exact h

theorem hd_sendAck {F : Frame → Prop} {d : Mac48} {q : UInt16} (hf : F (ackFrame me d q)) (s : St) : Hd F s (sendAck c me d q s) :=
  Hd.trans (tq_updateLocalNav c _ s).hd (hd_sendPacket hf _)

theorem hd_sendData {F : Frame → Prop} {p : Pkt} (hf : F (dataFrame me p)) (s : St) : Hd F s (sendData c me p s) := by
  have h := hd_sendPacket (c := c) hf { s with pktData := some p }
  have h0 : Hd F s { s with pktData := some p } := hd_log rfl
  unfold sendData
  split
  · exact hd_log rfl
  · split
    · rename_i s' e
      rw [e] at h
      refine (h0.trans h).trans ?_
      split
      · exact hd_log rfl
      · exact hd_log rfl
    · rename_i s' e
      rw [e] at h
      exact (h0.trans h).trans (tq_startOver c s').hd

theorem hd_sendRts {F : Frame → Prop} {p : Pkt} (hf : F (rtsFrame me p)) (s : St) : Hd F s (sendRts c me p s) := by
  have h := hd_sendPacket (c := c) hf s
  unfold sendRts
  split
  · rename_i s' e
    rw [e] at h
    exact h.trans (hd_log rfl)
  · rename_i s' e
    rw [e] at h
    exact h.trans (tq_startOver c s').hd

theorem hd_granted (s : St) : Hd (evSends c me .granted) s (granted c me s) := by
  unfold granted
  split
  · exact hd_log rfl
  · rename_i p rest e
    dsimp only
    split_ifs with h
    · exact (hd_log rfl).trans (hd_sendRts (.inl ⟨p, rfl⟩) _)
    · refine (hd_log rfl).trans (hd_sendData (.inr ⟨p, rfl, ?_⟩) _)
      by_cases h1 : p.dst = bcast
      · exact .inl h1
      · refine .inr ?_
        cases h2 : c.rts with
        | false => rfl
        | true => exact absurd ⟨h1, h2⟩ h

/-- A frame is handed over only in an event that may do so. -/
theorem handed_event {s : St} {o : Op} {f : Frame} (h : Obs.handed f ∈ newObs c me s o) :
    ∃ tid x, o = .fire tid ∧ s.pend.find? (fun e => e.1 = tid) = some x ∧ evSends c me x.2.2 f := by
  have hl := log_kop c me s o
  have done : ∀ {F : Frame → Prop} {a : St}, Hd F a (step c me s o) → a.log = s.log → F f := by
    rintro F a ⟨l, h1, h2⟩ e
    rw [e] at h1
    exact h2 f (List.append_cancel_left (hl.symm.trans h1) ▸ h)
  cases o with
  | fire tid =>
    cases hf : s.pend.find? (fun e => e.1 = tid) with
    | none =>
      rw [fire_none c me s hf] at hl
      have : newObs c me s (.fire tid) = [] := List.append_cancel_left (hl.symm.trans (List.append_nil _).symm)
      rw [this] at h; cases h
    | some x =>
      refine ⟨tid, x, rfl, hf, ?_⟩
      obtain ⟨t, due, e⟩ := x
      rw [fire_eq c me s hf] at done
      refine done (a := { s with pend := s.pend.filter (fun e => e.1 ≠ tid), now := max s.now due }) ?_ rfl
      show Hd (evSends c me e) _ (runEv c me e _)
      unfold runEv
      cases e with
      | cca => exact (tq_cca _ _).hd
      | backoffStart => exact (tq_backoffStart _ _).hd
      | granted => exact hd_granted _
      | ctsTimeout x => exact (tq_ctsTimeout _ _ _).hd
      | ackTimeout x => exact (tq_ackTimeout _ _ _).hd
      | sendCts d y x => exact hd_sendCts (c := c) (me := me) (F := evSends c me (.sendCts d y x)) rfl _
      | sendData p => exact hd_sendData (c := c) (me := me) (F := evSends c me (.sendData p)) rfl _
      | sendAck d x => exact hd_sendAck (c := c) (me := me) (F := evSends c me (.sendAck d x)) rfl _
      | sendDataDone ok x => exact (tq_sendDataDone _ _ _).hd
      | results => exact (tq_results _).hd
      | phyDone f' =>
        refine Hd.trans ?_ (tq_sendPacketDone c f' _).hd
        exact ⟨[.txEnd f'], rfl, by simp⟩
  | enqueue b d g => exact (done (F := fun _ => False) (tq_enqueue c b d g s).hd rfl).elim
  | rxStart => exact (done (F := fun _ => False) (tq_receivePacket c s).hd rfl).elim
  | rxDone f' ok g =>
    refine (done (F := fun _ => False) (a := s) (Hd.trans ?_ (tq_rxDone c me f' ok g s).hd) rfl).elim
    cases ok with
    | true => exact ⟨[.rx f'], rfl, by simp⟩
    | false => exact hd_log rfl
  | sense b => exact (done (F := fun _ => False) (a := s) (hd_log rfl) rfl).elim
  | advance d => exact (done (F := fun _ => False) (a := s) (hd_log rfl) rfl).elim

/-! ## Where the events come from -/

/-- Within these operations: an intact frame for which `R` holds is received `D` before this time (`R` sees the state before). -/
def Origin (c : Cfg) (me : Mac48) (seq0 : UInt16) (D : ℤ) (R : St → Ev → Frame → Prop) (ops : List Op) (t : ℤ) (e : Ev) : Prop :=
  ∃ a f g b, ops = a ++ .rxDone f true g :: b ∧ t = (after c me seq0 a).now + D ∧ R (after c me seq0 a) e f

theorem Origin.snoc {seq0 : UInt16} {D : ℤ} {R : St → Ev → Frame → Prop} {ops : List Op} {t : ℤ} {e : Ev}
    (h : Origin c me seq0 D R ops t e) (o : Op) : Origin c me seq0 D R (ops ++ [o]) t e := by
  obtain ⟨a, f, g, b, rfl, h⟩ := h
  exact ⟨a, f, g, b ++ [o], by simp, h⟩

theorem got_of_split {seq0 : UInt16} {a b : List Op} {f : Frame} {g : UInt16} :
    Got (trace c me (init seq0) (a ++ .rxDone f true g :: b)) (after c me seq0 a).now f := by
  refine ⟨((Macro.step c me (after c me seq0 a) (.rxDone f true g)).now, .rxDone f true g, newObs c me (after c me seq0 a) (.rxDone f true g)),
    ?_, ?_, g, rfl⟩
  · rw [trace_append]; exact List.mem_append_right _ List.mem_cons_self
  · exact now_step c me _ (.rxDone f true g) (by simp) (by simp)

/-- Every pending event of this sort was scheduled when a certain frame was received, `D` before it is due, and is not overdue; every frame
that only such events send was sent `D` after the reception of such a frame. -/
structure Prov (c : Cfg) (me : Mac48) (seq0 : UInt16) (K : Ev → Prop) (D : ℤ) (R : St → Ev → Frame → Prop) (ops : List Op) : Prop where
  pend : ∀ x ∈ (after c me seq0 ops).pend, K x.2.2 → Origin c me seq0 D R ops x.2.1 x.2.2 ∧ (after c me seq0 ops).now ≤ x.2.1
  sent : ∀ t f', Sent (trace c me (init seq0) ops) t f' → (∀ e, evSends c me e f' → K e) →
    ∃ e, evSends c me e f' ∧ Origin c me seq0 D R ops t e

/-- The events of this sort that an operation adds. -/
def Adds (c : Cfg) (me : Mac48) (K : Ev → Prop) (D : ℤ) (R : St → Ev → Frame → Prop) (s : St) (o : Op) : Prop :=
  ∀ x ∈ (step c me s o).pend, K x.2.2 → x ∈ s.pend ∨ ∃ f g, o = .rxDone f true g ∧ x.2.1 = s.now + D ∧ R s x.2.2 f

theorem Prov.after {K : Ev → Prop} {D : ℤ} {R : St → Ev → Frame → Prop} (hD : 0 ≤ D) (seq0 : UInt16) (ops : List Op)
    (ht : onTimeRun c me (init seq0) ops = true) (ha : ∀ a o, Adds c me K D R (after c me seq0 a) o) : Prov c me seq0 K D R ops := by
  induction ops using List.reverseRecOn with
  | nil => exact ⟨fun x h => (by cases h), by rintro t f ⟨x, h, _⟩; cases h⟩
  | append_singleton ops o ih =>
    rw [onTimeRun_append, Bool.and_eq_true] at ht
    have h := ih ht.1
    have ht' : onTime c me (Macro.after c me seq0 ops) o = true := by
      have := ht.2
      simp [onTimeRun] at this
      exact this
    have es : Macro.after c me seq0 (ops ++ [o]) = Macro.step c me (Macro.after c me seq0 ops) o := by
      unfold Macro.after; rw [run_append]; rfl
    have et : trace c me (init seq0) (ops ++ [o]) = trace c me (init seq0) ops ++
        [((Macro.step c me (Macro.after c me seq0 ops) o).now, o, newObs c me (Macro.after c me seq0 ops) o)] := by
      rw [trace_append]; rfl
    constructor
    · rw [es]
      intro x hx hk
      rcases ha ops o x hx hk with h1 | ⟨f, g, rfl, h1, h2⟩
      · obtain ⟨h2, h4⟩ := h.pend x h1 hk
        exact ⟨h2.snoc o, onTime_le ht' h1 h4⟩
      · have e := now_step c me (Macro.after c me seq0 ops) (.rxDone f true g) (by simp) (by simp)
        refine ⟨⟨ops, f, g, [], rfl, h1, h2⟩, ?_⟩
        omega
    · rw [et]
      rintro t f' ⟨x, hx, rfl, hx2⟩ hk
      rcases List.mem_append.1 hx with hx | hx
      · obtain ⟨e, h1, h2⟩ := h.sent _ f' ⟨x, hx, rfl, hx2⟩ hk
        exact ⟨e, h1, h2.snoc o⟩
      · rw [List.mem_singleton.1 hx] at hx2 ⊢
        obtain ⟨tid, y, rfl, h1, h2⟩ := handed_event hx2
        obtain ⟨h3, h5⟩ := h.pend y (List.mem_of_find?_eq_some h1) (hk _ h2)
        refine ⟨y.2.2, h2, ?_⟩
        show Origin c me seq0 D R _ (Macro.step c me (Macro.after c me seq0 ops) (.fire tid)).now y.2.2
        rw [now_fire c me (Macro.after c me seq0 ops) h1, max_eq_right h5]
        exact h3.snoc _

/-! ## Acknowledgements -/

theorem adds_ack (s : St) (hk : TidK s) (o : Op) : Adds c me (fun e => ∃ d q, e = .sendAck d q) c.sifs
    (fun _ e f => f.kind = .data ∧ f.dst = me ∧ e = .sendAck f.src f.seq) s o := by
  rintro ⟨tid, d, e⟩ hx ⟨d', q, he⟩
  dsimp only at he
  subst he
  have hm : (tid, d, Ev.sendAck d' q) ∈ kept (step c me s o).pend := mem_kept.2 ⟨hx, rfl⟩
  have old : (tid, d, Ev.sendAck d' q) ∈ kept s.pend → (tid, d, Ev.sendAck d' q) ∈ s.pend := fun h => (mem_kept.1 h).1
  have hop := kop_step c me s o
  generalize step c me s o = s' at hop hm ⊢
  cases hop with
  | quiet _ _ ho hd hn hlog ha hst hk' => rw [(hk' hk).2] at hm; exact .inl (old hm)
  | data f g s' hf hn hlog hst hk' =>
    rw [(hk' hk).2] at hm
    rcases List.mem_append.1 hm with h1 | h1
    · exact .inl (old h1)
    · simp only [List.mem_singleton, Prod.mk.injEq, Ev.sendAck.injEq] at h1
      refine .inr ⟨f, g, rfl, h1.2.1, hf.1, hf.2.2, ?_⟩
      rw [h1.2.2.1, h1.2.2.2]
  | ack f g x hf hx s' ha hlog hst hk' =>
    rw [(hk' hk).2] at hm
    rcases List.mem_append.1 hm with h1 | h1
    · exact .inl (old (List.mem_filter.1 h1).1)
    · simp at h1
  | none t hf => exact .inl (old hm)
  | fire t x s' hf hn hlog hst hk' => rw [(hk' hk).2] at hm; exact .inl (old (List.mem_filter.1 hm).1)
  | send t x s' p t' hf hu hfree hphy hlog' hn hk' =>
    rw [(hk' hk).2] at hm
    rcases List.mem_append.1 hm with h1 | h1
    · exact .inl (old (List.mem_filter.1 h1).1)
    · simp at h1

/-- An ACK answers a DATA frame for this node, received a SIFS before. -/
theorem ack_answers (hs : 0 ≤ c.sifs) {seq0 : UInt16} {ops : List Op} (ht : onTimeRun c me (init seq0) ops = true) {t : ℤ} {f' : Frame}
    (h : Sent (trace c me (init seq0) ops) t f') (hk : f'.kind = .ack) : ∃ f, Got (trace c me (init seq0) ops) (t - c.sifs) f ∧
      f.kind = .data ∧ f.dst = me ∧ f' = ackFrame me f.src f.seq := by
  obtain ⟨e, h1, a, f, g, b, h2, ht', h3, h4, rfl⟩ := (Prov.after hs seq0 ops ht
    (fun a o => adds_ack _ (TidK.after c me seq0 a) o)).sent t f' h (fun e he => by
      cases e <;> simp only [evSends] at he
      · rcases he with ⟨p, rfl⟩ | ⟨p, rfl, -⟩ <;> simp [rtsFrame, dataFrame] at hk
      · rw [he] at hk; simp [ctsFrame] at hk
      · rw [he] at hk; simp [dataFrame] at hk
      · exact ⟨_, _, rfl⟩)
  refine ⟨f, ?_, h3, h4, h1⟩
  rw [h2, ht', Int.add_sub_cancel]
  exact got_of_split

/-- `C107_data_is_answered` with the frame. -/
theorem data_is_answered (c : Cfg) (me : Mac48) (seq0 : UInt16) (ops later : List Op) (f : Frame) (g : UInt16) (hs : 0 ≤ c.sifs)
    (hdur : ∀ f, 0 ≤ c.frameDur f)
    (hme : me ≠ bcast) (ht : onTimeRun c me (init seq0) (ops ++ .rxDone f true g :: later) = true)
    (hf : f.kind = .data) (hd : f.dst = me) (T : ℤ) (hT : T = (after c me seq0 ops).now)
    (hheard : ∀ t, Heard (trace c me (after c me seq0 (ops ++ [.rxDone f true g])) later) t → T + c.sifs < t)
    (hlone : ∀ f', Got (trace c me (init seq0) (ops ++ .rxDone f true g :: later)) T f' → f'.kind = .data → f'.dst = me →
      f'.src = f.src ∧ f'.seq = f.seq)
    (hsent : ∀ t f', Sent (trace c me (init seq0) (ops ++ .rxDone f true g :: later)) t f' →
      t + c.frameDur f' < T ∨ T + c.sifs < t ∨ (t = T + c.sifs ∧ f'.kind = .ack))
    (hend : T + c.sifs < (after c me seq0 (ops ++ .rxDone f true g :: later)).now) :
    Sent (trace c me (init seq0) (ops ++ .rxDone f true g :: later)) (T + c.sifs) (ackFrame me f.src f.seq) := by
  refine data_answered c me seq0 ops later f g hs hdur hme ht hf hd T hT hheard (fun t f' h => ?_) hend
  rcases hsent t f' h with h1 | h1 | ⟨rfl, h1⟩
  · exact .inl h1
  · exact .inr (.inl h1)
  · obtain ⟨f2, h2, h3, h4, h5⟩ := ack_answers hs ht h h1
    rw [show T + c.sifs - c.sifs = T by omega] at h2
    obtain ⟨h6, h7⟩ := hlone f2 h2 h3 h4
    exact .inr (.inr ⟨rfl, by rw [h5, h6, h7]⟩)

/-- A node that receives a DATA frame for itself at time `T` hands over the acknowledgement a SIFS later, if no earlier transmission of its
own lasts until `T` and it starts none until then (at that very moment none but an ACK), if it receives no DATA frame of another packet at
the same time `T`, and the PHY announces no arrival until then.  (The node may be in the middle of anything else: backing off, waiting for
a CTS or an ACK, holding back for a NAV.) -/
theorem C107_data_is_answered (c : Cfg) (me : Mac48) (seq0 : UInt16) (ops later : List Op) (f : Frame) (g : UInt16) (hs : 0 ≤ c.sifs)
    (hdur : ∀ f, 0 ≤ c.frameDur f)
    (hme : me ≠ bcast) (ht : onTimeRun c me (init seq0) (ops ++ .rxDone f true g :: later) = true)
    (hf : f.kind = .data) (hd : f.dst = me) (T : ℤ) (hT : T = (after c me seq0 ops).now)
    (hheard : ∀ t, Heard (trace c me (after c me seq0 (ops ++ [.rxDone f true g])) later) t → T + c.sifs < t)
    (hlone : ∀ f', Got (trace c me (init seq0) (ops ++ .rxDone f true g :: later)) T f' → f'.kind = .data → f'.dst = me →
      f'.src = f.src ∧ f'.seq = f.seq)
    (hsent : ∀ t f', Sent (trace c me (init seq0) (ops ++ .rxDone f true g :: later)) t f' →
      t + c.frameDur f' < T ∨ T + c.sifs < t ∨ (t = T + c.sifs ∧ f'.kind = .ack))
    (hend : T + c.sifs < (after c me seq0 (ops ++ .rxDone f true g :: later)).now) :
    ∃ f', Sent (trace c me (init seq0) (ops ++ .rxDone f true g :: later)) (T + c.sifs) f' ∧
      f'.kind = .ack ∧ f'.src = me ∧ f'.dst = f.src ∧ f'.seq = f.seq :=
  ⟨_, data_is_answered c me seq0 ops later f g hs hdur hme ht hf hd T hT hheard hlone hsent hend, rfl, rfl, rfl, rfl⟩

/-! ## Examples -/

theorem got_all {tr : List (ℤ × Op × List Obs)} (P : ℤ → Frame → Bool) (h : tr.all (fun x => match x.2.1 with
    | .rxDone f true _ => P x.1 f
    | _ => true) = true) : ∀ t f, Got tr t f → P t f = true := by
  rintro t f ⟨x, h1, rfl, g, h2⟩
  have h3 := List.all_eq_true.1 h x h1
  rw [h2] at h3
  exact h3

/-- A node hears the first packet of the examples and acknowledges it. -/
example : Sent (trace (exCfg false 5) exB (init 0) ([.advance 100, .rxStart] ++ .rxDone (dataFrame exA exP1) true 0 :: fires [0, 1]))
    100 (ackFrame exB exA 1) := by
  have h := data_is_answered (exCfg false 5) exB 0 [.advance 100, .rxStart] (fires [0, 1]) (dataFrame exA exP1) 0
    (by decide) (exCfg_dur false 5)
    (by decide +kernel) (timelyRun_onTime _ (by decide +kernel)) rfl rfl 100 (by decide +kernel)
    (fun t ht => by
      have := heard_all (fun t => decide (100 + (exCfg false 5).sifs < t)) (by decide +kernel) t ht
      simpa using this)
    (fun f hf _ _ => of_decide_eq_true (got_all (fun _ f => decide (f.src = exA ∧ f.seq = 1)) (by decide +kernel) 100 f hf))
    (fun t f ht => by
      have := sent_all (fun t f => decide (t = 100 + (exCfg false 5).sifs ∧ f.kind = .ack)) (by decide +kernel) t f ht
      exact .inr (.inr (of_decide_eq_true this)))
    (by decide +kernel)
  exact h

end Thz.Macro

namespace Thz.Macro.Rts

open Thz
open Thz.Nano (Body Kind bcast)
open Thz.Macro

variable {c : Cfg} {me : Mac48}

/-! ## CTS -/

theorem adds_cts (s : St) (hk : TidK s) (o : Op) : Adds c me (fun e => ∃ d n q, e = .sendCts d n q) (c.ps 1)
    (fun _ e f => f.kind = .rts ∧ f.dst = me ∧ ∃ n, e = .sendCts f.src n f.seq) s o := by
  rintro ⟨tid, d, e⟩ hx ⟨d', n, q, he⟩
  dsimp only at he
  subst he
  have hm : (tid, d, Ev.sendCts d' n q) ∈ kept (step c me s o).pend := mem_kept.2 ⟨hx, rfl⟩
  have old : (tid, d, Ev.sendCts d' n q) ∈ kept s.pend → (tid, d, Ev.sendCts d' n q) ∈ s.pend := fun h => (mem_kept.1 h).1
  have hop := kop_step c me s o
  generalize step c me s o = s' at hop hm ⊢
  cases hop with
  | quiet _ _ ho hd hn hlog ha hst hk' => rw [(hk' hk).2] at hm; exact .inl (old hm)
  | rts f g s' hf hn hlog hst hk' =>
    rw [(hk' hk).2] at hm
    rcases List.mem_append.1 hm with h1 | h1
    · exact .inl (old h1)
    · simp only [List.mem_singleton, Prod.mk.injEq, Ev.sendCts.injEq] at h1
      refine .inr ⟨f, g, rfl, h1.2.1, hf.1, hf.2.1, n, ?_⟩
      rw [h1.2.2.1, h1.2.2.2.2]
  | cts f g x p hf hx hp s' ha hlog hst hk' =>
    rw [(hk' hk).2] at hm
    rcases List.mem_append.1 hm with h1 | h1
    · exact .inl (old (List.mem_filter.1 h1).1)
    · simp at h1
  | none t hf => exact .inl (old hm)
  | fire t x s' hf hn hlog hst hk' => rw [(hk' hk).2] at hm; exact .inl (old (List.mem_filter.1 hm).1)
  | send t x s' p t' hf hfree hphy hlog' hn hk' =>
    rw [(hk' hk).2] at hm
    rcases List.mem_append.1 hm with h1 | h1
    · exact .inl (old (List.mem_filter.1 h1).1)
    · simp at h1

/-- A CTS answers an RTS for this node, received a picosecond before. -/
theorem cts_answers (hps : 0 ≤ c.tpn) {seq0 : UInt16} {ops : List Op} (ht : onTimeRun c me (init seq0) ops = true) {t : ℤ} {f' : Frame}
    (h : Sent (trace c me (init seq0) ops) t f') (hk : f'.kind = .cts) : ∃ f, Got (trace c me (init seq0) ops) (t - c.ps 1) f ∧
      f.kind = .rts ∧ f.dst = me ∧ f'.src = me ∧ f'.dst = f.src ∧ f'.seq = f.seq := by
  obtain ⟨e, h1, a, f, g, b, h2, ht', h3, h4, n, rfl⟩ := (Prov.after (ps_nonneg hps) seq0 ops ht
    (fun a o => adds_cts _ (TidK.after c me seq0 a) o)).sent t f' h (fun e he => by
      cases e <;> simp only [evSends] at he
      · rcases he with ⟨p, rfl⟩ | ⟨p, rfl, -⟩ <;> simp [rtsFrame, dataFrame] at hk
      · exact ⟨_, _, _, rfl⟩
      · rw [he] at hk; simp [dataFrame] at hk
      · rw [he] at hk; simp [ackFrame] at hk)
  have h1 : f' = ctsFrame c me f.src n f.seq := h1
  refine ⟨f, ?_, h3, h4, ?_⟩
  · rw [h2, ht', Int.add_sub_cancel]
    exact got_of_split
  · rw [h1]
    exact ⟨rfl, rfl, rfl⟩

/-- A node that receives an RTS for itself at time `T`, when it is not holding back for another exchange, hands over the CTS with the number
of the RTS a picosecond later, if no earlier transmission of its own lasts until `T` and it starts none until then (at that very moment none
but a CTS), if it receives no other RTS for itself at the same time `T`, and the PHY announces no arrival until then. -/
theorem C109_rts_is_answered (c : Cfg) (me : Mac48) (seq0 : UInt16) (ops later : List Op) (f : Frame) (g : UInt16) (hps : 0 ≤ c.tpn)
    (hdur : ∀ f, 0 ≤ c.frameDur f)
    (ht : onTimeRun c me (init seq0) (ops ++ .rxDone f true g :: later) = true)
    (hf : f.kind = .rts) (hd : f.dst = me) (T : ℤ) (hT : T = (after c me seq0 ops).now)
    (hnav : (after c me seq0 ops).nav ≤ T ∧ (after c me seq0 ops).localNav ≤ T)
    (hheard : ∀ t, Heard (trace c me (after c me seq0 (ops ++ [.rxDone f true g])) later) t → T + c.ps 1 < t)
    (hlone : ∀ f', Got (trace c me (init seq0) (ops ++ .rxDone f true g :: later)) T f' → f'.kind = .rts → f'.dst = me →
      f'.src = f.src ∧ f'.seq = f.seq)
    (hsent : ∀ t f', Sent (trace c me (init seq0) (ops ++ .rxDone f true g :: later)) t f' →
      t + c.frameDur f' < T ∨ T + c.ps 1 < t ∨ (t = T + c.ps 1 ∧ f'.kind = .cts))
    (hend : T + c.ps 1 < (after c me seq0 (ops ++ .rxDone f true g :: later)).now) :
    ∃ f', Sent (trace c me (init seq0) (ops ++ .rxDone f true g :: later)) (T + c.ps 1) f' ∧
      f'.kind = .cts ∧ f'.src = me ∧ f'.dst = f.src ∧ f'.seq = f.seq := by
  refine rts_answered c me seq0 ops later f g hps hdur ht hf hd T hT hnav hheard (fun t f' h => ?_) hend
  rcases hsent t f' h with h1 | h1 | ⟨rfl, h1⟩
  · exact .inl h1
  · exact .inr (.inl h1)
  · obtain ⟨f2, h2, h3, h4, h5, h6, h7⟩ := cts_answers hps ht h h1
    rw [show T + c.ps 1 - c.ps 1 = T by omega] at h2
    obtain ⟨h8, h9⟩ := hlone f2 h2 h3 h4
    exact .inr (.inr ⟨rfl, h1, h5, h6.trans h8, h7.trans h9⟩)

/-! ## DATA after a CTS -/

/-- What `findPkt` finds. -/
theorem findPkt_cases {q : UInt16} {p : Pkt} : ∀ (l : List Rec) (cur : Option Pkt), findPkt q l cur = some p →
    p.seq = q ∨ ∀ r ∈ l, r.pkt.seq ≠ q := by
  intro l
  induction l with
  | nil => intro cur _; exact .inr (by simp)
  | cons r l ih =>
    intro cur h
    unfold findPkt at h
    split_ifs at h with h1
    · cases h; exact .inl h1
    · rcases ih _ h with h2 | h2
      · exact .inl h2
      · refine .inr (fun x hx => ?_)
        rcases List.mem_cons.1 hx with rfl | hx
        · exact h1
        · exact h2 x hx

/-- The event sends the packet with the number of the CTS, or that packet was reported before. -/
def DataFor (me : Mac48) (s : St) (e : Ev) (f : Frame) : Prop :=
  f.kind = .cts ∧ f.dst = me ∧ ∃ p, e = .sendData p ∧
    (p.seq = f.seq ∨ ∀ p', Obs.accepted p' ∈ s.log → p'.seq = f.seq → ∃ ok, Obs.done ok p' ∈ s.log)

theorem adds_data {seq0 : UInt16} (s : St) (hk : TidK s) (k : PkInv seq0 s.sv) (o : Op) :
    Adds c me (fun e => ∃ p, e = .sendData p) (c.ps 1) (DataFor me) s o := by
  rintro ⟨tid, d, e⟩ hx ⟨p, he⟩
  dsimp only at he
  subst he
  have hm : (tid, d, Ev.sendData p) ∈ kept (step c me s o).pend := mem_kept.2 ⟨hx, rfl⟩
  have old : (tid, d, Ev.sendData p) ∈ kept s.pend → (tid, d, Ev.sendData p) ∈ s.pend := fun h => (mem_kept.1 h).1
  have hop := kop_step c me s o
  generalize step c me s o = s' at hop hm ⊢
  cases hop with
  | quiet _ _ ho hd hn hlog ha hst hk' => rw [(hk' hk).2] at hm; exact .inl (old hm)
  | rts f g s' hf hn hlog hst hk' =>
    rw [(hk' hk).2] at hm
    rcases List.mem_append.1 hm with h1 | h1
    · exact .inl (old h1)
    · simp at h1
  | cts f g x p' hf hx hp s' ha hlog hst hk' =>
    rw [(hk' hk).2] at hm
    rcases List.mem_append.1 hm with h1 | h1
    · exact .inl (old (List.mem_filter.1 h1).1)
    · simp only [List.mem_singleton, Prod.mk.injEq, Ev.sendData.injEq] at h1
      refine .inr ⟨f, g, rfl, h1.2.1, hf.1, hf.2, p, rfl, ?_⟩
      rw [h1.2.2]
      rcases findPkt_cases _ _ hp with h2 | h2
      · exact .inl h2
      · refine .inr (fun p'' h3 h4 => ?_)
        rcases k.kept p'' h3 with ⟨r, h5, rfl⟩ | h5
        · exact absurd h4 (h2 r h5)
        · exact h5
  | none t hf => exact .inl (old hm)
  | fire t x s' hf hn hlog hst hk' => rw [(hk' hk).2] at hm; exact .inl (old (List.mem_filter.1 hm).1)
  | send t x s' p t' hf hfree hphy hlog' hn hk' =>
    rw [(hk' hk).2] at hm
    rcases List.mem_append.1 hm with h1 | h1
    · exact .inl (old (List.mem_filter.1 h1).1)
    · simp at h1

/-- A unicast DATA frame of a node that uses RTS answers a CTS received a picosecond before. -/
theorem data_answers (hps : 0 ≤ c.tpn) (hrts : c.rts = true) {seq0 : UInt16} {ops : List Op} (ht : onTimeRun c me (init seq0) ops = true)
    {t : ℤ} {f' : Frame} (h : Sent (trace c me (init seq0) ops) t f') (hk : f'.kind = .data) (hu : f'.dst ≠ bcast) :
    ∃ a f g b p, ops = a ++ .rxDone f true g :: b ∧ t = (after c me seq0 a).now + c.ps 1 ∧ f.kind = .cts ∧ f.dst = me ∧
      f' = dataFrame me p ∧ (p.seq = f.seq ∨
        ∀ p', Obs.accepted p' ∈ (after c me seq0 a).log → p'.seq = f.seq → ∃ ok, Obs.done ok p' ∈ (after c me seq0 a).log) := by
  obtain ⟨e, h1, a, f, g, b, h2, ht', h3, h4, p, rfl, h5⟩ := (Prov.after (ps_nonneg hps) seq0 ops ht
    (fun a o => adds_data _ (TidK.after c me seq0 a) (PkInv.after c me seq0 a) o)).sent t f' h (fun e he => by
      cases e <;> simp only [evSends] at he
      · rcases he with ⟨p, rfl⟩ | ⟨p, rfl, h1 | h1⟩
        · simp [rtsFrame] at hk
        · exact absurd h1 hu
        · rw [hrts] at h1; cases h1
      · rw [he] at hk; simp [ctsFrame] at hk
      · exact ⟨_, rfl⟩
      · rw [he] at hk; simp [ackFrame] at hk)
  exact ⟨a, f, g, b, p, h2, ht', h3, h4, h1, h5⟩

/-- `C110_cts_leads_to_data` with the frame. -/
theorem cts_leads_to_data (c : Cfg) (hps : 0 ≤ c.tpn) (hD : 0 ≤ ctsTimeoutDur c) (hdur : ∀ f, 0 ≤ c.frameDur f) (me : Mac48)
    (seq0 : UInt16) (ops later : List Op) (p : Pkt)
    (f : Frame) (g : UInt16) (ht : onTimeRun c me (init seq0) (ops ++ .rxDone f true g :: later) = true)
    (hn : numAccepted (after c me seq0 (ops ++ .rxDone f true g :: later)).log ≤ 65536)
    (hp : Obs.accepted p ∈ (after c me seq0 (ops ++ .rxDone f true g :: later)).log)
    (t T : ℤ) (hs : Sent (trace c me (init seq0) ops) t (rtsFrame me p))
    (hf : f.kind = .cts ∧ f.dst = me ∧ f.seq = p.seq)
    (heT : T = (after c me seq0 ops).now) (hT : T < t + ctsTimeoutDur c)
    (hb : ∀ t0 f0, Sent (trace c me (init seq0) ops) t0 f0 → f0.kind = .rts → f0.seq = p.seq → t0 + ctsTimeoutDur c < t ∨ t ≤ t0)
    (hfirst : ∀ x ∈ trace c me (init seq0) ops, ∀ f' g', x.2.1 = .rxDone f' true g' → f'.kind = .cts → f'.dst = me → f'.seq = p.seq → x.1 < t)
    (hheard : ∀ t, Heard (trace c me (after c me seq0 (ops ++ [.rxDone f true g])) later) t → T + c.ps 1 < t)
    (hlone : ∀ f', Got (trace c me (init seq0) (ops ++ .rxDone f true g :: later)) T f' → f'.kind = .cts → f'.dst = me → f'.seq = p.seq)
    (hsent : ∀ t f', Sent (trace c me (init seq0) (ops ++ .rxDone f true g :: later)) t f' →
      t + c.frameDur f' < T ∨ T + c.ps 1 < t ∨ (t = T + c.ps 1 ∧ f'.kind = .data ∧ f'.dst ≠ bcast))
    (hend : T + c.ps 1 < (after c me seq0 (ops ++ .rxDone f true g :: later)).now) :
    Sent (trace c me (init seq0) (ops ++ .rxDone f true g :: later)) (T + c.ps 1) (dataFrame me p) ∨
    Obs.done true p ∈ (after c me seq0 (ops ++ .rxDone f true g :: later)).log ∨
    ∃ k, Obs.timedOut p k ∈ (after c me seq0 (ops ++ .rxDone f true g :: later)).log ∧ 5 ≤ k := by
  by_cases hset : Settled p (after c me seq0 (ops ++ .rxDone f true g :: later))
  · exact .inr hset
  refine cts_leads c hps hD hdur me seq0 ops later p f g ht hn hp t T hs hf heT hT hb hfirst hheard (fun t' f' h => ?_) hend
  rcases hsent t' f' h with h1 | h1 | ⟨rfl, h1, h1'⟩
  · exact .inl h1
  · exact .inr (.inl h1)
  refine .inr (.inr ⟨rfl, ?_⟩)
  have eafter : ∀ a b, after c me seq0 (a ++ b) = run c me (after c me seq0 a) b := fun a b => by unfold after; rw [run_append]
  have hnf : (after c me seq0 (ops ++ .rxDone f true g :: later)).nextUid ≤ 65536 := by rw [← numAccepted_after]; exact hn
  have pk := PkInv.after c me seq0 (ops ++ .rxDone f true g :: later)
  have oi := OutInv.after c me seq0 (ops ++ .rxDone f true g :: later)
  have hrts : c.rts = true := (HandInv.after c me seq0 ops).rts _ (Sent.log _ hs) rfl
  obtain ⟨a, f2, g2, b, p2, h2, h3, h4, h5, h6, h7⟩ := data_answers hps hrts ht h h1 h1'
  have e2 : T = (after c me seq0 a).now := by omega
  have h8 : f2.seq = p.seq := hlone f2 (by rw [h2, e2]; exact got_of_split) h4 h5
  obtain ⟨p3, h9, h10⟩ := oi.data f' (Sent.log _ h) h1
  have h11 : p2.seq = p3.seq := congrArg Frame.seq (h6.symm.trans h10)
  rcases h7 with h7 | h7
  · have : p3 = p := pk.seq_inj hnf h9 hp (h11.symm.trans (h7.trans h8))
    rw [h10, this]
  exfalso
  -- the packet was accepted before the RTS
  have hacc : Obs.accepted p ∈ (after c me seq0 ops).log := by
    obtain ⟨p', h4, h5⟩ := (OutInv.after c me seq0 ops).rts _ (Sent.log _ hs) rfl
    have h6 : p'.seq = p.seq := (congrArg Frame.seq h5).symm
    have h4' : Obs.accepted p' ∈ (after c me seq0 (ops ++ .rxDone f true g :: later)).log := by
      rw [eafter]; exact log_run c me _ _ _ h4
    have : p' = p := pk.seq_inj hnf h4' hp h6
    exact this ▸ h4
  have htT : t ≤ T := by
    obtain ⟨x, hx, rfl, -⟩ := hs
    rw [heT]; exact trace_le _ _ x hx
  rcases List.append_eq_append_iff.1 h2 with ⟨m, h12, h13⟩ | ⟨m, h12, h13⟩
  · -- the CTS came in `ops ++ m`
    rw [h12, eafter] at h7
    obtain ⟨ok, hd⟩ := h7 p (log_run c me _ _ _ hacc) h8.symm
    refine hset (done_settled pk oi hnf hp (ok := ok) ?_)
    rw [h2, eafter, h12, eafter]
    exact log_run c me _ _ _ hd
  · cases m with
    | nil =>
      rw [List.append_nil] at h12
      rw [← h12] at h7
      obtain ⟨ok, hd⟩ := h7 p hacc h8.symm
      refine hset (done_settled pk oi hnf hp (ok := ok) ?_)
      rw [eafter]
      exact log_run c me _ _ _ hd
    | cons o m =>
      have h14 : o = .rxDone f2 true g2 := (List.cons.inj h13).1.symm
      rw [h12, h14] at hfirst
      have := hfirst _ (by rw [trace_append]; exact List.mem_append_right _ List.mem_cons_self) f2 g2 rfl h4 h5 h8
      have e := now_step c me (after c me seq0 a) (.rxDone f2 true g2) (by simp) (by simp)
      have this : (step c me (after c me seq0 a) (.rxDone f2 true g2)).now < t := this
      omega

/-- A node that sent the RTS of a packet and receives an intact CTS for it before the timeout is over, the first one since then, hands over
the DATA frame of that packet a picosecond later; unless the packet is settled (reported as delivered, or timed out five times).
Conditions: no frame of its own is on its way out at some time between the CTS and then (at that very moment none but a unicast DATA frame),
it receives no CTS with another number at the same time, and the PHY announces no arrival until then; at most 65536 packets were accepted
(so that sequence numbers identify packets); no other RTS with that number was sent within a timeout before this one. -/
theorem C110_cts_leads_to_data (c : Cfg) (hps : 0 ≤ c.tpn) (hD : 0 ≤ ctsTimeoutDur c) (hdur : ∀ f, 0 ≤ c.frameDur f) (me : Mac48)
    (seq0 : UInt16) (ops later : List Op) (p : Pkt)
    (f : Frame) (g : UInt16) (ht : onTimeRun c me (init seq0) (ops ++ .rxDone f true g :: later) = true)
    (hn : numAccepted (after c me seq0 (ops ++ .rxDone f true g :: later)).log ≤ 65536)
    (hp : Obs.accepted p ∈ (after c me seq0 (ops ++ .rxDone f true g :: later)).log)
    (t T : ℤ) (hs : Sent (trace c me (init seq0) ops) t (rtsFrame me p))
    (hf : f.kind = .cts ∧ f.dst = me ∧ f.seq = p.seq)
    (heT : T = (after c me seq0 ops).now) (hT : T < t + ctsTimeoutDur c)
    (hb : ∀ t0 f0, Sent (trace c me (init seq0) ops) t0 f0 → f0.kind = .rts → f0.seq = p.seq → t0 + ctsTimeoutDur c < t ∨ t ≤ t0)
    (hfirst : ∀ x ∈ trace c me (init seq0) ops, ∀ f' g', x.2.1 = .rxDone f' true g' → f'.kind = .cts → f'.dst = me → f'.seq = p.seq → x.1 < t)
    (hheard : ∀ t, Heard (trace c me (after c me seq0 (ops ++ [.rxDone f true g])) later) t → T + c.ps 1 < t)
    (hlone : ∀ f', Got (trace c me (init seq0) (ops ++ .rxDone f true g :: later)) T f' → f'.kind = .cts → f'.dst = me → f'.seq = p.seq)
    (hsent : ∀ t f', Sent (trace c me (init seq0) (ops ++ .rxDone f true g :: later)) t f' →
      t + c.frameDur f' < T ∨ T + c.ps 1 < t ∨ (t = T + c.ps 1 ∧ f'.kind = .data ∧ f'.dst ≠ bcast))
    (hend : T + c.ps 1 < (after c me seq0 (ops ++ .rxDone f true g :: later)).now) :
    (∃ f', Sent (trace c me (init seq0) (ops ++ .rxDone f true g :: later)) (T + c.ps 1) f' ∧
      f'.kind = .data ∧ f'.src = me ∧ f'.dst = p.dst ∧ f'.seq = p.seq ∧ f'.body = p.body) ∨
    Obs.done true p ∈ (after c me seq0 (ops ++ .rxDone f true g :: later)).log ∨
    ∃ k, Obs.timedOut p k ∈ (after c me seq0 (ops ++ .rxDone f true g :: later)).log ∧ 5 ≤ k := by
  rcases cts_leads_to_data c hps hD hdur me seq0 ops later p f g ht hn hp t T hs hf heT hT hb hfirst hheard hlone hsent hend with h | h
  · exact .inl ⟨_, h, rfl, rfl, rfl, rfl, rfl⟩
  · exact .inr h

/-! ## Examples -/

/-- A node hears the RTS of the first packet of the examples and answers. -/
example : ∃ f', Sent (trace (exCfg true 5) exB (init 0)
      ([.advance 810101, .rxStart, .advance 1081] ++ .rxDone (rtsFrame exA exP1) true 35 :: fires [0, 1])) 811183 f' ∧
    f'.kind = .cts ∧ f'.src = exB ∧ f'.dst = exA ∧ f'.seq = 1 := by
  have h := C109_rts_is_answered (exCfg true 5) exB 0 [.advance 810101, .rxStart, .advance 1081] (fires [0, 1]) (rtsFrame exA exP1) 35
    (by decide) (exCfg_dur true 5) (timelyRun_onTime _ (by decide +kernel)) rfl rfl 811182 (by decide +kernel) (by decide +kernel)
    (fun t ht => by
      have := heard_all (fun t => decide (811182 + (exCfg true 5).ps 1 < t)) (by decide +kernel) t ht
      simpa using this)
    (fun f hf _ _ => of_decide_eq_true (got_all (fun _ f => decide (f.src = exA ∧ f.seq = 1)) (by decide +kernel) 811182 f hf))
    (fun t f ht => by
      have := sent_all (fun t f => decide (t = 811182 + (exCfg true 5).ps 1 ∧ f.kind = .cts)) (by decide +kernel) t f ht
      exact .inr (.inr (of_decide_eq_true this)))
    (by decide +kernel)
  exact h

/-- The sender of that RTS hears the CTS and sends the DATA frame. -/
example : Sent (trace (exCfg true 5) exA (init 0) (exRtsOps ++
      .rxDone (exCts 1) true 0 :: fires [6, 5, 7])) 812473 (dataFrame exA exP1) := by
  have h := cts_leads_to_data (exCfg true 5) (by decide) exCfg_cts (exCfg_dur true 5) exA 0 exRtsOps (fires [6, 5, 7]) exP1 (exCts 1) 0
    (timelyRun_onTime _ (by decide +kernel)) (by decide +kernel) (by decide +kernel) 810001 812472
    ⟨_, List.mem_of_getElem? (i := 3) rfl, by decide +kernel, by decide +kernel⟩ (by decide +kernel) (by decide +kernel) (by decide +kernel)
    (fun t f ht _ _ => .inr (of_decide_eq_true (sent_all (fun t _ => decide (810001 ≤ t)) (by decide +kernel) t f ht)))
    (fun x hx f g e => by
      have h : (trace (exCfg true 5) exA (init 0) exRtsOps).all
        (fun x => match x.2.1 with | .rxDone _ _ _ => false | _ => true) = true := by decide +kernel
      have := List.all_eq_true.1 h x hx
      rw [e] at this; cases this)
    (fun t ht => by
      have := heard_all (fun t => decide (812472 + (exCfg true 5).ps 1 < t)) (by decide +kernel) t ht
      simpa using this)
    (fun f hf _ _ => of_decide_eq_true (got_all (fun _ f => decide (f.seq = 1)) (by decide +kernel) 812472 f hf))
    (fun t f ht => by
      have := sent_all (fun t f => decide (t + (exCfg true 5).frameDur f < 812472 ∨
        (t = 812472 + (exCfg true 5).ps 1 ∧ f.kind = .data ∧ f.dst ≠ bcast))) (by decide +kernel) t f ht
      rcases of_decide_eq_true this with h | h
      · exact .inl h
      · exact .inr (.inr h))
    (by decide +kernel)
  rcases h with h | h | ⟨k, h, -⟩
  · exact h
  · have hx : (after (exCfg true 5) exA 0 (exRtsOps ++ .rxDone (exCts 1) true 0 :: fires [6, 5, 7])).log.all
      (fun o => match o with | .done _ _ => false | .timedOut _ _ => false | _ => true) = true := by decide +kernel
    exact absurd (List.all_eq_true.1 hx _ h) (by simp)
  · have hx : (after (exCfg true 5) exA 0 (exRtsOps ++ .rxDone (exCts 1) true 0 :: fires [6, 5, 7])).log.all
      (fun o => match o with | .done _ _ => false | .timedOut _ _ => false | _ => true) = true := by decide +kernel
    exact absurd (List.all_eq_true.1 hx _ h) (by simp)

end Thz.Macro.Rts
