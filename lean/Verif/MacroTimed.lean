import Verif.MacroKeep
import Verif.MacroLive

/-!
# Timely answers and timely acknowledgements of a macro MAC

Specification: a run of one MAC is written down as a list of entries, one for every operation, with the time, the operation and what
was observed.  The claims are about what is sent when.

Claims C107 (DATA is answered) and C108 (an acknowledgement in time counts).
-/

namespace Thz.Macro

open Thz
open Thz.Nano (Body Kind bcast)

variable {c : Cfg} {me : Mac48}

/-! ## Specification -/

/-- What an operation adds to the log. -/
def newObs (c : Cfg) (me : Mac48) (s : St) (o : Op) : List Obs := (step c me s o).log.drop s.log.length

/-- A run written down: time after the operation, the operation, what was observed. -/
def trace (c : Cfg) (me : Mac48) : St → List Op → List (ℤ × Op × List Obs)
  | _, [] => []
  | s, o :: ops => ((step c me s o).now, o, newObs c me s o) :: trace c me (step c me s o) ops

/-- The frame was handed to the PHY at this time. -/
def Sent (tr : List (ℤ × Op × List Obs)) (t : ℤ) (f : Frame) : Prop := ∃ x ∈ tr, x.1 = t ∧ Obs.handed f ∈ x.2.2

/-- The PHY announced an arrival at this time. -/
def Heard (tr : List (ℤ × Op × List Obs)) (t : ℤ) : Prop := ∃ x ∈ tr, x.1 = t ∧ x.2.1 = .rxStart

/-- Time does not pass beyond a pending event (which is never run before it is due: see `Macro.fire`). -/
def onTime (c : Cfg) (me : Mac48) (s : St) (o : Op) : Bool :=
  s.pend.all (fun e => decide (e.2.1 < s.now) || decide ((step c me s o).now ≤ e.2.1))

/-- Time never passes beyond a pending event. -/
def onTimeRun (c : Cfg) (me : Mac48) : St → List Op → Bool
  | _, [] => true
  | s, o :: ops => onTime c me s o && onTimeRun c me (step c me s o) ops

/-! ## Time and transmitter -/

theorem fire_now (c : Cfg) (me : Mac48) (s : St) {tid : Nat} {x : Nat × ℤ × Ev} (h : s.pend.find? (fun e => e.1 = tid) = some x) :
    step c me s (.fire tid) = step c me { s with now := max s.now x.2.1 } (.fire tid) := by
  rw [fire_eq c me s h, fire_eq c me { s with now := max s.now x.2.1 } (x := x) h]
  congr 2
  show max s.now x.2.1 = max (max s.now x.2.1) x.2.1
  omega

theorem now_fire (c : Cfg) (me : Mac48) (s : St) {tid : Nat} {x : Nat × ℤ × Ev} (h : s.pend.find? (fun e => e.1 = tid) = some x) :
    (step c me s (.fire tid)).now = max s.now x.2.1 := by
  obtain ⟨t, due, e⟩ := x
  by_cases he : ∃ f, e = .phyDone f
  · obtain ⟨f, rfl⟩ := he
    rw [fire_eq c me s h]
    exact (tq_sendPacketDone c f _).now
  · rw [fire_now c me s h]
    rcases tx_fire c me { s with now := max s.now due } tid t due e h (le_max_right _ _) (fun f hf => he ⟨f, hf⟩) with h1 | ⟨f, h1⟩
    · exact h1.now
    · exact h1.now

/-- Only events and the passing of time change the clock. -/
theorem now_step (c : Cfg) (me : Mac48) (s : St) (o : Op) (h1 : ∀ t, o ≠ .fire t) (h2 : ∀ d, o ≠ .advance d) :
    (step c me s o).now = s.now := by
  cases o with
  | enqueue b d g => exact (tq_enqueue c b d g s).now
  | fire t => exact absurd rfl (h1 t)
  | rxStart => exact (tq_receivePacket c s).now
  | rxDone f ok g =>
    rw [(tq_rxDone c me f ok g s).now]
    split <;> rfl
  | sense b => rfl
  | advance d => exact absurd rfl (h2 d)

theorem now_le_step (c : Cfg) (me : Mac48) (s : St) (o : Op) : s.now ≤ (step c me s o).now := by
  cases o with
  | fire t =>
    cases h : s.pend.find? (fun e => e.1 = t) with
    | none => rw [fire_none c me s h]
    | some x => rw [now_fire c me s h]; exact le_max_left _ _
  | advance d => show s.now ≤ s.now + d; omega
  | enqueue b d g => exact (now_step c me s _ (by simp) (by simp)).ge
  | rxStart => exact (now_step c me s _ (by simp) (by simp)).ge
  | rxDone f ok g => exact (now_step c me s _ (by simp) (by simp)).ge
  | sense b => exact (now_step c me s _ (by simp) (by simp)).ge

theorem now_le_run (c : Cfg) (me : Mac48) (ops : List Op) : ∀ s : St, s.now ≤ (run c me s ops).now := by
  induction ops with
  | nil => exact fun s => le_refl _
  | cons o ops ih => exact fun s => (now_le_step c me s o).trans (ih _)

theorem onTime_le {s : St} {o : Op} (ht : onTime c me s o = true) {e : Nat × ℤ × Ev} (he : e ∈ s.pend) (hn : s.now ≤ e.2.1) :
    (step c me s o).now ≤ e.2.1 := by
  have := List.all_eq_true.1 ht e he
  simp only [Bool.or_eq_true, decide_eq_true_eq] at this
  omega

/-- The stricter `timelyOp` implies it. -/
theorem timely_onTime {s : St} {o : Op} (ht : timelyOp s o = true) : onTime c me s o = true := by
  refine List.all_eq_true.2 (fun e he => ?_)
  simp only [Bool.or_eq_true, decide_eq_true_eq]
  by_cases hn : e.2.1 < s.now
  · exact .inl hn
  · refine .inr ?_
    have hn : s.now ≤ e.2.1 := by omega
    cases o with
    | fire t =>
      cases h : s.pend.find? (fun e => e.1 = t) with
      | none => simp [timelyOp, h] at ht
      | some x =>
        obtain ⟨t', due, e'⟩ := x
        rw [now_fire c me s h]
        simp only [timelyOp, h] at ht
        simp only [Bool.and_eq_true, decide_eq_true_eq, List.all_eq_true] at ht
        have := ht.2 e he
        exact max_le hn this
    | advance d =>
      unfold timelyOp at ht
      simp only [decide_eq_true_eq, List.all_eq_true] at ht
      exact ht e he
    | enqueue b d g => rw [now_step c me s _ (by simp) (by simp)]; exact hn
    | rxStart => rw [now_step c me s _ (by simp) (by simp)]; exact hn
    | rxDone f ok g => rw [now_step c me s _ (by simp) (by simp)]; exact hn
    | sense b => rw [now_step c me s _ (by simp) (by simp)]; exact hn

theorem timelyRun_onTime (ops : List Op) : ∀ {s : St}, timelyRun c me s ops = true → onTimeRun c me s ops = true := by
  induction ops with
  | nil => intro s _; rfl
  | cons o ops ih =>
    intro s h
    have h' : timelyOp s o = true ∧ timelyRun c me (step c me s o) ops = true := by simpa [timelyRun] using h
    show (onTime c me s o && onTimeRun c me (step c me s o) ops) = true
    rw [timely_onTime h'.1, ih h'.2]; rfl

/-- The log only grows. -/
theorem Kop.log {s s' : St} {o : Op} (h : Kop c me s o s') : ∃ l, s'.log = s.log ++ l := by
  cases h with
  | quiet _ _ ho hd hn hlog ha hst hk => exact ⟨_, hlog.choose_spec.1⟩
  | data f g s' hf hn hlog hst hk => exact ⟨_, hlog.choose_spec.1⟩
  | ack f g x hf hx s' ha hlog hst hk => exact ⟨_, hlog.choose_spec.1⟩
  | none tid hf => exact ⟨[], (List.append_nil _).symm⟩
  | fire tid x s' hf hn hlog hst hk => exact ⟨_, hlog.choose_spec.1⟩
  | send tid x s' p t hf hu hfree hphy hlog hn hk => exact ⟨_, hlog⟩

theorem log_kop (c : Cfg) (me : Mac48) (s : St) (o : Op) : (step c me s o).log = s.log ++ newObs c me s o := by
  obtain ⟨l, e⟩ := (kop_step c me s o).log
  unfold newObs
  rw [e]
  simp

theorem log_run (c : Cfg) (me : Mac48) (ops : List Op) : ∀ s : St, ∀ x ∈ s.log, x ∈ (run c me s ops).log := by
  induction ops with
  | nil => exact fun s x h => h
  | cons o ops ih => exact fun s x h => ih _ x (by rw [log_kop]; exact List.mem_append_left _ h)

/-- A transmitter that is free stays free as long as nothing is handed over. -/
theorem phy_step {s : St} {o : Op} (hp : s.phyTx = none) (hn : ∀ f, Obs.handed f ∉ newObs c me s o) : (step c me s o).phyTx = none := by
  have hl := log_kop c me s o
  cases o with
  | fire tid =>
    cases h : s.pend.find? (fun e => e.1 = tid) with
    | none => rw [fire_none c me s h]; exact hp
    | some x =>
      obtain ⟨t, due, e⟩ := x
      by_cases he : ∃ f, e = .phyDone f
      · obtain ⟨f, rfl⟩ := he
        rw [fire_eq c me s h]
        exact (tq_sendPacketDone c f _).phy
      · have := tx_fire c me { s with now := max s.now due } tid t due e h (le_max_right _ _) (fun f hf => he ⟨f, hf⟩)
        rw [← fire_now c me s h] at this
        rcases this with h1 | ⟨f, h1⟩
        · exact h1.phy.trans hp
        · obtain ⟨l, e1, e2⟩ := h1.log
          have e3 : l = newObs c me s (.fire tid) := List.append_cancel_left (e1.symm.trans hl)
          have : Obs.handed f ∈ l.filter phyObs := by rw [e2]; exact List.mem_cons_self
          exact absurd (e3 ▸ (List.mem_filter.1 this).1) (hn f)
  | enqueue b d g => exact (tq_enqueue c b d g s).phy.trans hp
  | rxStart => exact (tq_receivePacket c s).phy.trans hp
  | rxDone f ok g =>
    rw [(tq_rxDone c me f ok g s).phy]
    split <;> exact hp
  | sense b => exact hp
  | advance d => exact hp

theorem Kop.tid {s s' : St} {o : Op} (h : TidK s) (hop : Kop c me s o s') : TidK s' := by
  cases hop with
  | quiet _ _ ho hd hn hlog ha hst hk => exact (hk h).1
  | data f g s' hf hn hlog hst hk => exact (hk h).1
  | ack f g x hf hx s' ha hlog hst hk => exact (hk h).1
  | none tid hf => exact h
  | fire tid x s' hf hn hlog hst hk => exact (hk h).1
  | send tid x s' p t hf hu hfree hphy hlog hn hk => exact (hk h).1

theorem TidK.step {s : St} (h : TidK s) (o : Op) : TidK (step c me s o) := (kop_step c me s o).tid h

theorem TidK.run (ops : List Op) : ∀ {s : St}, TidK s → TidK (run c me s ops) := by
  induction ops with
  | nil => exact fun h => h
  | cons o ops ih => exact fun h => ih (h.step o)

theorem TidK.after (c : Cfg) (me : Mac48) (seq0 : UInt16) (ops : List Op) : TidK (after c me seq0 ops) := (TidK.init seq0).run ops

/-- Scheduled acknowledgements and scheduled successes stay until they are run. -/
theorem Kop.stays {s s' : St} {o : Op} (hop : Kop c me s o s') (h : TidK s) {e : Nat × ℤ × Ev} (he : e ∈ kept s.pend)
    (hk : ∀ q, e.2.2 ≠ .ackTimeout q) (ho : o ≠ .fire e.1) : e ∈ kept s'.pend := by
  cases hop with
  | quiet _ _ ho hd hn hlog ha hst hk => rw [(hk h).2]; exact he
  | data f g s' hf hn hlog hst hk => rw [(hk h).2]; exact List.mem_append_left _ he
  | ack f g x hf hx s' ha hlog hst hk' =>
    rw [(hk' h).2]
    refine List.mem_append_left _ (List.mem_filter.2 ⟨he, ?_⟩)
    have : e.1 ≠ x.tid := fun h1 => hk x.seq ((h.ack x hx.1).2 e (mem_kept.1 he).1 h1)
    simpa using this
  | none tid hf => exact he
  | fire tid x s' hf hn hlog hst hk =>
    rw [(hk h).2]
    refine List.mem_filter.2 ⟨he, ?_⟩
    have : e.1 ≠ tid := fun h1 => ho (by rw [h1])
    simpa using this
  | send tid x s' p t hf hu hfree hphy hlog hn hk =>
    rw [(hk h).2]
    refine List.mem_append_left _ (List.mem_filter.2 ⟨he, ?_⟩)
    have : e.1 ≠ tid := fun h1 => ho (by rw [h1])
    simpa using this

theorem kept_stays {s : St} (h : TidK s) {o : Op} {e : Nat × ℤ × Ev} (he : e ∈ kept s.pend) (hk : ∀ q, e.2.2 ≠ .ackTimeout q)
    (ho : o ≠ .fire e.1) : e ∈ kept (step c me s o).pend := (kop_step c me s o).stays h he hk ho

/-- The MAC stays ready to transmit. -/
theorem Kop.ready {s s' : St} {o : Op} (hop : Kop c me s o s') (hs : s.state = .idle ∨ s.state = .waitTx) (hp : s'.phyTx = Option.none)
    (ho : o ≠ .rxStart) : s'.state = .idle ∨ s'.state = .waitTx := by
  cases hop with
  | quiet _ _ ho' hd hn hlog ha hst hk => exact hst ho hs hp
  | data f g s' hf hn hlog hst hk => exact hst hp
  | ack f g x hf hx s' ha hlog hst hk' => exact .inl hst
  | none tid hf => exact hs
  | fire tid x s' hf hn hlog hst hk => exact hst hs hp
  | send tid x s' p t hf hu hfree hphy hlog hn hk => exact absurd hp hphy

theorem state_step {s : St} {o : Op} (hs : s.state = .idle ∨ s.state = .waitTx) (hp : (step c me s o).phyTx = none) (ho : o ≠ .rxStart) :
    (step c me s o).state = .idle ∨ (step c me s o).state = .waitTx := (kop_step c me s o).ready hs hp ho

theorem find_tid {E : Type} {l : List (Nat × ℤ × E)} (hn : (l.map (·.1)).Nodup) {e : Nat × ℤ × E} (h : e ∈ l) :
    l.find? (fun x => x.1 = e.1) = some e := by
  cases hf : l.find? (fun x => decide (x.1 = e.1)) with
  | none => exact absurd (List.find?_eq_none.1 hf _ h) (by simp)
  | some y =>
    have h1 : y.1 = e.1 := by simpa using List.find?_some hf
    rw [List.inj_on_of_nodup_map hn (List.mem_of_find?_eq_some hf) h h1]

/-! ## C107: DATA is answered -/

/-- A scheduled acknowledgement that is run while the MAC is ready is handed over. -/
theorem ack_handed {s : St} (h : TidK s) {tid : Nat} {due : ℤ} {d : Mac48} {q : UInt16} (he : (tid, due, Ev.sendAck d q) ∈ s.pend)
    (hs : s.state = .idle ∨ s.state = .waitTx) (hp : s.phyTx = none) : Obs.handed (ackFrame me d q) ∈ newObs c me s (.fire tid) := by
  have hf := find_tid h.uniq he
  have e : (step c me s (.fire tid)).log = s.log ++ [.handed (ackFrame me d q)] := by
    rw [fire_eq c me s hf]
    show (sendAck c me d q _).log = _
    unfold sendAck sendPacket
    rw [if_pos (by exact hs), if_pos (by exact hp)]
    rfl
  rw [List.append_cancel_left ((log_kop c me s (.fire tid)).symm.trans e)]
  exact List.mem_cons_self

theorem answer_run {d : Mac48} {q : UInt16} {tid : Nat} {due : ℤ} : ∀ (ops : List Op) (s : St), TidK s → onTimeRun c me s ops = true →
    (tid, due, Ev.sendAck d q) ∈ s.pend → s.now ≤ due → s.state = .idle ∨ s.state = .waitTx → s.phyTx = none →
    (∀ t, Heard (trace c me s ops) t → due < t) →
    (∀ t f, Sent (trace c me s ops) t f → t ≤ due → t = due ∧ f = ackFrame me d q) →
    due < (run c me s ops).now → Sent (trace c me s ops) due (ackFrame me d q) := by
  intro ops
  induction ops with
  | nil => intro s _ _ _ hn _ _ _ _ he; exact absurd he (not_lt.2 hn)
  | cons o ops ih =>
    intro s hk ht hm hn hs hp hh hq he
    have ht' : onTime c me s o = true ∧ onTimeRun c me (step c me s o) ops = true := by
      simpa [onTimeRun] using ht
    have hn' : (step c me s o).now ≤ due := onTime_le ht'.1 hm hn
    by_cases hx : ∃ f, Obs.handed f ∈ newObs c me s o
    · obtain ⟨f, hf⟩ := hx
      obtain ⟨h1, h2⟩ := hq _ f ⟨_, List.mem_cons_self, rfl, hf⟩ hn'
      exact ⟨_, List.mem_cons_self, h1, h2 ▸ hf⟩
    · have hx' : ∀ f, Obs.handed f ∉ newObs c me s o := fun f hf => hx ⟨f, hf⟩
      have ho : o ≠ .fire tid := by
        rintro rfl
        exact hx' _ (ack_handed hk hm hs hp)
      have ho' : o ≠ .rxStart := by
        rintro rfl
        have := hh _ ⟨_, List.mem_cons_self, rfl, rfl⟩
        exact absurd hn' (not_le.2 this)
      have hp' := phy_step hp hx'
      have hm' := (mem_kept.1 (kept_stays (c := c) (me := me) hk (o := o) (e := (tid, due, .sendAck d q)) (mem_kept.2 ⟨hm, rfl⟩) (by simp) ho)).1
      obtain ⟨x, h1, h2⟩ := ih _ (hk.step o) ht'.2 hm' hn' (state_step hs hp' ho') hp'
        (fun t ⟨x, h1, h2⟩ => hh t ⟨x, List.mem_cons_of_mem _ h1, h2⟩)
        (fun t f ⟨x, h1, h2⟩ => hq t f ⟨x, List.mem_cons_of_mem _ h1, h2⟩) he
      exact ⟨x, List.mem_cons_of_mem _ h1, h2⟩

theorem run_append (c : Cfg) (me : Mac48) (a b : List Op) (s : St) : run c me s (a ++ b) = run c me (run c me s a) b := by
  unfold run; rw [List.foldl_append]

theorem onTimeRun_append (a b : List Op) : ∀ s : St, onTimeRun c me s (a ++ b) = (onTimeRun c me s a && onTimeRun c me (run c me s a) b) := by
  induction a with
  | nil => intro s; rfl
  | cons o a ih =>
    intro s
    show (onTime c me s o && onTimeRun c me (step c me s o) (a ++ b)) = _
    rw [ih, ← Bool.and_assoc]
    rfl

theorem trace_append (a b : List Op) : ∀ s : St, trace c me s (a ++ b) = trace c me s a ++ trace c me (run c me s a) b := by
  induction a with
  | nil => intro s; rfl
  | cons o a ih =>
    intro s
    show _ :: trace c me (step c me s o) (a ++ b) = _
    rw [ih]; rfl

/-- The transmitter in one step: it goes on with its frame, or has just been handed one, or is free. -/
theorem phy_hist {s : St} (hp : TidP s) (o : Op) : TidP (step c me s o) ∧
    ∀ f, (step c me s o).phyTx = some f → (s.phyTx = some f ∧ txEvs (step c me s o).pend = txEvs s.pend) ∨
      (Obs.handed f ∈ newObs c me s o ∧ ∃ t, (t, (step c me s o).now + c.frameDur f, f) ∈ txEvs (step c me s o).pend) := by
  have hl := log_kop c me s o
  have quiet : ∀ {s0 s' : St}, TidP s0 → Tq s0 s' → s0.phyTx = s.phyTx → txEvs s0.pend = txEvs s.pend → TidP s' ∧
      ∀ f, s'.phyTx = some f → (s.phyTx = some f ∧ txEvs s'.pend = txEvs s.pend) ∨
      (Obs.handed f ∈ newObs c me s o ∧ ∃ t, (t, s'.now + c.frameDur f, f) ∈ txEvs s'.pend) := by
    intro s0 s' h0 h h1 h2
    exact ⟨(h.ok h0).1, fun f hf => .inl ⟨h1.symm.trans (h.phy.symm.trans hf), (h.ok h0).2.trans h2⟩⟩
  cases o with
  | fire tid =>
    cases h : s.pend.find? (fun e => e.1 = tid) with
    | none => rw [fire_none c me s h]; exact ⟨hp, fun f hf => .inl ⟨hf, rfl⟩⟩
    | some x =>
      obtain ⟨t, due, e⟩ := x
      have hp1 : TidP { s with now := max s.now due } := ⟨hp.lt, hp.uniq, hp.can⟩
      have efn := fire_now c me s h
      by_cases he : ∃ f, e = .phyDone f
      · obtain ⟨f, rfl⟩ := he
        obtain ⟨-, -, h3, h4, -⟩ := tx_fireDone c me { s with now := max s.now due } tid t due f h (le_max_right _ _) hp1
        rw [efn]
        refine ⟨h4, fun f hf => ?_⟩
        have h3' : (step c me { s with now := max s.now due } (.fire tid)).phyTx = none := h3
        have hf' : (step c me { s with now := max s.now due } (.fire tid)).phyTx = some f := hf
        rw [h3'] at hf'; cases hf'
      · have := tx_fire c me { s with now := max s.now due } tid t due e h (le_max_right _ _) (fun f hf => he ⟨f, hf⟩)
        have efn' : step c me { s with now := max s.now due } (.fire tid) = step c me s (.fire tid) := efn.symm
        rw [efn'] at this
        rcases this with h1 | ⟨f, h1⟩
        · exact quiet hp1 h1 rfl rfl
        · obtain ⟨l, e1, e2⟩ := h1.log
          have e3 : l = newObs c me s (.fire tid) := List.append_cancel_left (e1.symm.trans hl)
          have h2 : Obs.handed f ∈ l.filter phyObs := by rw [e2]; exact List.mem_cons_self
          refine ⟨(h1.ok hp1).1, fun f' hf' => .inr ?_⟩
          have : f' = f := by rw [h1.phy] at hf'; cases hf'; rfl
          subst this
          refine ⟨e3 ▸ (List.mem_filter.1 h2).1, ?_⟩
          obtain ⟨-, t', h3⟩ := h1.ok hp1
          refine ⟨t', ?_⟩
          rw [h3, h1.now]
          exact List.mem_append_right _ List.mem_cons_self
  | enqueue b d g => exact quiet hp (tq_enqueue c b d g s) rfl rfl
  | rxStart => exact quiet hp (tq_receivePacket c s) rfl rfl
  | rxDone f ok g =>
    have h := tq_rxDone c me f ok g s
    cases ok with
    | true => exact quiet (s0 := s.emit (.rx f)) ⟨hp.lt, hp.uniq, hp.can⟩ h rfl rfl
    | false => exact quiet hp h rfl rfl
  | sense b => exact ⟨⟨hp.lt, hp.uniq, hp.can⟩, fun f hf => .inl ⟨hf, rfl⟩⟩
  | advance d => exact ⟨⟨hp.lt, hp.uniq, hp.can⟩, fun f hf => .inl ⟨hf, rfl⟩⟩

theorem Sent.mono {a b : List (ℤ × Op × List Obs)} (h : ∀ x ∈ a, x ∈ b) {t : ℤ} {f : Frame} (hs : Sent a t f) : Sent b t f := by
  obtain ⟨x, h1, h2⟩ := hs
  exact ⟨x, h x h1, h2⟩

/-- What is on its way out was handed over not longer than its duration ago. -/
def PhyHist (c : Cfg) (tr : List (ℤ × Op × List Obs)) (s : St) : Prop :=
  TidP s ∧ ∀ f, s.phyTx = some f → ∃ t0 t, Sent tr t0 f ∧ (t, t0 + c.frameDur f, f) ∈ txEvs s.pend ∧ s.now ≤ t0 + c.frameDur f

theorem PhyHist.run (hdur : ∀ f, 0 ≤ c.frameDur f) : ∀ (ops : List Op) {tr : List (ℤ × Op × List Obs)} {s : St}, PhyHist c tr s →
    onTimeRun c me s ops = true → PhyHist c (tr ++ trace c me s ops) (run c me s ops) := by
  intro ops
  induction ops with
  | nil => intro tr s h _; show PhyHist c (tr ++ []) s; rw [List.append_nil]; exact h
  | cons o ops ih =>
    intro tr s h ht
    have ht' : onTime c me s o = true ∧ onTimeRun c me (step c me s o) ops = true := by simpa [onTimeRun] using ht
    have h1 : PhyHist c (tr ++ [((step c me s o).now, o, newObs c me s o)]) (step c me s o) := by
      obtain ⟨h2, h3⟩ := phy_hist (c := c) (me := me) h.1 o
      refine ⟨h2, fun f hf => ?_⟩
      rcases h3 f hf with ⟨h4, h5⟩ | ⟨h4, t, h5⟩
      · obtain ⟨t0, t, h6, h7, h8⟩ := h.2 f h4
        refine ⟨t0, t, h6.mono (fun x hx => List.mem_append_left _ hx), by rw [h5]; exact h7, ?_⟩
        exact onTime_le ht'.1 (mem_txEvs.1 h7) h8
      · refine ⟨_, t, ⟨_, List.mem_append_right _ List.mem_cons_self, rfl, h4⟩, h5, ?_⟩
        have := hdur f
        show (step c me s o).now ≤ (step c me s o).now + _
        omega
    have := ih h1 ht'.2
    rw [List.append_assoc] at this
    exact this

theorem PhyHist.after (hdur : ∀ f, 0 ≤ c.frameDur f) (seq0 : UInt16) (ops : List Op) (ht : onTimeRun c me (init seq0) ops = true) :
    PhyHist c (trace c me (init seq0) ops) (after c me seq0 ops) := by
  have h0 : PhyHist c [] (init seq0) := ⟨TidP.init seq0, by intro f h; cases h⟩
  exact h0.run hdur ops ht

/-- The times of a trace are not before its start. -/
theorem trace_ge (ops : List Op) : ∀ (s : St), ∀ x ∈ trace c me s ops, s.now ≤ x.1 := by
  induction ops with
  | nil => intro s x h; cases h
  | cons o ops ih =>
    intro s x h
    rcases List.mem_cons.1 h with rfl | h
    · exact now_le_step c me s o
    · exact (now_le_step c me s o).trans (ih _ x h)

/-- The times of a trace are not after its end. -/
theorem trace_le (ops : List Op) : ∀ (s : St), ∀ x ∈ trace c me s ops, x.1 ≤ (run c me s ops).now := by
  induction ops with
  | nil => intro s x h; cases h
  | cons o ops ih =>
    intro s x h
    rcases List.mem_cons.1 h with rfl | h
    · exact now_le_run c me ops _
    · exact ih _ x h

/-- A node that receives a DATA frame for itself at time `T` hands over the acknowledgement a SIFS later, if no other frame of its own is
on its way out at some time between `T` and then, and the PHY announces no arrival until then.  (The node may be in the middle of
anything else: backing off, waiting for a CTS or an ACK, holding back for a NAV.) -/
theorem data_answered (c : Cfg) (me : Mac48) (seq0 : UInt16) (ops later : List Op) (f : Frame) (g : UInt16) (hs : 0 ≤ c.sifs)
    (hdur : ∀ f, 0 ≤ c.frameDur f)
    (hme : me ≠ bcast) (ht : onTimeRun c me (init seq0) (ops ++ .rxDone f true g :: later) = true)
    (hf : f.kind = .data) (hd : f.dst = me) (T : ℤ) (hT : T = (after c me seq0 ops).now)
    (hheard : ∀ t, Heard (trace c me (after c me seq0 (ops ++ [.rxDone f true g])) later) t → T + c.sifs < t)
    (hsent : ∀ t f', Sent (trace c me (init seq0) (ops ++ .rxDone f true g :: later)) t f' →
      t + c.frameDur f' < T ∨ T + c.sifs < t ∨ (t = T + c.sifs ∧ f' = ackFrame me f.src f.seq))
    (hend : T + c.sifs < (after c me seq0 (ops ++ .rxDone f true g :: later)).now) :
    Sent (trace c me (init seq0) (ops ++ .rxDone f true g :: later)) (T + c.sifs) (ackFrame me f.src f.seq) := by
  subst hT
  have e1 : after c me seq0 (ops ++ [.rxDone f true g]) = step c me (after c me seq0 ops) (.rxDone f true g) := by
    unfold after; rw [run_append]; rfl
  have e2 : after c me seq0 (ops ++ .rxDone f true g :: later) = run c me (after c me seq0 (ops ++ [.rxDone f true g])) later := by
    rw [e1]; unfold after; rw [run_append]; rfl
  have etr : trace c me (init seq0) (ops ++ .rxDone f true g :: later) = trace c me (init seq0) ops ++
      (((step c me (after c me seq0 ops) (.rxDone f true g)).now, .rxDone f true g, newObs c me (after c me seq0 ops) (.rxDone f true g)) ::
        trace c me (step c me (after c me seq0 ops) (.rxDone f true g)) later) := by rw [trace_append]; rfl
  rw [onTimeRun_append, Bool.and_eq_true] at ht
  have ht' : onTimeRun c me (step c me (after c me seq0 ops) (.rxDone f true g)) later = true := by
    have := ht.2
    have : onTime c me (after c me seq0 ops) (.rxDone f true g) = true ∧
        onTimeRun c me (step c me (after c me seq0 ops) (.rxDone f true g)) later = true := by simpa [onTimeRun, after] using this
    exact this.2
  have hnow : (step c me (after c me seq0 ops) (.rxDone f true g)).now = (after c me seq0 ops).now := now_step c me _ _ (by simp) (by simp)
  rw [etr] at hsent ⊢
  rw [e1] at hheard
  rw [e2, e1] at hend
  cases hp : (after c me seq0 ops).phyTx with
  | some f' =>
    obtain ⟨t0, t, h1, -, h3⟩ := (PhyHist.after (c := c) (me := me) hdur seq0 ops ht.1).2 f' hp
    have h1' := h1.mono (b := trace c me (init seq0) ops ++ (((step c me (after c me seq0 ops) (.rxDone f true g)).now, .rxDone f true g, newObs c me (after c me seq0 ops) (.rxDone f true g)) ::
        trace c me (step c me (after c me seq0 ops) (.rxDone f true g)) later)) (fun x hx => List.mem_append_left _ hx)
    rcases hsent t0 f' h1' with h | h | ⟨h, h'⟩
    · omega
    · obtain ⟨x, h4, h5, -⟩ := h1
      have := trace_le ops (init seq0) x h4
      have : x.1 ≤ (after c me seq0 ops).now := this
      omega
    · rw [← h, ← h']; exact h1'
  | none =>
  have hphy : (step c me (after c me seq0 ops) (.rxDone f true g)).phyTx = none := by
    rw [(tq_rxDone c me f true g _).phy]; exact hp
  have hk := TidK.after c me seq0 ops
  have key : ((after c me seq0 ops).nextTid, (after c me seq0 ops).now + c.sifs, Ev.sendAck f.src f.seq) ∈
        (step c me (after c me seq0 ops) (.rxDone f true g)).pend ∧
      ((step c me (after c me seq0 ops) (.rxDone f true g)).state = .idle ∨
        (step c me (after c me seq0 ops) (.rxDone f true g)).state = .waitTx) := by
    have hop := kop_step c me (after c me seq0 ops) (.rxDone f true g)
    generalize step c me (after c me seq0 ops) (.rxDone f true g) = s1 at hop hphy ⊢
    cases hop with
    | quiet _ _ ho' hd' hn hlog ha hst hk' =>
      rcases hd' f g rfl hf with h | h
      · exact absurd (hd ▸ h) hme
      · exact absurd hd h
    | data f g s' hf hn hlog hst hk' =>
      refine ⟨(mem_kept.1 ?_).1, hst hphy⟩
      rw [(hk' hk).2]
      exact List.mem_append_right _ List.mem_cons_self
    | ack f g x hf' hx s' ha hlog hst hk' => rw [hf'.1] at hf; cases hf
  have := answer_run later _ (hk.step _) ht' key.1 (by rw [hnow]; omega) key.2 hphy hheard (fun t f' h1 h2 => by
    rcases hsent t f' (h1.mono (fun x hx => List.mem_append_right _ (List.mem_cons_of_mem _ hx))) with h | h | h
    · obtain ⟨x, h4, h5, -⟩ := h1
      have := trace_ge later _ x h4
      have := hdur f'
      omega
    · omega
    · exact h) hend
  exact this.mono (fun x hx => List.mem_append_right _ (List.mem_cons_of_mem _ hx))

/-! ## C108: an acknowledgement in time counts -/

/-- Pending acknowledgement timeouts belong to DATA frames that were sent, and are not overdue. -/
def AckHist (c : Cfg) (me : Mac48) (tr : List (ℤ × Op × List Obs)) (s : St) : Prop :=
  ∀ tid d q, (tid, d, Ev.ackTimeout q) ∈ s.pend →
    (∃ t0 p0, Sent tr t0 (dataFrame me p0) ∧ p0.seq = q ∧ d = t0 + ackTimeoutDur c p0) ∧ s.now ≤ d

theorem AckHist.step {tr : List (ℤ × Op × List Obs)} {s : St} (hD : ∀ p, 0 ≤ ackTimeoutDur c p) (h : AckHist c me tr s) (hk : TidK s)
    (o : Op) (ht : onTime c me s o = true) :
    AckHist c me (tr ++ [((step c me s o).now, o, newObs c me s o)]) (step c me s o) := by
  have old : ∀ tid d q, (tid, d, Ev.ackTimeout q) ∈ kept s.pend → (∃ t0 p0,
      Sent (tr ++ [((Macro.step c me s o).now, o, newObs c me s o)]) t0 (dataFrame me p0) ∧ p0.seq = q ∧ d = t0 + ackTimeoutDur c p0) ∧
      (Macro.step c me s o).now ≤ d := by
    intro tid d q hm
    obtain ⟨⟨t0, p0, h1, h2⟩, h3⟩ := h tid d q (mem_kept.1 hm).1
    exact ⟨⟨t0, p0, h1.mono (fun x hx => List.mem_append_left _ hx), h2⟩, onTime_le ht (mem_kept.1 hm).1 h3⟩
  intro tid d q hm
  have hm' : (tid, d, Ev.ackTimeout q) ∈ kept (Macro.step c me s o).pend := mem_kept.2 ⟨hm, rfl⟩
  have hop := kop_step c me s o
  have hlog := log_kop c me s o
  have hnow : ∀ t x, o = .fire t → s.pend.find? (fun e => e.1 = t) = some x → (Macro.step c me s o).now = max s.now x.2.1 :=
    fun t x e hf => by rw [e]; exact now_fire c me s hf
  clear ht
  generalize Macro.step c me s o = s' at hop hlog hnow hm' old ⊢
  cases hop with
  | quiet _ _ ho hd hn hlog ha hst hk' => rw [(hk' hk).2] at hm'; exact old _ _ _ hm'
  | data f g s' hf hn hlog hst hk' =>
    rw [(hk' hk).2] at hm'
    rcases List.mem_append.1 hm' with h1 | h1
    · exact old _ _ _ h1
    · simp at h1
  | ack f g x hf hx s' ha hlog hst hk' =>
    rw [(hk' hk).2] at hm'
    rcases List.mem_append.1 hm' with h1 | h1
    · exact old _ _ _ (List.mem_filter.1 h1).1
    · simp at h1
  | none t hf => exact old _ _ _ hm'
  | fire t x s' hf hn hlog hst hk' =>
    rw [(hk' hk).2] at hm'
    exact old _ _ _ (List.mem_filter.1 hm').1
  | send t x s' p t' hf hu hfree hphy hlog' hn hk' =>
    rw [(hk' hk).2] at hm'
    rcases List.mem_append.1 hm' with h1 | h1
    · exact old _ _ _ (List.mem_filter.1 h1).1
    · simp only [List.mem_singleton, Prod.mk.injEq, Ev.ackTimeout.injEq] at h1
      refine ⟨⟨s'.now, p, ⟨_, List.mem_append_right _ List.mem_cons_self, rfl, ?_⟩, h1.2.2.symm, ?_⟩, ?_⟩
      · rw [List.append_cancel_left (hlog.symm.trans hlog')]
        exact List.mem_cons_self
      · rw [hnow t x rfl hf]; exact h1.2.1
      · rw [hnow t x rfl hf, h1.2.1]
        have := hD p
        omega

theorem AckHist.run (hD : ∀ p, 0 ≤ ackTimeoutDur c p) : ∀ (ops : List Op) {tr : List (ℤ × Op × List Obs)} {s : St}, AckHist c me tr s →
    TidK s → onTimeRun c me s ops = true → AckHist c me (tr ++ trace c me s ops) (run c me s ops) := by
  intro ops
  induction ops with
  | nil => intro tr s h _ _; show AckHist c me (tr ++ []) s; rw [List.append_nil]; exact h
  | cons o ops ih =>
    intro tr s h hk ht
    have ht' : onTime c me s o = true ∧ onTimeRun c me (Macro.step c me s o) ops = true := by simpa [onTimeRun] using ht
    have := ih (h.step hD hk o ht'.1) (hk.step o) ht'.2
    rw [List.append_assoc] at this
    exact this

theorem AckHist.after (hD : ∀ p, 0 ≤ ackTimeoutDur c p) (seq0 : UInt16) (ops : List Op) (ht : onTimeRun c me (init seq0) ops = true) :
    AckHist c me (trace c me (init seq0) ops) (after c me seq0 ops) := by
  have h0 : AckHist c me [] (init seq0) := by intro tid d q h; cases h
  exact h0.run hD ops (TidK.init seq0) ht

/-- The node waits for an acknowledgement until `X`, at least. -/
def Waits (q : UInt16) (X : ℤ) (s : St) : Prop :=
  (∃ x ∈ s.ackTO, x.seq = q) ∧ ∀ tid d, (tid, d, Ev.ackTimeout q) ∈ s.pend → X ≤ d

/-- The success is scheduled for a time up to `E`. -/
def Coming (q : UInt16) (E : ℤ) (s : St) : Prop := ∃ tid d, (tid, d, Ev.sendDataDone true q) ∈ s.pend ∧ d ≤ E ∧ s.now ≤ d

theorem eraseP_keeps {l : List TO} {q q' : UInt16} (h : q' ≠ q) (hx : ∃ x ∈ l, x.seq = q) : ∃ x ∈ l.eraseP (fun t => t.seq = q'), x.seq = q := by
  obtain ⟨x, h1, h2⟩ := hx
  refine ⟨x, ?_, h2⟩
  rw [List.mem_eraseP_of_neg]
  · exact h1
  · simp only [decide_eq_true_eq]
    intro e
    exact h (e.symm.trans h2)

/-- Waiting goes on, or the acknowledgement was received. -/
theorem waits_step {s : St} (hk : TidK s) {q : UInt16} {X : ℤ} (hw : Waits q X s) (hps : 0 ≤ c.ps 1) (o : Op)
    (hX : (step c me s o).now < X)
    (hs : ∀ p', Obs.handed (dataFrame me p') ∈ newObs c me s o → p'.seq = q → X ≤ (step c me s o).now + ackTimeoutDur c p') :
    (Waits q X (step c me s o) ∧ ∀ f g, o = .rxDone f true g → f.kind = .ack → f.dst = me → f.seq ≠ q) ∨
    Coming q ((step c me s o).now + c.ps 1) (step c me s o) := by
  have hop := kop_step c me s o
  have hlog := log_kop c me s o
  have hnow1 : (∀ t, o ≠ .fire t) → (∀ d, o ≠ .advance d) → (step c me s o).now = s.now := now_step c me s o
  have hnow : ∀ t x, o = .fire t → s.pend.find? (fun e => e.1 = t) = some x → (step c me s o).now = max s.now x.2.1 :=
    fun t x e hf => by rw [e]; exact now_fire c me s hf
  obtain ⟨hw1, hw2⟩ := hw
  have hw2' : ∀ tid d, (tid, d, Ev.ackTimeout q) ∈ kept s.pend → X ≤ d := fun tid d h => hw2 tid d (mem_kept.1 h).1
  generalize step c me s o = s' at hop hlog hnow hnow1 hX hs ⊢
  cases hop with
  | quiet _ _ ho hd hn hlog ha hst hk' =>
    refine .inl ⟨⟨hn ▸ hw1, fun tid d h => hw2' tid d ?_⟩, fun f g e h1 h2 h3 => ?_⟩
    · rw [← (hk' hk).2]; exact mem_kept.2 ⟨h, rfl⟩
    · obtain ⟨x, h4, h5⟩ := hw1
      exact ha f g e h1 h2 x h4 (h5.trans h3.symm)
  | data f g s' hf hn hlog hst hk' =>
    refine .inl ⟨⟨hn ▸ hw1, fun tid d h => ?_⟩, fun f' g' e h1 => ?_⟩
    · have h' : (tid, d, Ev.ackTimeout q) ∈ kept s'.pend := mem_kept.2 ⟨h, rfl⟩
      rw [(hk' hk).2] at h'
      rcases List.mem_append.1 h' with h1 | h1
      · exact hw2' _ _ h1
      · simp at h1
    · cases e
      rw [hf.1] at h1; cases h1
  | ack f g x hf hx s' ha hlog hst hk' =>
    by_cases hq : f.seq = q
    · refine .inr ⟨s.nextTid, s.now + c.ps 1, ?_, ?_, ?_⟩
      · refine (mem_kept.1 (?_ : _ ∈ kept s'.pend)).1
        rw [(hk' hk).2, hq]
        exact List.mem_append_right _ List.mem_cons_self
      · rw [hnow1 (by simp) (by simp)]
      · rw [hnow1 (by simp) (by simp)]; omega
    · refine .inl ⟨⟨?_, fun tid d h => ?_⟩, fun f' g' e h1 _ h3 => ?_⟩
      · rw [ha]; exact eraseP_keeps hq hw1
      · have h' : (tid, d, Ev.ackTimeout q) ∈ kept s'.pend := mem_kept.2 ⟨h, rfl⟩
        rw [(hk' hk).2] at h'
        rcases List.mem_append.1 h' with h1 | h1
        · exact hw2' _ _ (List.mem_filter.1 h1).1
        · simp at h1
      · cases e
        exact hq h3
  | none t hf => exact .inl ⟨⟨hw1, hw2⟩, fun f g e => by cases e⟩
  | fire t x s' hf hn hlog hst hk' =>
    refine .inl ⟨⟨?_, fun tid d h => ?_⟩, fun f g e => by cases e⟩
    · rw [hn]
      split
      · rename_i q' e
        refine eraseP_keeps ?_ hw1
        rintro rfl
        have hm := List.mem_of_find?_eq_some hf
        obtain ⟨x1, x2, x3⟩ := x
        dsimp only at e
        subst e
        have h1 := hw2 x1 x2 hm
        have h2 := hnow t _ rfl hf
        dsimp only at h2
        omega
      · exact hw1
    · have h' : (tid, d, Ev.ackTimeout q) ∈ kept s'.pend := mem_kept.2 ⟨h, rfl⟩
      rw [(hk' hk).2] at h'
      exact hw2' _ _ (List.mem_filter.1 h').1
  | send t x s' p t' hf hu hfree hphy hlog' hn hk' =>
    have hp := hs p (by rw [List.append_cancel_left (hlog.symm.trans hlog')]; exact List.mem_cons_self)
    refine .inl ⟨⟨?_, fun tid d h => ?_⟩, fun f g e => by cases e⟩
    · rw [hn]
      obtain ⟨y, h1, h2⟩ := hw1
      exact ⟨y, List.mem_append_left _ h1, h2⟩
    · have h' : (tid, d, Ev.ackTimeout q) ∈ kept s'.pend := mem_kept.2 ⟨h, rfl⟩
      rw [(hk' hk).2] at h'
      rcases List.mem_append.1 h' with h1 | h1
      · exact hw2' _ _ (List.mem_filter.1 h1).1
      · simp only [List.mem_singleton, Prod.mk.injEq, Ev.ackTimeout.injEq] at h1
        rw [h1.2.1, ← hnow t x rfl hf]
        exact hp h1.2.2.symm

/-- The packet is settled: reported as delivered, or its fifth timeout was charged before. -/
def Settled (p : Pkt) (s : St) : Prop := Obs.done true p ∈ s.log ∨ ∃ k, Obs.timedOut p k ∈ s.log ∧ 5 ≤ k

theorem Settled.run {p : Pkt} {s : St} (h : Settled p s) (ops : List Op) : Settled p (run c me s ops) := by
  rcases h with h | ⟨k, h1, h2⟩
  · exact .inl (log_run c me ops s _ h)
  · exact .inr ⟨k, log_run c me ops s _ h1, h2⟩

theorem doneLoop_reports' (ok : Bool) (q : UInt16) (pre rest : List Rec) (s : St) (hq : s.queue ≠ [])
    (hr : ∃ r ∈ rest, r.seq = q) : ∃ r ∈ rest, r.seq = q ∧ Obs.done ok r.pkt ∈ (doneLoop ok q pre rest s).log := by
  induction pre, rest, s using doneLoop.induct (ok := ok) (seq := q) with
  | case1 pre s => simp at hr
  | case2 pre r rest s h1 h2 => exact absurd h2.2 hq
  | case3 pre r s h1 h2 =>
    rw [doneLoop.eq_def]; dsimp only; rw [if_pos h1, if_neg h2]
    refine ⟨r, List.mem_cons_self, h1, ?_⟩
    show Obs.done ok r.pkt ∈ (settle ok r s).log
    rw [log_settle]; simp
  | case4 pre r s h1 h2 r' rest' ih =>
    rw [doneLoop.eq_def]; dsimp only; rw [if_pos h1, if_neg h2]
    obtain ⟨l, hl⟩ := log_doneLoop_ext ok q (pre ++ [r']) rest' (settle ok r s)
    refine ⟨r, List.mem_cons_self, h1, ?_⟩
    rw [hl, log_settle]; simp
  | case5 pre r rest s h1 ih =>
    rw [doneLoop.eq_def]; dsimp only; rw [if_neg h1]
    obtain ⟨x, hx, hxq⟩ := hr
    obtain ⟨r', h2, h3⟩ := ih hq (by
      rcases List.mem_cons.1 hx with h | h
      · rw [h] at hxq; exact absurd hxq h1
      · exact ⟨x, h, hxq⟩)
    exact ⟨r', List.mem_cons_of_mem _ h2, h3⟩

/-- Running the scheduled success settles the packet. -/
theorem coming_fires {seq0 : UInt16} {s : St} (hk : TidK s) (b : Basic c me s.sv) (k : PkInv seq0 s.sv) (oi : OutInv me s.sv)
    (hn : s.nextUid ≤ 65536) {p : Pkt} (hp : Obs.accepted p ∈ s.log) {tid : Nat} {d : ℤ}
    (he : (tid, d, Ev.sendDataDone true p.seq) ∈ s.pend) : Settled p (step c me s (.fire tid)) := by
  have hf := find_tid hk.uniq he
  have grow : ∀ x ∈ s.log, x ∈ (step c me s (.fire tid)).log := fun x hx => by rw [log_kop]; exact List.mem_append_left _ hx
  rcases k.loc p hp with hq | ⟨ok, hd⟩ | ⟨j, hj⟩
  · rcases k.kept p hp with ⟨r, h1, h2⟩ | ⟨ok, hd⟩
    · have hr : ∃ r ∈ s.recs, r.seq = p.seq := ⟨r, h1, by rw [(b.recs r h1).2, h2]⟩
      have hne : s.queue ≠ [] := fun e => by
        have : p ∈ s.queue := hq
        rw [e] at this; cases this
      obtain ⟨r', h3, h4, h5⟩ := doneLoop_reports' true p.seq [] s.recs
        { s with pend := s.pend.filter (fun e => e.1 ≠ tid), now := max s.now d } hne hr
      have h6 : r'.pkt = p := k.seq_inj hn (b.recs r' h3).1 hp (by rw [← (b.recs r' h3).2, h4])
      refine .inl ?_
      rw [fire_eq c me s hf]
      rw [h6] at h5
      exact h5
    · cases ok with
      | true => exact .inl (grow _ hd)
      | false =>
        obtain ⟨p', j, h1, h2, h3⟩ := oi.reason false p hd
        have : p' = p := k.seq_inj hn (k.tout p' j h1).1 hp h2
        exact .inr ⟨j, grow _ (this ▸ h1), h3⟩
  · cases ok with
    | true => exact .inl (grow _ hd)
    | false =>
      obtain ⟨p', j, h1, h2, h3⟩ := oi.reason false p hd
      have : p' = p := k.seq_inj hn (k.tout p' j h1).1 hp h2
      exact .inr ⟨j, grow _ (this ▸ h1), h3⟩
  · exact .inr ⟨j, grow _ hj.1, hj.2⟩

/-- A scheduled success settles the packet in time. -/
theorem coming_run {seq0 : UInt16} {p : Pkt} {E : ℤ} : ∀ (ops pre : List Op), onTimeRun c me (after c me seq0 pre) ops = true →
    (after c me seq0 (pre ++ ops)).nextUid ≤ 65536 → Obs.accepted p ∈ (after c me seq0 pre).log →
    Coming p.seq E (after c me seq0 pre) → E < (after c me seq0 (pre ++ ops)).now → Settled p (after c me seq0 (pre ++ ops)) := by
  intro ops
  induction ops with
  | nil =>
    intro pre _ _ _ ⟨tid, d, _, h1, h2⟩ h3
    rw [List.append_nil] at h3
    omega
  | cons o ops ih =>
    intro pre ht hn hp ⟨tid, d, h1, h2, h3⟩ hE
    have e1 : after c me seq0 (pre ++ [o]) = step c me (after c me seq0 pre) o := by unfold after; rw [run_append]; rfl
    have e2 : pre ++ o :: ops = (pre ++ [o]) ++ ops := by simp
    have ht' : onTime c me (after c me seq0 pre) o = true ∧ onTimeRun c me (step c me (after c me seq0 pre) o) ops = true := by
      simpa [onTimeRun] using ht
    have hk := TidK.after c me seq0 pre
    have hn0 : (after c me seq0 pre).nextUid ≤ 65536 := by
      rw [← numAccepted_after] at hn ⊢
      refine le_trans ?_ hn
      have : ∃ l, (after c me seq0 (pre ++ o :: ops)).log = (after c me seq0 pre).log ++ l := by
        have : after c me seq0 (pre ++ o :: ops) = run c me (after c me seq0 pre) (o :: ops) := by unfold after; rw [run_append]
        rw [this]
        generalize after c me seq0 pre = s
        generalize o :: ops = l
        induction l generalizing s with
        | nil => exact ⟨[], (List.append_nil _).symm⟩
        | cons o l ih =>
          obtain ⟨l', h⟩ := ih (step c me s o)
          refine ⟨newObs c me s o ++ l', ?_⟩
          show (run c me (step c me s o) l).log = _
          rw [h, log_kop, List.append_assoc]
      obtain ⟨l, h⟩ := this
      rw [h, numAccepted_append]
      omega
    by_cases ho : o = .fire tid
    · have hs := coming_fires hk (Basic.after c me seq0 pre) (PkInv.after c me seq0 pre) (OutInv.after c me seq0 pre) hn0 hp h1
      rw [← ho, ← e1] at hs
      rw [e2]
      have : after c me seq0 ((pre ++ [o]) ++ ops) = run c me (after c me seq0 (pre ++ [o])) ops := by unfold after; rw [run_append]
      rw [this]
      exact hs.run ops
    · rw [e2] at hn hE ⊢
      rw [← e1] at ht'
      refine ih (pre ++ [o]) ht'.2 hn ?_ ⟨tid, d, ?_, h2, ?_⟩ hE
      · rw [e1, log_kop]; exact List.mem_append_left _ hp
      · rw [e1]
        exact (mem_kept.1 (kept_stays (e := (tid, d, .sendDataDone true p.seq)) hk (mem_kept.2 ⟨h1, rfl⟩) (by simp) ho)).1
      · rw [e1]
        exact onTime_le ht'.1 h1 h3

theorem Sent.log {c : Cfg} {me : Mac48} : ∀ (ops : List Op) {s : St} {t : ℤ} {f : Frame}, Sent (trace c me s ops) t f →
    Obs.handed f ∈ (Macro.run c me s ops).log := by
  intro ops
  induction ops with
  | nil => rintro s t f ⟨x, h, _⟩; cases h
  | cons o ops ih =>
    rintro s t f ⟨x, h, h1, h2⟩
    rcases List.mem_cons.1 h with rfl | h
    · refine log_run c me ops (step c me s o) _ ?_
      rw [log_kop]
      exact List.mem_append_right _ h2
    · exact ih (s := step c me s o) ⟨x, h, h1, h2⟩

theorem rxDone_sends (c : Cfg) (me : Mac48) (s : St) (f : Frame) (ok : Bool) (g : UInt16) (f' : Frame) :
    Obs.handed f' ∉ newObs c me s (.rxDone f ok g) := by
  intro h
  obtain ⟨l, e1, e2⟩ := (tq_rxDone c me f ok g s).log
  have hl := log_kop c me s (.rxDone f ok g)
  have : newObs c me s (.rxDone f ok g) = (if ok = true then [.rx f] else []) ++ l := by
    apply List.append_cancel_left (as := s.log)
    rw [← hl, e1]
    split
    · show (s.log ++ [_]) ++ l = _
      simp
    · rfl
  rw [this] at h
  rcases List.mem_append.1 h with h | h
  · split at h
    · simp at h
    · cases h
  · have : Obs.handed f' ∈ l.filter phyObs := List.mem_filter.2 ⟨h, rfl⟩
    rw [e2] at this; cases this

theorem waits_run {q : UInt16} {X T : ℤ} (hps : 0 ≤ c.ps 1) : ∀ (ops : List Op) (s : St), TidK s →
    Waits q X s → (run c me s ops).now ≤ T → T < X →
    (∀ t p', Sent (trace c me s ops) t (dataFrame me p') → p'.seq = q → X ≤ t + ackTimeoutDur c p') →
    (∀ f g, Op.rxDone f true g ∈ ops → f.kind = .ack → f.dst = me → f.seq ≠ q) ∨
    ∃ a b, ops = a ++ b ∧ Coming q (T + c.ps 1) (run c me s a) := by
  intro ops
  induction ops with
  | nil => intro s _ _ _ _ _; exact .inl (by simp)
  | cons o ops ih =>
    intro s hk hw hT hX hs
    have hn : (step c me s o).now ≤ T := (now_le_run c me ops _).trans hT
    rcases waits_step (c := c) (me := me) hk hw hps o (by omega) (fun p' hf => hs _ p' ⟨_, List.mem_cons_self, rfl, hf⟩) with h | h
    · rcases ih _ (hk.step o) h.1 hT hX (fun t f ⟨x, h1, h2⟩ => hs t f ⟨x, List.mem_cons_of_mem _ h1, h2⟩) with h1 | ⟨a, b, h1, h2⟩
      · refine .inl (fun f g hm => ?_)
        rcases List.mem_cons.1 hm with e | hm
        · exact h.2 f g e.symm
        · exact h1 f g hm
      · exact .inr ⟨o :: a, b, by rw [h1]; rfl, h2⟩
    · obtain ⟨tid, d, h1, h2, h3⟩ := h
      exact .inr ⟨[o], ops, rfl, tid, d, h1, by omega, h3⟩

/-- Two packets with the same DATA frame are waited for equally long. -/
theorem wait_eq {p p' : Pkt} (h : dataFrame me p = dataFrame me p') : ackTimeoutDur c p = ackTimeoutDur c p' := by
  have : p.body = p'.body := congrArg Frame.body h
  unfold ackTimeoutDur Pkt.size
  rw [this]

/-- DATA frames with the number of an accepted packet are waited for as long as that packet. -/
theorem wait_same {seq0 : UInt16} (ops : List Op) {p p0 : Pkt} (hn : (after c me seq0 ops).nextUid ≤ 65536)
    (hp : Obs.accepted p ∈ (after c me seq0 ops).log) (h : Obs.handed (dataFrame me p0) ∈ (after c me seq0 ops).log)
    (hq : p0.seq = p.seq) : ackTimeoutDur c p0 = ackTimeoutDur c p := by
  obtain ⟨p', h4, h5⟩ := (OutInv.after c me seq0 ops).data _ h rfl
  have h6 : p'.seq = p.seq := (congrArg Frame.seq h5).symm.trans hq
  have : p' = p := (PkInv.after c me seq0 ops).seq_inj hn h4 hp h6
  exact wait_eq (me := me) (this ▸ h5)

/-- From the moment the DATA frame of a packet is handed over, the node waits for the acknowledgement for the whole timeout. -/
theorem waits_sent (hD : ∀ p, 0 ≤ ackTimeoutDur c p) {seq0 : UInt16} (ops : List Op) (o : Op) (p : Pkt) (hu : p.dst ≠ bcast)
    (ht : onTimeRun c me (init seq0) (ops ++ [o]) = true) (hn : (after c me seq0 (ops ++ [o])).nextUid ≤ 65536)
    (hp : Obs.accepted p ∈ (after c me seq0 (ops ++ [o])).log)
    (hs : Obs.handed (dataFrame me p) ∈ newObs c me (after c me seq0 ops) o)
    (hb : ∀ t0 f0, Sent (trace c me (init seq0) ops) t0 f0 → f0.kind = .data → f0.seq = p.seq →
      t0 + ackTimeoutDur c p < (after c me seq0 (ops ++ [o])).now ∨ (after c me seq0 (ops ++ [o])).now ≤ t0) :
    Waits p.seq ((after c me seq0 (ops ++ [o])).now + ackTimeoutDur c p) (after c me seq0 (ops ++ [o])) := by
  have e1 : after c me seq0 (ops ++ [o]) = step c me (after c me seq0 ops) o := by unfold after; rw [run_append]; rfl
  have hh := AckHist.after hD seq0 (ops ++ [o]) ht
  have hk := TidK.after c me seq0 ops
  -- what is pending belongs to this packet
  have key : ∀ tid d, (tid, d, Ev.ackTimeout p.seq) ∈ (after c me seq0 (ops ++ [o])).pend →
      (after c me seq0 (ops ++ [o])).now + ackTimeoutDur c p ≤ d := by
    intro tid d hm
    obtain ⟨⟨t0, p0, h1, h2, h3⟩, h4⟩ := hh tid d p.seq hm
    have hd := wait_same (ops ++ [o]) hn hp (Sent.log _ h1) h2
    rw [trace_append] at h1
    obtain ⟨x, hx, hx1, hx2⟩ := h1
    rcases List.mem_append.1 hx with hx | hx
    · rcases hb t0 _ ⟨x, hx, hx1, hx2⟩ rfl h2 with h | h
      · omega
      · omega
    · rw [List.mem_singleton.1 hx] at hx1
      rw [h3, hd, e1, ← hx1]; exact le_refl _
  have hop := kop_step c me (after c me seq0 ops) o
  have hlog := log_kop c me (after c me seq0 ops) o
  have hun : uniData (.handed (dataFrame me p)) = true := by simp [uniData, dataFrame, hu]
  have quiet : (∃ l, (step c me (after c me seq0 ops) o).log = (after c me seq0 ops).log ++ l ∧ ∀ x ∈ l, uniData x = false) → False := by
    rintro ⟨l, h1, h2⟩
    have := h2 _ ((List.append_cancel_left (hlog.symm.trans h1)) ▸ hs)
    rw [hun] at this; cases this
  rw [e1] at key ⊢
  generalize step c me (after c me seq0 ops) o = s' at hop hlog quiet key ⊢
  cases hop with
  | quiet _ _ ho hd hn hlog ha hst hk' => exact absurd hlog quiet
  | data f g s' hf hn hlog hst hk' => exact absurd hlog quiet
  | ack f g x hf hx s' ha hlog hst hk' => exact absurd hlog quiet
  | none t hf =>
    exfalso
    have : newObs c me (after c me seq0 ops) (.fire t) = [] := List.append_cancel_left (hlog.symm.trans (List.append_nil _).symm)
    rw [this] at hs; cases hs
  | fire t x s' hf hn hlog hst hk' => exact absurd hlog quiet
  | send t x s' p' t' hf hu' hfree hphy hlog' hn hk' =>
    have e2 : newObs c me (after c me seq0 ops) (.fire t) = [.handed (dataFrame me p')] := List.append_cancel_left (hlog.symm.trans hlog')
    rw [e2] at hs
    have e3 : dataFrame me p = dataFrame me p' := by simpa using hs
    have e4 : p'.seq = p.seq := (congrArg Frame.seq e3).symm
    exact ⟨⟨⟨p'.seq, t'⟩, by rw [hn]; exact List.mem_append_right _ List.mem_cons_self, e4⟩, key⟩

/-- An entry of a trace belongs to an operation of the run. -/
theorem mem_trace (ops : List Op) : ∀ (s : St), ∀ x ∈ trace c me s ops, ∃ a o b, ops = a ++ o :: b ∧
    x = ((step c me (run c me s a) o).now, o, newObs c me (run c me s a) o) := by
  induction ops with
  | nil => intro s x h; cases h
  | cons o ops ih =>
    intro s x h
    rcases List.mem_cons.1 h with rfl | h
    · exact ⟨[], o, ops, rfl, rfl⟩
    · obtain ⟨a, o', b, h1, h2⟩ := ih _ x h
      exact ⟨o :: a, o', b, by rw [h1]; rfl, h2⟩

/-- A node that sent the DATA frame of a unicast packet and receives an intact ACK for it before the timeout is over reports the packet
as delivered within a picosecond; unless the fifth timeout of the packet was charged before.  Conditions: at most 65536 packets were
accepted (so that sequence numbers identify packets), and no other DATA frame with that number was sent within a timeout before this
one. -/
theorem C108_acknowledged_in_time (c : Cfg) (hps : 0 ≤ c.tpn) (hD : ∀ p, 0 ≤ ackTimeoutDur c p) (me : Mac48) (seq0 : UInt16)
    (ops later : List Op) (p : Pkt)
    (f : Frame) (g : UInt16) (ht : onTimeRun c me (init seq0) (ops ++ .rxDone f true g :: later) = true)
    (hn : numAccepted (after c me seq0 (ops ++ .rxDone f true g :: later)).log ≤ 65536)
    (hu : p.dst ≠ bcast) (hp : Obs.accepted p ∈ (after c me seq0 (ops ++ .rxDone f true g :: later)).log)
    (t T : ℤ) (hs : Sent (trace c me (init seq0) ops) t (dataFrame me p))
    (hf : f.kind = .ack ∧ f.dst = me ∧ f.seq = p.seq)
    (heT : T = (after c me seq0 ops).now) (hT : T < t + ackTimeoutDur c p)
    (hb : ∀ t0 f0, Sent (trace c me (init seq0) ops) t0 f0 → f0.kind = .data → f0.seq = p.seq → t0 + ackTimeoutDur c p < t ∨ t ≤ t0)
    (hend : T + c.ps 1 < (after c me seq0 (ops ++ .rxDone f true g :: later)).now) :
    Obs.done true p ∈ (after c me seq0 (ops ++ .rxDone f true g :: later)).log ∨
    ∃ k, Obs.timedOut p k ∈ (after c me seq0 (ops ++ .rxDone f true g :: later)).log ∧ 5 ≤ k := by
  obtain ⟨x, hx, rfl, hx2⟩ := hs
  obtain ⟨ops1, o, ops2, eo, ex⟩ := mem_trace ops (init seq0) x hx
  have eafter : ∀ a b, after c me seq0 (a ++ b) = run c me (after c me seq0 a) b := fun a b => by unfold after; rw [run_append]
  have et : x.1 = (after c me seq0 (ops1 ++ [o])).now := by rw [ex, eafter]; rfl
  have hs : Obs.handed (dataFrame me p) ∈ newObs c me (after c me seq0 ops1) o := by rw [ex] at hx2; exact hx2
  rw [et] at hT hb
  subst eo
  have e0 : ops1 ++ o :: ops2 ++ .rxDone f true g :: later = (ops1 ++ [o]) ++ ((ops2 ++ [.rxDone f true g]) ++ later) := by simp
  rw [e0] at ht hn hp hend ⊢
  rw [onTimeRun_append, Bool.and_eq_true] at ht
  have mono : ∀ a b, numAccepted (after c me seq0 (a ++ b)).log ≤ 65536 → (after c me seq0 a).nextUid ≤ 65536 := by
    intro a b h
    rw [← numAccepted_after]
    refine le_trans ?_ h
    clear h
    rw [eafter]
    generalize after c me seq0 a = s
    induction b generalizing s with
    | nil => exact le_refl _
    | cons o b ih =>
      refine le_trans ?_ (ih (step c me s o))
      rw [log_kop, numAccepted_append]
      omega
  have hps' : 0 ≤ c.ps 1 := by
    unfold Cfg.ps
    exact Int.tdiv_nonneg (by omega) (by omega)
  have hsd : Obs.handed (dataFrame me p) ∈ (after c me seq0 (ops1 ++ [o])).log := by
    rw [eafter]
    show _ ∈ (step c me (after c me seq0 ops1) o).log
    rw [log_kop]; exact List.mem_append_right _ hs
  have hnf : (after c me seq0 ((ops1 ++ [o]) ++ ((ops2 ++ [.rxDone f true g]) ++ later))).nextUid ≤ 65536 := by
    rw [← numAccepted_after]; exact hn
  -- the packet was accepted before it was sent
  have hp' : Obs.accepted p ∈ (after c me seq0 (ops1 ++ [o])).log := by
    obtain ⟨p', h4, h5⟩ := (OutInv.after c me seq0 (ops1 ++ [o])).data _ hsd rfl
    have h6 : p'.seq = p.seq := (congrArg Frame.seq h5).symm
    have h4' : Obs.accepted p' ∈ (after c me seq0 ((ops1 ++ [o]) ++ ((ops2 ++ [.rxDone f true g]) ++ later))).log := by
      rw [eafter]; exact log_run c me _ _ _ h4
    have : p' = p := (PkInv.after c me seq0 _).seq_inj hnf h4' hp h6
    exact this ▸ h4
  have hw := waits_sent hD ops1 o p hu ht.1 (mono _ _ hn) hp' hs (fun t0 f0 h1 => hb t0 f0 (by
    rw [show ops1 ++ o :: ops2 = ops1 ++ (o :: ops2) from rfl, trace_append]
    exact h1.mono (fun x hx => List.mem_append_left _ hx)))
  have ht3 : onTimeRun c me (after c me seq0 (ops1 ++ [o])) ((ops2 ++ [.rxDone f true g]) ++ later) = true := ht.2
  have hTT : (run c me (after c me seq0 (ops1 ++ [o])) (ops2 ++ [.rxDone f true g])).now = T := by
    rw [heT, run_append, ← eafter]
    have : ops1 ++ [o] ++ ops2 = ops1 ++ o :: ops2 := by simp
    rw [this]
    exact now_step c me _ (.rxDone f true g) (by simp) (by simp)
  have hsent : ∀ t0 p0, Sent (trace c me (after c me seq0 (ops1 ++ [o])) (ops2 ++ [.rxDone f true g])) t0 (dataFrame me p0) →
      p0.seq = p.seq → (after c me seq0 (ops1 ++ [o])).now + ackTimeoutDur c p ≤ t0 + ackTimeoutDur c p0 := by
    rintro t0 p0 h1 hq
    have h2 : Obs.handed (dataFrame me p0) ∈ (after c me seq0 ((ops1 ++ [o]) ++ ((ops2 ++ [.rxDone f true g]) ++ later))).log := by
      rw [eafter, run_append]
      exact log_run c me _ _ _ (Sent.log _ h1)
    rw [wait_same _ hnf hp h2 hq]
    obtain ⟨x, h3, h4, -⟩ := h1
    have := trace_ge _ _ x h3
    omega
  rcases waits_run (T := T) hps' _ _ (TidK.after c me seq0 (ops1 ++ [o])) hw hTT.le hT hsent with h | ⟨a, b, h1, h2⟩
  · exact absurd hf.2.2 (h f g (List.mem_append_right _ List.mem_cons_self) hf.1 hf.2.1)
  · rw [← eafter] at h2
    have e3 : (ops1 ++ [o]) ++ ((ops2 ++ [.rxDone f true g]) ++ later) = ((ops1 ++ [o]) ++ a) ++ (b ++ later) := by
      rw [h1]; simp
    rw [e3] at hn hend ⊢
    refine coming_run (b ++ later) _ ?_ (by rw [← numAccepted_after]; exact hn) ?_ h2 hend
    · rw [h1, List.append_assoc, onTimeRun_append, Bool.and_eq_true] at ht3
      rw [eafter]
      exact ht3.2
    · rw [eafter]; exact log_run c me _ _ _ hp'

/-! ## Examples -/

theorem sent_all {tr : List (ℤ × Op × List Obs)} (P : ℤ → Frame → Bool) (h : tr.all (fun x => x.2.2.all (fun ob => match ob with
    | .handed f => P x.1 f
    | _ => true)) = true) : ∀ t f, Sent tr t f → P t f = true := by
  rintro t f ⟨x, h1, rfl, h2⟩
  have h3 := List.all_eq_true.1 h x h1
  exact List.all_eq_true.1 h3 _ h2

theorem heard_all {tr : List (ℤ × Op × List Obs)} (P : ℤ → Bool) (h : tr.all (fun x => if x.2.1 = .rxStart then P x.1 else true) = true) :
    ∀ t, Heard tr t → P t = true := by
  rintro t ⟨x, h1, rfl, h2⟩
  have h3 := List.all_eq_true.1 h x h1
  rw [if_pos h2] at h3
  exact h3

theorem exCfg_dur (r : Bool) (n : ℤ) (f : Frame) : 0 ≤ (exCfg r n).frameDur f := by
  unfold Cfg.frameDur exCfg
  dsimp only
  split
  · positivity
  · split <;> decide

theorem exCfg_wait (r : Bool) (p : Pkt) : 0 ≤ ackTimeoutDur (exCfg r 5) p := by
  have h1 : 0 ≤ (exCfg r 5).dataDur p.size := by unfold exCfg; dsimp only; positivity
  have h2 : (exCfg r 5).tProp = 33356 := by cases r <;> decide +kernel
  have h3 : (exCfg r 5).sifs = 0 := rfl
  have h4 : (exCfg r 5).ctrlDur .ack = 1081 := rfl
  have h5 : (exCfg r 5).slot = 5000 := rfl
  unfold ackTimeoutDur
  omega

/-- The run of one successful packet meets the conditions. -/
example : Obs.done true exP1 ∈ (after (exCfg false 5) exA 0 runOk).log ∨
    ∃ k, Obs.timedOut exP1 k ∈ (after (exCfg false 5) exA 0 runOk).log ∧ 5 ≤ k := by
  rw [show runOk = ([.enqueue exBody exB 0] ++ fires [0, 1, 2, 3] ++ [.advance 3054, .rxStart]) ++
    .rxDone (exAck 1) true 0 :: fires [6, 7, 5] from by decide +kernel]
  refine C108_acknowledged_in_time (exCfg false 5) ?_ (exCfg_wait false) exA 0 _ _ exP1 (exAck 1) 0 (timelyRun_onTime _ ?_) ?_ ?_ ?_
    810001 1625000 ?_ ?_ ?_ ?_ ?_ ?_
  · decide
  · decide +kernel
  · decide +kernel
  · decide +kernel
  · decide +kernel
  · exact ⟨_, List.mem_of_getElem? (i := 3) rfl, by decide +kernel, by decide +kernel⟩
  · decide +kernel
  · decide +kernel
  · decide +kernel
  · intro t f ht _ _
    exact .inr (of_decide_eq_true (sent_all (fun t _ => decide (810001 ≤ t)) (by decide +kernel) t f ht))
  · decide +kernel

end Thz.Macro
