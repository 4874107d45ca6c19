import Verif.MacroRtsKeep

/-!
# RTS and CTS of a macro MAC in time

The specification is that of `MacroTimed`: a run written down as a list of entries with the time, the operation and what was observed.

Claims C109 (an RTS is answered) and C110 (a CTS in time leads to the DATA frame).
-/

namespace Thz.Macro.Rts

open Thz
open Thz.Nano (Body Kind bcast)
open Thz.Macro

variable {c : Cfg} {me : Mac48}

theorem Kop.tid {s s' : St} {o : Op} (h : TidK s) (hop : Kop c me s o s') : TidK s' := by
  cases hop with
  | quiet _ _ ho hd hn hlog ha hst hk => exact (hk h).1
  | rts f g s' hf hn hlog hst hk => exact (hk h).1
  | cts f g x p hf hx hp s' ha hlog hst hk => exact (hk h).1
  | none tid hf => exact h
  | fire tid x s' hf hn hlog hst hk => exact (hk h).1
  | send tid x s' p t hf hfree hphy hlog hn hk => exact (hk h).1

theorem TidK.step {s : St} (h : TidK s) (o : Op) : TidK (step c me s o) := (kop_step c me s o).tid h

theorem TidK.run (ops : List Op) : ∀ {s : St}, TidK s → TidK (run c me s ops) := by
  induction ops with
  | nil => exact fun h => h
  | cons o ops ih => exact fun h => ih (h.step o)

theorem TidK.after (c : Cfg) (me : Mac48) (seq0 : UInt16) (ops : List Op) : TidK (after c me seq0 ops) := (TidK.init seq0).run ops

/-- Scheduled CTS and DATA frames stay until they are run. -/
theorem Kop.stays {s s' : St} {o : Op} (hop : Kop c me s o s') (h : TidK s) {e : Nat × ℤ × Ev} (he : e ∈ kept s.pend)
    (hk : ∀ q, e.2.2 ≠ .ctsTimeout q) (ho : o ≠ .fire e.1) : e ∈ kept s'.pend := by
  cases hop with
  | quiet _ _ ho hd hn hlog ha hst hk => rw [(hk h).2]; exact he
  | rts f g s' hf hn hlog hst hk => rw [(hk h).2]; exact List.mem_append_left _ he
  | cts f g x p hf hx hp s' ha hlog hst hk' =>
    rw [(hk' h).2]
    refine List.mem_append_left _ (List.mem_filter.2 ⟨he, ?_⟩)
    have : e.1 ≠ x.tid := fun h1 => hk x.seq ((h.cts x hx.1).2 e (mem_kept.1 he).1 h1)
    simpa using this
  | none tid hf => exact he
  | fire tid x s' hf hn hlog hst hk =>
    rw [(hk h).2]
    refine List.mem_filter.2 ⟨he, ?_⟩
    have : e.1 ≠ tid := fun h1 => ho (by rw [h1])
    simpa using this
  | send tid x s' p t hf hfree hphy hlog hn hk =>
    rw [(hk h).2]
    refine List.mem_append_left _ (List.mem_filter.2 ⟨he, ?_⟩)
    have : e.1 ≠ tid := fun h1 => ho (by rw [h1])
    simpa using this

theorem kept_stays {s : St} (h : TidK s) {o : Op} {e : Nat × ℤ × Ev} (he : e ∈ kept s.pend) (hk : ∀ q, e.2.2 ≠ .ctsTimeout q)
    (ho : o ≠ .fire e.1) : e ∈ kept (step c me s o).pend := (kop_step c me s o).stays h he hk ho

/-- What is scheduled is handed over when it is due, if nothing else is transmitted and no arrival is announced. -/
theorem answer_run {ev : Ev} (hev : keep ev = true) (hct : ∀ q, ev ≠ .ctsTimeout q) {G : Frame → Prop} {tid : Nat} {due : ℤ} {Q : Prop} :
    ∀ (ops : List Op) (s : St), TidK s → onTimeRun c me s ops = true →
    (∀ a b, ops = a ++ .fire tid :: b → (tid, due, ev) ∈ (run c me s a).pend →
      ((run c me s a).state = .idle ∨ (run c me s a).state = .waitTx) → (run c me s a).phyTx = none →
      (∃ f, Obs.handed f ∈ newObs c me (run c me s a) (.fire tid)) ∨ Q) →
    (tid, due, ev) ∈ s.pend → s.now ≤ due → s.state = .idle ∨ s.state = .waitTx → s.phyTx = none →
    (∀ t, Heard (trace c me s ops) t → due < t) →
    (∀ t f, Sent (trace c me s ops) t f → t ≤ due → t = due ∧ G f) →
    due < (run c me s ops).now → (∃ f, Sent (trace c me s ops) due f ∧ G f) ∨ Q := by
  intro ops
  induction ops with
  | nil => intro s _ _ _ _ hn _ _ _ _ he; exact absurd he (not_lt.2 hn)
  | cons o ops ih =>
    intro s hk ht hfire hm hn hs hp hh hq he
    have ht' : onTime c me s o = true ∧ onTimeRun c me (step c me s o) ops = true := by
      simpa [onTimeRun] using ht
    have hn' : (step c me s o).now ≤ due := onTime_le ht'.1 hm hn
    by_cases hx : ∃ f, Obs.handed f ∈ newObs c me s o
    · obtain ⟨f, hf⟩ := hx
      obtain ⟨h1, h2⟩ := hq _ f ⟨_, List.mem_cons_self, rfl, hf⟩ hn'
      exact .inl ⟨f, ⟨_, List.mem_cons_self, h1, hf⟩, h2⟩
    · have hx' : ∀ f, Obs.handed f ∉ newObs c me s o := fun f hf => hx ⟨f, hf⟩
      by_cases ho : o = .fire tid
      · subst ho
        rcases hfire [] ops rfl hm hs hp with h | h
        · exact absurd h hx
        · exact .inr h
      · have ho' : o ≠ .rxStart := by
          rintro rfl
          have := hh _ ⟨_, List.mem_cons_self, rfl, rfl⟩
          exact absurd hn' (not_le.2 this)
        have hp' := phy_step hp hx'
        have hm' := (mem_kept.1 (kept_stays (c := c) (me := me) hk (o := o) (e := (tid, due, ev)) (mem_kept.2 ⟨hm, hev⟩) hct ho)).1
        rcases ih _ (hk.step o) ht'.2 (fun a b e => by
            have := hfire (o :: a) b (by rw [e]; rfl)
            exact this) hm' hn' (state_step hs hp' ho') hp'
          (fun t ⟨x, h1, h2⟩ => hh t ⟨x, List.mem_cons_of_mem _ h1, h2⟩)
          (fun t f ⟨x, h1, h2⟩ => hq t f ⟨x, List.mem_cons_of_mem _ h1, h2⟩) he with ⟨f, ⟨x, h1, h2⟩, h3⟩ | h
        · exact .inl ⟨f, ⟨x, List.mem_cons_of_mem _ h1, h2⟩, h3⟩
        · exact .inr h

/-! ## C109: an RTS is answered -/

/-- A scheduled CTS that is run while the MAC is ready is handed over. -/
theorem cts_handed {s : St} (h : TidK s) {tid : Nat} {due : ℤ} {d : Mac48} {n : ℤ} {q : UInt16}
    (he : (tid, due, Ev.sendCts d n q) ∈ s.pend)
    (hs : s.state = .idle ∨ s.state = .waitTx) (hp : s.phyTx = none) : Obs.handed (ctsFrame c me d n q) ∈ newObs c me s (.fire tid) := by
  have hf := find_tid h.uniq he
  have e : (Macro.step c me s (.fire tid)).log = s.log ++ [.handed (ctsFrame c me d n q)] := by
    rw [fire_eq c me s hf]
    show (sendCts c me d n q _).log = _
    unfold sendCts sendPacket
    rw [if_pos (by exact hs), if_pos (by exact hp)]
    rfl
  rw [List.append_cancel_left ((log_kop c me s (.fire tid)).symm.trans e)]
  exact List.mem_cons_self

/-- The state after a reception, and what is scheduled in it, lead to a transmission a picosecond later. -/
theorem answer_after {seq0 : UInt16} {ops later : List Op} {f : Frame} {g : UInt16} {ev : Ev} {G : Frame → Prop} {Q : Prop} (hev : keep ev = true)
    (hct : ∀ q, ev ≠ .ctsTimeout q) (hps : 0 ≤ c.ps 1) (hdur : ∀ f, 0 ≤ c.frameDur f)
    (ht : onTimeRun c me (init seq0) (ops ++ .rxDone f true g :: later) = true) {T : ℤ} (hT : T = (after c me seq0 ops).now)
    (hheard : ∀ t, Heard (trace c me (after c me seq0 (ops ++ [.rxDone f true g])) later) t → T + c.ps 1 < t)
    (hsent : ∀ t f', Sent (trace c me (init seq0) (ops ++ .rxDone f true g :: later)) t f' →
      t + c.frameDur f' < T ∨ T + c.ps 1 < t ∨ (t = T + c.ps 1 ∧ G f'))
    (hend : T + c.ps 1 < (after c me seq0 (ops ++ .rxDone f true g :: later)).now)
    (key : (((after c me seq0 ops).nextTid, (after c me seq0 ops).now + c.ps 1, ev) ∈
        (after c me seq0 (ops ++ [.rxDone f true g])).pend ∧ (after c me seq0 (ops ++ [.rxDone f true g])).state = .waitTx) ∨ Q)
    (hfire : ∀ a b tid due, later = a ++ b → (tid, due, ev) ∈ (after c me seq0 (ops ++ [.rxDone f true g] ++ a)).pend →
      ((after c me seq0 (ops ++ [.rxDone f true g] ++ a)).state = .idle ∨ (after c me seq0 (ops ++ [.rxDone f true g] ++ a)).state = .waitTx) →
      (after c me seq0 (ops ++ [.rxDone f true g] ++ a)).phyTx = none →
      (∃ f', Obs.handed f' ∈ newObs c me (after c me seq0 (ops ++ [.rxDone f true g] ++ a)) (.fire tid)) ∨ Q) :
    (∃ f', Sent (trace c me (init seq0) (ops ++ .rxDone f true g :: later)) (T + c.ps 1) f' ∧ G f') ∨ Q := by
  subst hT
  have eafter : ∀ a b, after c me seq0 (a ++ b) = run c me (after c me seq0 a) b := fun a b => by unfold after; rw [run_append]
  have e1 : after c me seq0 (ops ++ [.rxDone f true g]) = step c me (after c me seq0 ops) (.rxDone f true g) := by
    rw [eafter]; rfl
  have e2 : after c me seq0 (ops ++ .rxDone f true g :: later) = run c me (after c me seq0 (ops ++ [.rxDone f true g])) later := by
    rw [e1, eafter]; rfl
  have etr : trace c me (init seq0) (ops ++ .rxDone f true g :: later) = trace c me (init seq0) ops ++
      (((step c me (after c me seq0 ops) (.rxDone f true g)).now, .rxDone f true g, newObs c me (after c me seq0 ops) (.rxDone f true g)) ::
        trace c me (step c me (after c me seq0 ops) (.rxDone f true g)) later) := by rw [trace_append]; rfl
  rw [onTimeRun_append, Bool.and_eq_true] at ht
  have ht' : onTimeRun c me (step c me (after c me seq0 ops) (.rxDone f true g)) later = true := by
    have := ht.2
    have : onTime c me (after c me seq0 ops) (.rxDone f true g) = true ∧
        onTimeRun c me (step c me (after c me seq0 ops) (.rxDone f true g)) later = true := by simpa [onTimeRun, after] using this
    exact this.2
  have hnow : (step c me (after c me seq0 ops) (.rxDone f true g)).now = (after c me seq0 ops).now := now_step c me _ _ (by simp) (by simp)
  rw [etr] at hsent ⊢
  simp only [eafter _ _, List.append_assoc] at hfire
  rw [e1] at hheard key
  rw [e2, e1] at hend
  cases hp : (after c me seq0 ops).phyTx with
  | some f' =>
    obtain ⟨t0, t, h1, -, h3⟩ := (PhyHist.after (c := c) (me := me) hdur seq0 ops ht.1).2 f' hp
    have h1' := h1.mono (b := trace c me (init seq0) ops ++ (((step c me (after c me seq0 ops) (.rxDone f true g)).now, .rxDone f true g, newObs c me (after c me seq0 ops) (.rxDone f true g)) ::
        trace c me (step c me (after c me seq0 ops) (.rxDone f true g)) later)) (fun x hx => List.mem_append_left _ hx)
    rcases hsent t0 f' h1' with h | h | ⟨h, h'⟩
    · omega
    · obtain ⟨x, h4, h5, -⟩ := h1
      have := trace_le ops (init seq0) x h4
      have : x.1 ≤ (after c me seq0 ops).now := this
      omega
    · rw [← h]; exact .inl ⟨f', h1', h'⟩
  | none =>
  have hphy : (step c me (after c me seq0 ops) (.rxDone f true g)).phyTx = none := by
    rw [(tq_rxDone c me f true g _).phy]; exact hp
  rcases key with key | key
  · have hk := TidK.after c me seq0 ops
    have := answer_run (c := c) (me := me) (G := G) (Q := Q) hev hct later _ (hk.step (.rxDone f true g)) ht' (fun a b e h1 h2 h3 => by
        exact hfire a (.fire _ :: b) _ _ e h1 h2 h3) key.1 (by rw [hnow]; omega) (.inr key.2) hphy hheard (fun t f' h1 h2 => by
      rcases hsent t f' (h1.mono (fun x hx => List.mem_append_right _ (List.mem_cons_of_mem _ hx))) with h | h | h
      · obtain ⟨x, h4, h5, -⟩ := h1
        have := trace_ge later _ x h4
        have := hdur f'
        omega
      · omega
      · exact h) hend
    rcases this with ⟨f', this, h'⟩ | this
    · exact .inl ⟨f', this.mono (fun x hx => List.mem_append_right _ (List.mem_cons_of_mem _ hx)), h'⟩
    · exact .inr this
  · exact .inr key

theorem ps_nonneg (hps : 0 ≤ c.tpn) : 0 ≤ c.ps 1 := by
  unfold Cfg.ps
  exact Int.tdiv_nonneg (by omega) (by omega)

/-- A node that receives an RTS for itself at time `T`, when it is not holding back for another exchange, hands over the CTS with the number of
the RTS a picosecond later, if no other frame of its own is on its way out at some time between `T` and then, and the PHY announces no
arrival until then. -/
theorem rts_answered (c : Cfg) (me : Mac48) (seq0 : UInt16) (ops later : List Op) (f : Frame) (g : UInt16) (hps : 0 ≤ c.tpn)
    (hdur : ∀ f, 0 ≤ c.frameDur f)
    (ht : onTimeRun c me (init seq0) (ops ++ .rxDone f true g :: later) = true)
    (hf : f.kind = .rts) (hd : f.dst = me) (T : ℤ) (hT : T = (after c me seq0 ops).now)
    (hnav : (after c me seq0 ops).nav ≤ T ∧ (after c me seq0 ops).localNav ≤ T)
    (hheard : ∀ t, Heard (trace c me (after c me seq0 (ops ++ [.rxDone f true g])) later) t → T + c.ps 1 < t)
    (hsent : ∀ t f', Sent (trace c me (init seq0) (ops ++ .rxDone f true g :: later)) t f' →
      t + c.frameDur f' < T ∨ T + c.ps 1 < t ∨ (t = T + c.ps 1 ∧ f'.kind = .cts ∧ f'.src = me ∧ f'.dst = f.src ∧ f'.seq = f.seq))
    (hend : T + c.ps 1 < (after c me seq0 (ops ++ .rxDone f true g :: later)).now) :
    ∃ f', Sent (trace c me (init seq0) (ops ++ .rxDone f true g :: later)) (T + c.ps 1) f' ∧
      f'.kind = .cts ∧ f'.src = me ∧ f'.dst = f.src ∧ f'.seq = f.seq := by
  have eafter : ∀ a b, after c me seq0 (a ++ b) = run c me (after c me seq0 a) b := fun a b => by unfold after; rw [run_append]
  have := answer_after (c := c) (me := me) (Q := False) (G := fun f' => f'.kind = .cts ∧ f'.src = me ∧ f'.dst = f.src ∧ f'.seq = f.seq) (ev := .sendCts f.src (durOf c g) f.seq) rfl (by simp) (ps_nonneg hps) hdur ht hT hheard hsent hend
    (.inl ?_) (fun a b tid due _ h1 h2 h3 => .inl ⟨_, cts_handed (TidK.after c me seq0 _) h1 h2 h3⟩)
  · exact this.resolve_right (fun h => h)
  · rw [eafter]
    show _ ∈ (step c me (after c me seq0 ops) (.rxDone f true g)).pend ∧ (step c me (after c me seq0 ops) (.rxDone f true g)).state = .waitTx
    have hk := TidK.after c me seq0 ops
    have hop := kop_step c me (after c me seq0 ops) (.rxDone f true g)
    generalize step c me (after c me seq0 ops) (.rxDone f true g) = s1 at hop ⊢
    cases hop with
    | quiet _ _ ho' hd' hn hlog ha hst hk' =>
      rcases hd' f g rfl hf with h | h
      · exact absurd hd h
      · omega
    | rts f g s' hf hn hlog hst hk' =>
      refine ⟨(mem_kept.1 (?_ : _ ∈ kept s1.pend)).1, hst⟩
      rw [(hk' hk).2]
      exact List.mem_append_right _ List.mem_cons_self
    | cts f g x p hf' hx hp s' ha hlog hst hk' => rw [hf'.1] at hf; cases hf

/-! ## C110: a CTS in time leads to the DATA frame -/

/-- Pending CTS timeouts belong to RTS frames that were sent, and are not overdue. -/
def CtsHist (c : Cfg) (me : Mac48) (tr : List (ℤ × Op × List Obs)) (s : St) : Prop :=
  ∀ tid d q, (tid, d, Ev.ctsTimeout q) ∈ s.pend →
    (∃ t0 p0, Sent tr t0 (rtsFrame me p0) ∧ p0.seq = q ∧ d = t0 + ctsTimeoutDur c) ∧ s.now ≤ d

theorem CtsHist.step {tr : List (ℤ × Op × List Obs)} {s : St} (hD : 0 ≤ ctsTimeoutDur c) (h : CtsHist c me tr s) (hk : TidK s)
    (o : Op) (ht : onTime c me s o = true) :
    CtsHist c me (tr ++ [((step c me s o).now, o, newObs c me s o)]) (step c me s o) := by
  have old : ∀ tid d q, (tid, d, Ev.ctsTimeout q) ∈ kept s.pend → (∃ t0 p0,
      Sent (tr ++ [((Macro.step c me s o).now, o, newObs c me s o)]) t0 (rtsFrame me p0) ∧ p0.seq = q ∧ d = t0 + ctsTimeoutDur c) ∧
      (Macro.step c me s o).now ≤ d := by
    intro tid d q hm
    obtain ⟨⟨t0, p0, h1, h2⟩, h3⟩ := h tid d q (mem_kept.1 hm).1
    exact ⟨⟨t0, p0, h1.mono (fun x hx => List.mem_append_left _ hx), h2⟩, onTime_le ht (mem_kept.1 hm).1 h3⟩
  intro tid d q hm
  have hm' : (tid, d, Ev.ctsTimeout q) ∈ kept (Macro.step c me s o).pend := mem_kept.2 ⟨hm, rfl⟩
  have hop := kop_step c me s o
  have hlog := log_kop c me s o
  have hnow : ∀ t x, o = .fire t → s.pend.find? (fun e => e.1 = t) = some x → (Macro.step c me s o).now = max s.now x.2.1 :=
    fun t x e hf => by rw [e]; exact now_fire c me s hf
  clear ht
  generalize Macro.step c me s o = s' at hop hlog hnow hm' old ⊢
  cases hop with
  | quiet _ _ ho hd hn hlog ha hst hk' => rw [(hk' hk).2] at hm'; exact old _ _ _ hm'
  | rts f g s' hf hn hlog hst hk' =>
    rw [(hk' hk).2] at hm'
    rcases List.mem_append.1 hm' with h1 | h1
    · exact old _ _ _ h1
    · simp at h1
  | cts f g x p hf hx hp s' ha hlog hst hk' =>
    rw [(hk' hk).2] at hm'
    rcases List.mem_append.1 hm' with h1 | h1
    · exact old _ _ _ (List.mem_filter.1 h1).1
    · simp at h1
  | none t hf => exact old _ _ _ hm'
  | fire t x s' hf hn hlog hst hk' =>
    rw [(hk' hk).2] at hm'
    exact old _ _ _ (List.mem_filter.1 hm').1
  | send t x s' p t' hf hfree hphy hlog' hn hk' =>
    rw [(hk' hk).2] at hm'
    rcases List.mem_append.1 hm' with h1 | h1
    · exact old _ _ _ (List.mem_filter.1 h1).1
    · simp only [List.mem_singleton, Prod.mk.injEq, Ev.ctsTimeout.injEq] at h1
      refine ⟨⟨s'.now, p, ⟨_, List.mem_append_right _ List.mem_cons_self, rfl, ?_⟩, h1.2.2.symm, ?_⟩, ?_⟩
      · rw [List.append_cancel_left (hlog.symm.trans hlog')]
        exact List.mem_cons_self
      · rw [hnow t x rfl hf]; exact h1.2.1
      · rw [hnow t x rfl hf, h1.2.1]
        omega

theorem CtsHist.run (hD : 0 ≤ ctsTimeoutDur c) : ∀ (ops : List Op) {tr : List (ℤ × Op × List Obs)} {s : St}, CtsHist c me tr s →
    TidK s → onTimeRun c me s ops = true → CtsHist c me (tr ++ trace c me s ops) (run c me s ops) := by
  intro ops
  induction ops with
  | nil => intro tr s h _ _; show CtsHist c me (tr ++ []) s; rw [List.append_nil]; exact h
  | cons o ops ih =>
    intro tr s h hk ht
    have ht' : onTime c me s o = true ∧ onTimeRun c me (Macro.step c me s o) ops = true := by simpa [onTimeRun] using ht
    have := ih (h.step hD hk o ht'.1) (hk.step o) ht'.2
    rw [List.append_assoc] at this
    exact this

theorem CtsHist.after (hD : 0 ≤ ctsTimeoutDur c) (seq0 : UInt16) (ops : List Op) (ht : onTimeRun c me (init seq0) ops = true) :
    CtsHist c me (trace c me (init seq0) ops) (after c me seq0 ops) := by
  have h0 : CtsHist c me [] (init seq0) := by intro tid d q h; cases h
  exact h0.run hD ops (TidK.init seq0) ht

/-- The node waits for a CTS until `X`, at least. -/
def Waits (q : UInt16) (X : ℤ) (s : St) : Prop :=
  (∃ x ∈ s.ctsTO, x.seq = q) ∧ ∀ tid d, (tid, d, Ev.ctsTimeout q) ∈ s.pend → X ≤ d

/-- A CTS with this number for this node was received. -/
def IsCts (me : Mac48) (q : UInt16) (o : Op) : Prop := ∃ f g, o = .rxDone f true g ∧ f.kind = .cts ∧ f.dst = me ∧ f.seq = q

/-- Waiting goes on until the CTS is received. -/
theorem waits_step {s : St} (hk : TidK s) {q : UInt16} {X : ℤ} (hw : Waits q X s) (o : Op)
    (hX : (step c me s o).now < X)
    (hs : ∀ p', Obs.handed (rtsFrame me p') ∈ newObs c me s o → p'.seq = q → X ≤ (step c me s o).now + ctsTimeoutDur c)
    (hc : ¬ IsCts me q o) : Waits q X (step c me s o) := by
  have hop := kop_step c me s o
  have hlog := log_kop c me s o
  have hnow : ∀ t x, o = .fire t → s.pend.find? (fun e => e.1 = t) = some x → (step c me s o).now = max s.now x.2.1 :=
    fun t x e hf => by rw [e]; exact now_fire c me s hf
  obtain ⟨hw1, hw2⟩ := hw
  have hw2' : ∀ tid d, (tid, d, Ev.ctsTimeout q) ∈ kept s.pend → X ≤ d := fun tid d h => hw2 tid d (mem_kept.1 h).1
  generalize step c me s o = s' at hop hlog hnow hX hs ⊢
  cases hop with
  | quiet _ _ ho hd hn hlog ha hst hk' =>
    refine ⟨hn ▸ hw1, fun tid d h => hw2' tid d ?_⟩
    rw [← (hk' hk).2]; exact mem_kept.2 ⟨h, rfl⟩
  | rts f g s' hf hn hlog hst hk' =>
    refine ⟨hn ▸ hw1, fun tid d h => ?_⟩
    have h' : (tid, d, Ev.ctsTimeout q) ∈ kept s'.pend := mem_kept.2 ⟨h, rfl⟩
    rw [(hk' hk).2] at h'
    rcases List.mem_append.1 h' with h1 | h1
    · exact hw2' _ _ h1
    · simp at h1
  | cts f g x p hf hx hp s' ha hlog hst hk' =>
    have hq : f.seq ≠ q := fun e => hc ⟨f, g, rfl, hf.1, hf.2, e⟩
    refine ⟨?_, fun tid d h => ?_⟩
    · rw [ha]; exact eraseP_keeps hq hw1
    · have h' : (tid, d, Ev.ctsTimeout q) ∈ kept s'.pend := mem_kept.2 ⟨h, rfl⟩
      rw [(hk' hk).2] at h'
      rcases List.mem_append.1 h' with h1 | h1
      · exact hw2' _ _ (List.mem_filter.1 h1).1
      · simp at h1
  | none t hf => exact ⟨hw1, hw2⟩
  | fire t x s' hf hn hlog hst hk' =>
    refine ⟨?_, fun tid d h => ?_⟩
    · rw [hn]
      split
      · rename_i q' e
        refine eraseP_keeps ?_ hw1
        rintro rfl
        have hm := List.mem_of_find?_eq_some hf
        obtain ⟨x1, x2, x3⟩ := x
        dsimp only at e
        subst e
        have h1 := hw2 x1 x2 hm
        have h2 := hnow t _ rfl hf
        dsimp only at h2
        omega
      · exact hw1
    · have h' : (tid, d, Ev.ctsTimeout q) ∈ kept s'.pend := mem_kept.2 ⟨h, rfl⟩
      rw [(hk' hk).2] at h'
      exact hw2' _ _ (List.mem_filter.1 h').1
  | send t x s' p t' hf hfree hphy hlog' hn hk' =>
    have hp := hs p (by rw [List.append_cancel_left (hlog.symm.trans hlog')]; exact List.mem_cons_self)
    refine ⟨?_, fun tid d h => ?_⟩
    · rw [hn]
      obtain ⟨y, h1, h2⟩ := hw1
      exact ⟨y, List.mem_append_left _ h1, h2⟩
    · have h' : (tid, d, Ev.ctsTimeout q) ∈ kept s'.pend := mem_kept.2 ⟨h, rfl⟩
      rw [(hk' hk).2] at h'
      rcases List.mem_append.1 h' with h1 | h1
      · exact hw2' _ _ (List.mem_filter.1 h1).1
      · simp only [List.mem_singleton, Prod.mk.injEq, Ev.ctsTimeout.injEq] at h1
        rw [h1.2.1, ← hnow t x rfl hf]
        exact hp h1.2.2.symm

theorem waits_run {q : UInt16} {X : ℤ} : ∀ (ops : List Op) (s : St), TidK s →
    Waits q X s → (run c me s ops).now < X →
    (∀ t p', Sent (trace c me s ops) t (rtsFrame me p') → p'.seq = q → X ≤ t + ctsTimeoutDur c) →
    (∀ o ∈ ops, ¬ IsCts me q o) → Waits q X (run c me s ops) := by
  intro ops
  induction ops with
  | nil => intro s _ hw _ _ _; exact hw
  | cons o ops ih =>
    intro s hk hw hX hs hc
    have hn : (step c me s o).now ≤ (run c me (step c me s o) ops).now := now_le_run c me ops _
    have hX' : (run c me (step c me s o) ops).now < X := hX
    have h := waits_step (c := c) (me := me) hk hw o (by omega) (fun p' hf => hs _ p' ⟨_, List.mem_cons_self, rfl, hf⟩)
      (hc o List.mem_cons_self)
    exact ih _ (hk.step o) h hX (fun t f ⟨x, h1, h2⟩ => hs t f ⟨x, List.mem_cons_of_mem _ h1, h2⟩)
      (fun o' h => hc o' (List.mem_cons_of_mem _ h))

/-- From the moment the RTS of a packet is handed over, the node waits for the CTS for the whole timeout. -/
theorem waits_sent (hD : 0 ≤ ctsTimeoutDur c) {seq0 : UInt16} (ops : List Op) (o : Op) (p : Pkt)
    (ht : onTimeRun c me (init seq0) (ops ++ [o]) = true)
    (hs : Obs.handed (rtsFrame me p) ∈ newObs c me (after c me seq0 ops) o)
    (hb : ∀ t0 f0, Sent (trace c me (init seq0) ops) t0 f0 → f0.kind = .rts → f0.seq = p.seq →
      t0 + ctsTimeoutDur c < (after c me seq0 (ops ++ [o])).now ∨ (after c me seq0 (ops ++ [o])).now ≤ t0) :
    Waits p.seq ((after c me seq0 (ops ++ [o])).now + ctsTimeoutDur c) (after c me seq0 (ops ++ [o])) := by
  have e1 : after c me seq0 (ops ++ [o]) = step c me (after c me seq0 ops) o := by unfold after; rw [run_append]; rfl
  have hh := CtsHist.after hD seq0 (ops ++ [o]) ht
  have hk := TidK.after c me seq0 ops
  have key : ∀ tid d, (tid, d, Ev.ctsTimeout p.seq) ∈ (after c me seq0 (ops ++ [o])).pend →
      (after c me seq0 (ops ++ [o])).now + ctsTimeoutDur c ≤ d := by
    intro tid d hm
    obtain ⟨⟨t0, p0, h1, h2, h3⟩, h4⟩ := hh tid d p.seq hm
    rw [trace_append] at h1
    obtain ⟨x, hx, hx1, hx2⟩ := h1
    rcases List.mem_append.1 hx with hx | hx
    · rcases hb t0 _ ⟨x, hx, hx1, hx2⟩ rfl h2 with h | h
      · omega
      · omega
    · rw [List.mem_singleton.1 hx] at hx1
      rw [h3, e1, ← hx1]; exact le_refl _
  have hop := kop_step c me (after c me seq0 ops) o
  have hlog := log_kop c me (after c me seq0 ops) o
  have hun : isRts (.handed (rtsFrame me p)) = true := by simp [isRts, rtsFrame]
  have quiet : (∃ l, (step c me (after c me seq0 ops) o).log = (after c me seq0 ops).log ++ l ∧ ∀ x ∈ l, isRts x = false) → False := by
    rintro ⟨l, h1, h2⟩
    have := h2 _ ((List.append_cancel_left (hlog.symm.trans h1)) ▸ hs)
    rw [hun] at this; cases this
  rw [e1] at key ⊢
  generalize step c me (after c me seq0 ops) o = s' at hop hlog quiet key ⊢
  cases hop with
  | quiet _ _ ho hd hn hlog ha hst hk' => exact absurd hlog quiet
  | rts f g s' hf hn hlog hst hk' => exact absurd hlog quiet
  | cts f g x p hf hx hp s' ha hlog hst hk' => exact absurd hlog quiet
  | none t hf =>
    exfalso
    have : newObs c me (after c me seq0 ops) (.fire t) = [] := List.append_cancel_left (hlog.symm.trans (List.append_nil _).symm)
    rw [this] at hs; cases hs
  | fire t x s' hf hn hlog hst hk' => exact absurd hlog quiet
  | send t x s' p' t' hf hfree hphy hlog' hn hk' =>
    have e2 : newObs c me (after c me seq0 ops) (.fire t) = [.handed (rtsFrame me p')] := List.append_cancel_left (hlog.symm.trans hlog')
    rw [e2] at hs
    have e3 : rtsFrame me p = rtsFrame me p' := by simpa using hs
    have e4 : p'.seq = p.seq := (congrArg Frame.seq e3).symm
    exact ⟨⟨⟨p'.seq, t'⟩, by rw [hn]; exact List.mem_append_right _ List.mem_cons_self, e4⟩, key⟩

/-- The search for the packet of a CTS finds the packet with that number. -/
theorem findPkt_some {q : UInt16} {p : Pkt} : ∀ (l : List Rec) (cur : Option Pkt), (∃ r ∈ l, r.pkt = p) → p.seq = q →
    (∀ r ∈ l, r.pkt.seq = q → r.pkt = p) → findPkt q l cur = some p := by
  intro l
  induction l with
  | nil => rintro cur ⟨r, h, _⟩; cases h
  | cons r l ih =>
    rintro cur ⟨r', h1, h2⟩ hq hu
    unfold findPkt
    split_ifs with h
    · rw [hu r List.mem_cons_self h]
    · refine ih _ ?_ hq (fun x hx => hu x (List.mem_cons_of_mem _ hx))
      rcases List.mem_cons.1 h1 with e | h1
      · exact absurd (by rw [← e, h2]; exact hq) h
      · exact ⟨r', h1, h2⟩

/-- A packet that was reported is settled. -/
theorem done_settled {seq0 : UInt16} {s : St} (k : PkInv seq0 s.sv) (oi : OutInv me s.sv) (hn : s.nextUid ≤ 65536) {p : Pkt}
    (hp : Obs.accepted p ∈ s.log) {ok : Bool} (hd : Obs.done ok p ∈ s.log) : Settled p s := by
  cases ok with
  | true => exact .inl hd
  | false =>
    obtain ⟨p', j, h1, h2, h3⟩ := oi.reason false p hd
    have : p' = p := k.seq_inj hn (k.tout p' j h1).1 hp h2
    exact .inr ⟨j, this ▸ h1, h3⟩

/-- A scheduled DATA frame that is run while the MAC is ready is handed over, or its packet is settled. -/
theorem data_handed {seq0 : UInt16} {s : St} (h : TidK s) (k : PkInv seq0 s.sv) (oi : OutInv me s.sv) (hn : s.nextUid ≤ 65536) {p : Pkt}
    (hp : Obs.accepted p ∈ s.log) {tid : Nat} {due : ℤ} (he : (tid, due, Ev.sendData p) ∈ s.pend)
    (hs : s.state = .idle ∨ s.state = .waitTx) (hf : s.phyTx = none) :
    Obs.handed (dataFrame me p) ∈ newObs c me s (.fire tid) ∨ Settled p s := by
  rcases k.loc p hp with hq | ⟨ok, hd⟩ | ⟨j, hj⟩
  · refine .inl ?_
    have hfi := find_tid h.uniq he
    have hne : s.queue ≠ [] := fun e => by
      have : p ∈ s.queue := hq
      rw [e] at this; cases this
    have e : (Macro.step c me s (.fire tid)).log = s.log ++ [.handed (dataFrame me p)] := by
      rw [fire_eq c me s hfi]
      show (sendData c me p _).log = _
      unfold sendData sendPacket
      rw [if_neg (by exact hne), if_pos (by exact hs), if_pos (by exact hf)]
      dsimp only
      split <;> rfl
    rw [List.append_cancel_left ((log_kop c me s (.fire tid)).symm.trans e)]
    exact List.mem_cons_self
  · exact .inr (done_settled k oi hn hp hd)
  · exact .inr (.inr ⟨j, hj⟩)

/-- A node that sent the RTS of a packet and receives an intact CTS for it before the timeout is over, the first one since then, hands over
the DATA frame of that packet a picosecond later; unless the packet is settled (reported as delivered, or timed out five times).
Conditions: no other frame of its own is on its way out at some time between the CTS and then, and the PHY announces no arrival until then;
at most 65536 packets were accepted (so that sequence numbers identify packets); no other RTS with that number was sent within a timeout
before this one. -/
theorem cts_leads (c : Cfg) (hps : 0 ≤ c.tpn) (hD : 0 ≤ ctsTimeoutDur c) (hdur : ∀ f, 0 ≤ c.frameDur f) (me : Mac48)
    (seq0 : UInt16) (ops later : List Op) (p : Pkt)
    (f : Frame) (g : UInt16) (ht : onTimeRun c me (init seq0) (ops ++ .rxDone f true g :: later) = true)
    (hn : numAccepted (after c me seq0 (ops ++ .rxDone f true g :: later)).log ≤ 65536)
    (hp : Obs.accepted p ∈ (after c me seq0 (ops ++ .rxDone f true g :: later)).log)
    (t T : ℤ) (hs : Sent (trace c me (init seq0) ops) t (rtsFrame me p))
    (hf : f.kind = .cts ∧ f.dst = me ∧ f.seq = p.seq)
    (heT : T = (after c me seq0 ops).now) (hT : T < t + ctsTimeoutDur c)
    (hb : ∀ t0 f0, Sent (trace c me (init seq0) ops) t0 f0 → f0.kind = .rts → f0.seq = p.seq → t0 + ctsTimeoutDur c < t ∨ t ≤ t0)
    (hfirst : ∀ x ∈ trace c me (init seq0) ops, ∀ f' g', x.2.1 = .rxDone f' true g' → f'.kind = .cts → f'.dst = me → f'.seq = p.seq → x.1 < t)
    (hheard : ∀ t, Heard (trace c me (after c me seq0 (ops ++ [.rxDone f true g])) later) t → T + c.ps 1 < t)
    (hsent : ∀ t f', Sent (trace c me (init seq0) (ops ++ .rxDone f true g :: later)) t f' →
      t + c.frameDur f' < T ∨ T + c.ps 1 < t ∨ (t = T + c.ps 1 ∧ f' = dataFrame me p))
    (hend : T + c.ps 1 < (after c me seq0 (ops ++ .rxDone f true g :: later)).now) :
    Sent (trace c me (init seq0) (ops ++ .rxDone f true g :: later)) (T + c.ps 1) (dataFrame me p) ∨
    Obs.done true p ∈ (after c me seq0 (ops ++ .rxDone f true g :: later)).log ∨
    ∃ k, Obs.timedOut p k ∈ (after c me seq0 (ops ++ .rxDone f true g :: later)).log ∧ 5 ≤ k := by
  have eafter : ∀ a b, after c me seq0 (a ++ b) = run c me (after c me seq0 a) b := fun a b => by unfold after; rw [run_append]
  have hnf : (after c me seq0 (ops ++ .rxDone f true g :: later)).nextUid ≤ 65536 := by rw [← numAccepted_after]; exact hn
  have mono : ∀ a b, ops ++ .rxDone f true g :: later = a ++ b → (after c me seq0 a).nextUid ≤ 65536 := by
    intro a b e
    rw [e] at hn
    rw [← numAccepted_after]
    refine le_trans ?_ hn
    rw [eafter]
    have : ∀ (b : List Op) (s : St), numAccepted s.log ≤ numAccepted (run c me s b).log := by
      intro b
      induction b with
      | nil => exact fun s => le_refl _
      | cons o b ih =>
        intro s
        refine le_trans ?_ (ih (step c me s o))
        rw [log_kop, numAccepted_append]
        omega
    exact this b _
  -- settled at some time means settled at the end
  have fin : ∀ a b, ops ++ .rxDone f true g :: later = a ++ b → Settled p (after c me seq0 a) →
      Settled p (after c me seq0 (ops ++ .rxDone f true g :: later)) := by
    intro a b e h
    rw [e, eafter]
    exact h.run b
  -- the packet was accepted before the RTS
  have hacc : ∀ a, (∃ b, ops ++ a = b) → Obs.accepted p ∈ (after c me seq0 (ops ++ a)).log := by
    rintro a -
    rw [eafter]
    refine log_run c me a _ _ ?_
    obtain ⟨p', h4, h5⟩ := (OutInv.after c me seq0 ops).rts _ (Sent.log _ hs) rfl
    have h6 : p'.seq = p.seq := (congrArg Frame.seq h5).symm
    have h4' : Obs.accepted p' ∈ (after c me seq0 (ops ++ .rxDone f true g :: later)).log := by
      rw [eafter]; exact log_run c me _ _ _ h4
    have : p' = p := (PkInv.after c me seq0 _).seq_inj hnf h4' hp h6
    exact this ▸ h4
  -- the node waits
  have hw : ∃ X, Waits p.seq X (after c me seq0 ops) := by
    obtain ⟨x, hx, rfl, hx2⟩ := hs
    obtain ⟨ops1, o, ops2, eo, ex⟩ := mem_trace ops (init seq0) x hx
    have et : x.1 = (after c me seq0 (ops1 ++ [o])).now := by rw [ex, eafter]; rfl
    have hs : Obs.handed (rtsFrame me p) ∈ newObs c me (after c me seq0 ops1) o := by rw [ex] at hx2; exact hx2
    rw [et] at hT hb hfirst
    subst eo
    have e0 : ops1 ++ o :: ops2 = (ops1 ++ [o]) ++ ops2 := by simp
    rw [onTimeRun_append, Bool.and_eq_true, e0, onTimeRun_append, Bool.and_eq_true] at ht
    have hw := waits_sent hD ops1 o p ht.1.1 hs (fun t0 f0 h1 => hb t0 f0 (by
      rw [show ops1 ++ o :: ops2 = ops1 ++ (o :: ops2) from rfl, trace_append]
      exact h1.mono (fun x hx => List.mem_append_left _ hx)))
    refine ⟨(after c me seq0 (ops1 ++ [o])).now + ctsTimeoutDur c, ?_⟩
    have e9 : after c me seq0 (ops1 ++ o :: ops2) = run c me (after c me seq0 (ops1 ++ [o])) ops2 := by rw [e0, eafter]
    rw [e9]
    refine waits_run ops2 _ (TidK.after c me seq0 (ops1 ++ [o])) hw ?_ ?_ ?_
    · rw [← eafter, ← e0, ← heT]; exact hT
    · rintro t0 p0 ⟨x, h3, h4, -⟩ _
      have := trace_ge _ _ x h3
      omega
    · rintro o' ho' ⟨f', g', rfl, h1, h2, h3⟩
      obtain ⟨y, hy, hy1⟩ : ∃ y ∈ trace c me (after c me seq0 (ops1 ++ [o])) ops2, y.2.1 = .rxDone f' true g' := by
        obtain ⟨a, b, rfl⟩ := List.append_of_mem ho'
        rw [trace_append]
        exact ⟨_, List.mem_append_right _ List.mem_cons_self, rfl⟩
      have h5 := trace_ge _ _ y hy
      have h6 := hfirst y (by rw [e0, trace_append]; exact List.mem_append_right _ hy) f' g' hy1 h1 h2 h3
      omega
  obtain ⟨X, hw, -⟩ := hw
  have hk := TidK.after c me seq0 ops
  have key : (((after c me seq0 ops).nextTid, (after c me seq0 ops).now + c.ps 1, Ev.sendData p) ∈
        (after c me seq0 (ops ++ [.rxDone f true g])).pend ∧ (after c me seq0 (ops ++ [.rxDone f true g])).state = .waitTx) ∨
      Settled p (after c me seq0 (ops ++ .rxDone f true g :: later)) := by
    have hk1 := PkInv.after c me seq0 ops
    have hb1 := Basic.after c me seq0 ops
    have hn1 := mono ops _ rfl
    have ha : Obs.accepted p ∈ (after c me seq0 ops).log := by
      have := hacc [] ⟨_, rfl⟩
      rwa [List.append_nil] at this
    rcases hk1.kept p ha with h | ⟨ok, h⟩
    · refine .inl ?_
      have hfp : findPkt f.seq (after c me seq0 ops).recs (after c me seq0 ops).pktData = some p :=
        findPkt_some _ _ h hf.2.2.symm (fun r hr e => hk1.seq_inj hn1 (hb1.recs r hr).1 ha (e.trans hf.2.2))
      rw [eafter]
      show _ ∈ (step c me (after c me seq0 ops) (.rxDone f true g)).pend ∧ (step c me (after c me seq0 ops) (.rxDone f true g)).state = .waitTx
      have hop := kop_step c me (after c me seq0 ops) (.rxDone f true g)
      clear hend hheard hsent fin mono hn hp hnf ht
      generalize step c me (after c me seq0 ops) (.rxDone f true g) = s1 at hop ⊢
      cases hop with
      | quiet _ _ ho' hd' hn hlog ha hst hk' =>
        exfalso
        rcases ha f g rfl hf.1 hf.2.1 with h | h
        · obtain ⟨x, h1, h2⟩ := hw
          exact h x h1 (h2.trans hf.2.2.symm)
        · rw [hfp] at h; cases h
      | rts f g s' hf' hn hlog hst hk' => rw [hf'.1] at hf; exact absurd hf.1 (by simp)
      | cts f g x p' hf' hx hp' s' ha hlog hst hk' =>
        rw [hfp] at hp'
        cases hp'
        refine ⟨(mem_kept.1 (?_ : _ ∈ kept s1.pend)).1, hst⟩
        rw [(hk' hk).2]
        exact List.mem_append_right _ List.mem_cons_self
    · exact .inr (fin ops _ rfl (done_settled hk1 (OutInv.after c me seq0 ops) hn1 ha h))
  have main := answer_after (c := c) (me := me) (G := fun f' => f' = dataFrame me p) (ev := .sendData p) rfl (by simp) (ps_nonneg hps) hdur
    ht heT hheard hsent hend key (fun a b tid due e h1 h2 h3 => ?_)
  · rcases main with ⟨f', h1, rfl⟩ | h
    · exact .inl h1
    · exact .inr h
  have e3 : ops ++ .rxDone f true g :: later = (ops ++ [.rxDone f true g] ++ a) ++ b := by rw [e]; simp
  rcases data_handed (c := c) (TidK.after c me seq0 _) (PkInv.after c me seq0 _) (OutInv.after c me seq0 _) (mono _ _ e3) (by
    have := hacc (.rxDone f true g :: a) ⟨_, rfl⟩
    simpa using this) h1 h2 h3 with h | h
  · exact .inl ⟨_, h⟩
  · exact .inr (fin _ _ e3 h)

/-! ## Examples -/

theorem exCfg_cts : 0 ≤ ctsTimeoutDur (exCfg true 5) := by decide +kernel

/-- The sender of an RTS up to the end of the reception of the CTS. -/
def exRtsOps : List Op := [.enqueue exBody exB 0] ++ fires [0, 1, 2, 3] ++ [.advance 201, .rxStart, .advance 1189]

end Thz.Macro.Rts
