import Verif.ClientProps2

/-!
# The client's back-off (C44), waiting for an ACK (C77), broadcast packets (C80), timers in the future (C82)
-/

namespace Thz.Client

open Thz Thz.Central
open Thz.Nano (Body Kind bcast)

variable {c : Cfg} {me : Mac48}

/-! ## C44: back-off ends -/

/-- Nothing in this piece of log restarts or removes a packet's back-off: no failure is charged, no packet settled. -/
def Quiet (l : List Obs) : Prop := ∀ o ∈ l, (∀ p r, o ≠ .timedOut p r) ∧ ∀ ok p, o ≠ .done ok p

/-- CTAs to contend on. -/
def isCta (c : Cfg) (me : Mac48) : Obs → Bool
  | .rx _ f => f.kind = .cta ∧ (c.ways = 3 → f.flags ≠ 1 ∧ ¬ (f.flags = 2 ∧ f.dst = me))
  | _ => false

/-- How many of them. -/
def ctas (c : Cfg) (me : Mac48) (l : List Obs) : Nat := l.countP (isCta c me)

/-- The first record with the sequence number in back-off has `n` CTAs to go. -/
def Left (s : St) (n : Nat) : Prop := ∃ pre r rest, s.recs = pre ++ r :: rest ∧ (∀ x ∈ pre, x.pkt.seq ≠ s.backoffSeq) ∧
  r.pkt.seq = s.backoffSeq ∧ lasts r.life = n

/-- Nothing relevant happened, but packets may have been added. -/
structure Still (s s' : St) : Prop where
  recs : ∃ new, s'.recs = s.recs ++ new
  act : s'.backoffActive = s.backoffActive
  seq : s'.backoffSeq = s.backoffSeq
  queue : ∃ new, s'.queue = s.queue ++ new

/-- The outcome of a step: what it logs, and what happens to the back-off if that is quiet. -/
structure Outcome (c : Cfg) (me : Mac48) (s s' : St) (x : List Obs) : Prop where
  log : s'.log = s.log ++ x
  still : Quiet x → s.queue ≠ [] → ctas c me x = 0 → Still s s'
  one : ctas c me x ≤ 1
  tick : Quiet x → s.queue ≠ [] → ctas c me x = 1 → s'.backoffSeq = s.backoffSeq ∧ s'.queue = s.queue ∧
    (s.backoffActive = false → s'.backoffActive = false) ∧
    (s.backoffActive = true → ∀ n, Left s n → if n = 1 then s'.backoffActive = false else
      s'.backoffActive = true ∧ Left s' (n - 1))

theorem Still.refl (s : St) : Still s s := ⟨⟨[], by simp⟩, rfl, rfl, [], by simp⟩

theorem Still.left {s s' : St} {n : Nat} (h : Still s s') (hl : Left s n) : Left s' n := by
  obtain ⟨pre, r, rest, h1, h2, h3, h4⟩ := hl
  obtain ⟨new, hn⟩ := h.recs
  refine ⟨pre, r, rest ++ new, by rw [hn, h1]; simp, ?_, ?_, h4⟩
  · rw [h.seq]; exact h2
  · rw [h.seq]; exact h3

/-- A step that changes nothing relevant and receives nothing. -/
theorem Outcome.of_still {s s' : St} (x : List Obs) (hl : s'.log = s.log ++ x) (hx : ctas c me x = 0) (h : Still s s') :
    Outcome c me s s' x :=
  ⟨hl, fun _ _ _ => h, by omega, fun _ _ h => by omega⟩

/-- A step that is not quiet. -/
theorem Outcome.of_loud {s s' : St} (x : List Obs) (hl : s'.log = s.log ++ x) (hx : ctas c me x ≤ 1) (h : ¬ Quiet x) :
    Outcome c me s s' x :=
  ⟨hl, fun q => absurd q h, hx, fun q => absurd q h⟩

theorem chargeLoop_cases (limit q : UInt16) : ∀ (rest pre : List Rec) (s : St),
    ((∀ x ∈ rest, x.pkt.seq ≠ q) ∧ chargeLoop c limit q pre rest s = { s with recs := pre ++ rest }) ∨
    ∃ p r y, (chargeLoop c limit q pre rest s).log = s.log ++ Obs.timedOut p r :: y ∧ ctas c me y = 0
  | [], pre, s => .inl ⟨by simp, by unfold chargeLoop; rw [List.append_nil]⟩
  | r :: rest, pre, s => by
    unfold chargeLoop
    split
    · right
      unfold charge
      dsimp only
      split
      · exact ⟨r.pkt, r.retry + 1, [.gaveUp s.now r.pkt], List.append_assoc _ [_] [_], rfl⟩
      · exact ⟨r.pkt, r.retry + 1, [], rfl, rfl⟩
    · rename_i hq
      rcases chargeLoop_cases limit q rest (pre ++ [r]) s with ⟨h1, h2⟩ | h
      · left
        refine ⟨?_, by rw [h2, List.append_assoc]; rfl⟩
        intro x hx
        rcases List.mem_cons.1 hx with h | h
        · rw [h]; exact hq
        · exact h1 x h
      · exact .inr h

theorem ctsTimeout_cases (q : UInt16) (s : St) : ctsTimeout c q s = { s with state := .idle } ∨
    ∃ p r y, (ctsTimeout c q s).log = s.log ++ Obs.timedOut p r :: y ∧ ctas c me y = 0 := by
  unfold ctsTimeout
  dsimp only
  rcases chargeLoop_cases (c := c) (me := me) c.rtsRetryLimit q s.recs [] { s with state := .idle } with ⟨h1, h2⟩ | h
  · left
    rw [h2, if_neg (by simpa using h1)]
    rfl
  · right
    split <;> exact h

theorem not_quiet {l x y : List Obs} {p : Pkt} {r : UInt16} : ¬ Quiet (x ++ Obs.timedOut p r :: y) := by
  intro h
  exact (h (.timedOut p r) (by simp)).1 p r rfl

theorem doneLoop_cases (ok : Bool) (q : UInt16) : ∀ (rest pre : List Rec) (s : St),
    ((doneLoop ok q pre rest s).log = s.log ∧ (doneLoop ok q pre rest s).recs = pre ++ rest ∧
      (doneLoop ok q pre rest s).queue = s.queue ∧ (doneLoop ok q pre rest s).backoffActive = s.backoffActive ∧
      (doneLoop ok q pre rest s).backoffSeq = s.backoffSeq) ∨
    ∃ p y, (doneLoop ok q pre rest s).log = s.log ++ Obs.done ok p :: y ∧ ctas c me y = 0
  | [], pre, s => .inl (by unfold doneLoop; simp)
  | r :: rest, pre, s => by
    have hs : ∀ r : Rec, (settle ok r s).log = s.log ++ [Obs.done ok r.pkt] := by
      intro r; unfold settle; split
      · rename_i h; rw [h]; rfl
      · rename_i h; rw [Bool.not_eq_true] at h; rw [h]; rfl
    unfold doneLoop
    split
    · split
      · left; exact ⟨rfl, rfl, rfl, rfl, rfl⟩
      · right
        match rest with
        | [] => exact ⟨r.pkt, [], hs r, rfl⟩
        | r' :: rest' =>
          dsimp only
          rcases doneLoop_cases ok q rest' (pre ++ [r']) (settle ok r s) with h | ⟨p, y, h, hy⟩
          · exact ⟨r.pkt, [], by rw [h.1, hs], rfl⟩
          · refine ⟨r.pkt, Obs.done ok p :: y, by rw [h, hs, List.append_assoc]; rfl, ?_⟩
            unfold ctas at *; rw [List.countP_cons, hy]; rfl
    · rcases doneLoop_cases ok q rest (pre ++ [r]) s with h | h
      · left; rw [List.append_assoc] at h; exact h
      · exact .inr h

/-- `DecreaseBackoff` counts down. -/
theorem tickLoop_left (q : UInt16) : ∀ (rest pre : List Rec) (s : St) (r : Rec) (a z : List Rec), rest = a ++ r :: z →
    (∀ x ∈ a, x.pkt.seq ≠ q) → r.pkt.seq = q →
    tickLoop q pre rest s = { s with
      recs := pre ++ a ++ { r with life := r.life - 1 } :: z
      backoffActive := if r.life - 1 = 0 then false else s.backoffActive }
  | rest, pre, s, r, [], z, h, _, hr => by
    rw [h]
    show tickLoop q pre (r :: z) s = _
    unfold tickLoop; rw [if_pos hr]; simp
  | rest, pre, s, r, x :: a, z, h, ha, hr => by
    rw [h]
    show tickLoop q pre (x :: (a ++ r :: z)) s = _
    unfold tickLoop
    rw [if_neg (ha x List.mem_cons_self), tickLoop_left q (a ++ r :: z) (pre ++ [x]) s r a z rfl
      (fun y hy => ha y (List.mem_cons_of_mem _ hy)) hr]
    simp

theorem tickLoop_none (q : UInt16) : ∀ (rest pre : List Rec) (s : St), (tickLoop q pre rest s).queue = s.queue ∧
    (tickLoop q pre rest s).backoffSeq = s.backoffSeq ∧ (tickLoop q pre rest s).log = s.log
  | [], pre, s => by unfold tickLoop; exact ⟨rfl, rfl, rfl⟩
  | r :: rest, pre, s => by
    unfold tickLoop
    split
    · exact ⟨rfl, rfl, rfl⟩
    · exact tickLoop_none q rest (pre ++ [r]) s

/-- What `DecreaseBackoff` does in back-off. -/
theorem decrease_left (s : St) (ha : s.backoffActive = true) (n : Nat) (h : Left s n) :
    if n = 1 then (decreaseBackoff s).backoffActive = false else
      (decreaseBackoff s).backoffActive = true ∧ Left (decreaseBackoff s) (n - 1) := by
  obtain ⟨pre, r, rest, h1, h2, h3, h4⟩ := h
  have e := tickLoop_left s.backoffSeq s.recs [] s r pre rest h1 h2 h3
  have e : decreaseBackoff s = _ := e
  rw [e]
  by_cases hz : r.life - 1 = 0
  · have := lasts_last r.life hz
    rw [if_pos (by omega)]
    simp [hz]
  · have hp := lasts_pred r.life hz
    have hpos : 0 < lasts (r.life - 1) := by
      unfold lasts
      rw [if_neg hz]
      have : (r.life - 1).toNat ≠ 0 := fun h => hz (UInt16.toNat_inj.1 h)
      omega
    rw [if_neg (by omega)]
    refine ⟨by simp [hz, ha], ?_⟩
    exact ⟨pre, { r with life := r.life - 1 }, rest, by simp, h2, h3, by show lasts (r.life - 1) = n - 1; omega⟩

/-- The part of an ordinary CTA's processing that matters: after `DecreaseBackoff` or a contention. -/
structure Tick (s s' : St) : Prop where
  log : s'.log = s.log
  seq : s'.backoffSeq = s.backoffSeq
  queue : s'.queue = s.queue
  off : s.backoffActive = false → s'.backoffActive = false
  on : s.backoffActive = true → ∀ n, Left s n → if n = 1 then s'.backoffActive = false else
    s'.backoffActive = true ∧ Left s' (n - 1)

theorem tick_decrease (s : St) (ha : s.backoffActive = true) : Tick s (decreaseBackoff s) := by
  have h := tickLoop_none s.backoffSeq s.recs [] s
  exact ⟨h.2.2, h.2.1, h.1, fun h => (by rw [ha] at h; cases h), fun _ n hn => decrease_left s ha n hn⟩

theorem tick_contend (f : Frame) (s : St) : Tick s (contend c f s) := by
  unfold contend
  split
  · rename_i h; exact tick_decrease s h
  · rename_i h
    dsimp only
    split
    · exact ⟨rfl, rfl, rfl, fun h => h, fun h' => absurd h' h⟩
    · split
      · exact ⟨rfl, rfl, rfl, fun h => h, fun h' => absurd h' h⟩
      · exact ⟨rfl, rfl, rfl, fun h => h, fun h' => absurd h' h⟩

theorem outcome_cta {s s' : St} (f : Frame) (hc : isCta c me (.rx s.now f) = true)
    (h : s.queue ≠ [] → Tick (s.emit (.rx s.now f)) s') (he : s.queue = [] → s'.log = s.log ++ [.rx s.now f]) :
    Outcome c me s s' [.rx s.now f] := by
  have h1 : ctas c me [.rx s.now f] = 1 := by unfold ctas; simp [hc]
  refine ⟨?_, fun _ _ h2 => by omega, by omega, fun _ hq _ => ?_⟩
  · by_cases hq : s.queue = []
    · exact he hq
    · exact (h hq).log
  · have t := h hq
    exact ⟨t.seq, t.queue, t.off, t.on⟩

theorem outcome_receiveCta1 (f : Frame) (s : St) (hw : c.ways = 1) (hk : f.kind = .cta) :
    Outcome c me s (receiveCta1 c (s.emit (.rx s.now f))) [.rx s.now f] := by
  refine outcome_cta f (by simp [isCta, hk, hw]) ?_ ?_
  · intro hq
    unfold receiveCta1
    dsimp only
    rw [if_neg (show ¬ (s.emit (.rx s.now f)).queue = [] from hq)]
    split
    · rename_i ha
      have h := tick_decrease { s.emit (.rx s.now f) with state := .idle } ha
      exact ⟨h.log, h.seq, h.queue, h.off, h.on⟩
    · rename_i ha
      split
      · exact ⟨rfl, rfl, rfl, fun h => h, fun h' => absurd h' ha⟩
      · exact ⟨rfl, rfl, rfl, fun h => h, fun h' => absurd h' ha⟩
  · intro hq
    unfold receiveCta1
    dsimp only
    rw [if_pos (show (s.emit (.rx s.now f)).queue = [] from hq)]; rfl

/-- A CTA that finds an RTS unanswered. -/
theorem late_cta (f : Frame) (s1 : St) (q : UInt16) :
    Tick s1 (contend c f { ctsTimeout c q s1 with rtsAnswered := true }) ∨
    ∃ p r y, (contend c f { ctsTimeout c q s1 with rtsAnswered := true }).log = s1.log ++ Obs.timedOut p r :: y ∧
      ctas c me y = 0 := by
  rcases ctsTimeout_cases (c := c) (me := me) q s1 with e | ⟨p, r, y, h1, h2⟩
  · left
    rw [e]
    have t := tick_contend (c := c) f { s1 with state := .idle, rtsAnswered := true }
    exact ⟨t.log, t.seq, t.queue, t.off, t.on⟩
  · right
    exact ⟨p, r, y, (tick_contend (c := c) f { ctsTimeout c q s1 with rtsAnswered := true }).log.trans h1, h2⟩

theorem outcome_receiveCta3 (f : Frame) (g : UInt16) (s : St) (hw : c.ways = 3) (hk : f.kind = .cta) :
    ∃ x, Outcome c me s (receiveCta3 c me f g (s.emit (.rx s.now f))) x := by
  unfold receiveCta3
  dsimp only
  split
  · rename_i hf
    exact ⟨_, .of_still [.rx s.now f] rfl (by unfold ctas; simp [isCta, hk, hw, hf]) ⟨⟨[], by simp [St.sched, St.emit]⟩, rfl, rfl, [], by simp [St.sched, St.emit]⟩⟩
  · rename_i hf
    split
    · rename_i hf2
      exact ⟨_, .of_still [.rx s.now f] rfl (by unfold ctas; simp [isCta, hk, hw, hf2]) ⟨⟨[], by simp [St.emit]⟩, rfl, rfl, [], by simp [St.emit]⟩⟩
    · rename_i hf2
      have hc : isCta c me (.rx s.now f) = true := by
        simp only [isCta, decide_eq_true_eq]; exact ⟨hk, fun _ => ⟨hf, hf2⟩⟩
      split
      · rename_i hq
        exact ⟨_, outcome_cta f hc (fun h => absurd hq h) (fun _ => rfl)⟩
      · split
        · rename_i hr
          rcases late_cta (c := c) (me := me) f { s.emit (.rx s.now f) with state := .idle } s.lastSeq with t | ⟨p, r, y, h1, h2⟩
          · exact ⟨_, outcome_cta f hc (fun _ => ⟨t.log, t.seq, t.queue, t.off, t.on⟩)
              (fun hq => absurd hq (by assumption))⟩
          · refine ⟨_, .of_loud (Obs.rx s.now f :: Obs.timedOut p r :: y) (h1.trans (List.append_assoc _ [_] _)) ?_
              (not_quiet (l := []) (x := [.rx s.now f]))⟩
            unfold ctas at *
            rw [List.countP_cons, List.countP_cons, h2, hc]
            simp [isCta]
        · refine ⟨_, outcome_cta f hc (fun hq => ?_) (fun hq => absurd hq (by assumption))⟩
          have t := tick_contend (c := c) f { s.emit (.rx s.now f) with state := .idle }
          exact ⟨t.log, t.seq, t.queue, t.off, t.on⟩

theorem still_sendPacket (f : Frame) (m : Nat) (s : St) : Still s (sendPacket c f m s).2 ∧
    ∃ x, (sendPacket c f m s).2.log = s.log ++ x ∧ ctas c me x = 0 := by
  unfold sendPacket
  split
  · split
    · exact ⟨⟨⟨[], by simp [St.sched, St.emit]⟩, rfl, rfl, [], by simp [St.sched, St.emit]⟩, [_], rfl, rfl⟩
    · exact ⟨⟨⟨[], by simp [St.emit]⟩, rfl, rfl, [], by simp [St.emit]⟩, [_], rfl, rfl⟩
  · exact ⟨⟨⟨[], by simp [St.emit]⟩, rfl, rfl, [], by simp [St.emit]⟩, [_], rfl, rfl⟩

theorem still_sendData (p : Pkt) (m : Nat) (s : St) : Still s (sendData c me p m s) ∧
    ∃ x, (sendData c me p m s).log = s.log ++ x ∧ ctas c me x = 0 := by
  unfold sendData
  dsimp only
  split
  · exact ⟨⟨⟨[], by simp⟩, rfl, rfl, [], by simp⟩, [], by simp, rfl⟩
  · have h := still_sendPacket (c := c) (me := me) (dataFrame me p) m { s with state := .waitTx }
    generalize sendPacket c (dataFrame me p) m { s with state := .waitTx } = r at h
    obtain ⟨ok, s1⟩ := r
    obtain ⟨⟨h1, h2, h3, h4⟩, h5⟩ := h
    cases ok
    · exact ⟨⟨h1, h2, h3, h4⟩, h5⟩
    · exact ⟨⟨h1, h2, h3, h4⟩, h5⟩

theorem still_results (s : St) : Still s (resultsRecord s) ∧ ∃ x, (resultsRecord s).log = s.log ++ x ∧ ctas c me x = 0 := by
  unfold resultsRecord
  split
  · exact ⟨⟨⟨[], (List.append_nil _).symm⟩, rfl, rfl, [], (List.append_nil _).symm⟩, [], (List.append_nil _).symm, rfl⟩
  · rename_i r _ _
    exact ⟨⟨⟨[], (List.append_nil _).symm⟩, rfl, rfl, [], (List.append_nil _).symm⟩, [.row r], rfl, rfl⟩

theorem still_sendPacketDone (f : Frame) (s : St) : Still s (sendPacketDone f s) ∧
    ∃ x, (sendPacketDone f s).log = s.log ++ x ∧ ctas c me x = 0 := by
  unfold sendPacketDone
  dsimp only
  split
  · exact ⟨⟨⟨[], (List.append_nil _).symm⟩, rfl, rfl, [], (List.append_nil _).symm⟩, [.txEnd f], rfl, rfl⟩
  · split <;> exact ⟨⟨⟨[], (List.append_nil _).symm⟩, rfl, rfl, [], (List.append_nil _).symm⟩, [.txEnd f], rfl, rfl⟩

theorem grantLoop_still (f : Frame) : ∀ (rest : List Rec) (s : St), (grantLoop c f rest s).recs = s.recs ∧
    (grantLoop c f rest s).queue = s.queue ∧ (grantLoop c f rest s).backoffActive = s.backoffActive ∧
    (grantLoop c f rest s).backoffSeq = s.backoffSeq ∧ (grantLoop c f rest s).log = s.log
  | [], s => by unfold grantLoop; exact ⟨rfl, rfl, rfl, rfl, rfl⟩
  | r :: rest, s => by
    unfold grantLoop
    split
    · exact grantLoop_still f rest _
    · exact grantLoop_still f rest s

theorem outcome_rxDone (hw : c.ways = 1 ∨ c.ways = 3) (f : Frame) (ok : Bool) (g : UInt16) (s : St) :
    ∃ x, Outcome c me s (receivePacketDone c me f ok g s) x := by
  have other : ∀ s' : St, f.kind ≠ .cta → s'.log = s.log ++ [.rx s.now f] → s'.recs = s.recs → s'.queue = s.queue →
      s'.backoffActive = s.backoffActive → s'.backoffSeq = s.backoffSeq → ∃ x, Outcome c me s s' x := by
    intro s' hf h1 h2 h3 h4 h5
    exact ⟨_, .of_still [.rx s.now f] h1 (by unfold ctas; simp [isCta, hf]) ⟨⟨[], by simp [h2]⟩, h4, h5, [], by simp [h3]⟩⟩
  unfold receivePacketDone
  split
  · split
    · exact ⟨[], .of_still [] (by simp) rfl (Still.refl s)⟩
    · dsimp only
      split
      · rename_i hf
        split
        · rename_i hw1; exact ⟨_, outcome_receiveCta1 f s hw1 hf⟩
        · split
          · rename_i hw3; exact outcome_receiveCta3 f g s hw3 hf
          · rename_i h1 h3; rcases hw with h | h
            · exact absurd h h1
            · exact absurd h h3
      · rename_i hf
        have hne : f.kind ≠ .cta := by rw [hf]; decide
        unfold receiveCts
        dsimp only
        split
        · have h := grantLoop_still (c := c) f s.recs
            { s.emit (.rx s.now f) with state := .idle, ctsReceived := s.ctsReceived + 1 }
          exact other _ hne h.2.2.2.2 h.1 h.2.1 h.2.2.1 h.2.2.2.1
        · exact other _ hne rfl rfl rfl rfl rfl
      · rename_i hf
        have hne : f.kind ≠ .cta := by rw [hf]; decide
        unfold receiveAck
        dsimp only
        split
        · split <;> exact other _ hne rfl rfl rfl rfl rfl
        · exact other _ hne rfl rfl rfl rfl rfl
      · rename_i hf _ _
        exact other _ hf rfl rfl rfl rfl rfl
  · exact ⟨[], .of_still [] (by simp) rfl (Still.refl s)⟩

theorem outcome_step (hw : c.ways = 1 ∨ c.ways = 3) (s : St) (o : Op) : ∃ x, Outcome c me s (step c me s o) x := by
  cases o with
  | enqueue bd dst =>
    show ∃ x, Outcome c me s (enqueue c bd dst s).2 x
    unfold enqueue
    split
    · exact ⟨_, .of_still [.dropped bd] rfl rfl ⟨⟨[], by simp [St.emit]⟩, rfl, rfl, [], by simp [St.emit]⟩⟩
    · exact ⟨_, .of_still [.accepted _] rfl rfl ⟨⟨[_], rfl⟩, rfl, rfl, [_], rfl⟩⟩
  | rxStart =>
    show ∃ x, Outcome c me s (receivePacket s) x
    refine ⟨[], .of_still [] ?_ rfl ⟨⟨[], ?_⟩, ?_, ?_, [], ?_⟩⟩ <;>
    · unfold receivePacket
      cases s.sendDataEv <;> dsimp only <;> split <;> simp [St.cancel]
  | rxDone f ok g => exact outcome_rxDone hw f ok g s
  | advance d => exact ⟨[], .of_still [] (List.append_nil _).symm rfl ⟨⟨[], (List.append_nil _).symm⟩, rfl, rfl, [], (List.append_nil _).symm⟩⟩
  | fire tid =>
    show ∃ x, Outcome c me s (fire c me tid s) x
    unfold fire
    split
    · exact ⟨[], .of_still [] (by simp) rfl (Still.refl s)⟩
    · rename_i t due e hf
      have lift : ∀ s2 : St, (Still { s with pend := s.pend.filter (fun e => e.1 ≠ tid), now := max s.now due } s2 ∧
          ∃ x, s2.log = s.log ++ x ∧ ctas c me x = 0) → ∃ x, Outcome c me s s2 x := by
        rintro s2 ⟨⟨h1, h2, h3, h4⟩, x, h5, h6⟩
        exact ⟨x, .of_still x h5 h6 ⟨h1, h2, h3, h4⟩⟩
      cases e with
      | dummyRts f => exact lift _ (still_sendPacket f 0 _)
      | sendRts p =>
        refine lift _ ?_
        have h := still_sendPacket (c := c) (me := me) (rtsFrame me s.nextId p) 0
          { s with pend := s.pend.filter (fun e => e.1 ≠ tid), now := max s.now due, nextId := s.nextId + 1 }
        obtain ⟨⟨h1, h2, h3, h4⟩, h5⟩ := h
        exact ⟨⟨h1, h2, h3, h4⟩, h5⟩
      | sendData p m => exact lift _ (still_sendData p m _)
      | ackTimeout q =>
        show ∃ x, Outcome c me s (ackTimeout c q _) x
        unfold ackTimeout
        dsimp only
        rcases chargeLoop_cases (c := c) (me := me) c.dataRetryLimit q s.recs []
          { s with pend := s.pend.filter (fun e => e.1 ≠ tid), now := max s.now due, state := .idle,
                   ackTO := s.ackTO.eraseP (fun t => t.seq = q) } with ⟨_, h2⟩ | ⟨p, r, y, h1, h2⟩
        · rw [h2]
          exact ⟨[], .of_still [] (List.append_nil _).symm rfl ⟨⟨[], by simp⟩, rfl, rfl, [], (List.append_nil _).symm⟩⟩
        · refine ⟨_, .of_loud (Obs.timedOut p r :: y) h1 ?_ (not_quiet (l := []) (x := []))⟩
          unfold ctas at *
          rw [List.countP_cons, h2]; simp [isCta]
      | sendDataDone ok q =>
        show ∃ x, Outcome c me s (sendDataDone ok q _) x
        unfold sendDataDone
        rcases doneLoop_cases (c := c) (me := me) ok q s.recs []
          { s with pend := s.pend.filter (fun e => e.1 ≠ tid), now := max s.now due } with ⟨h1, h2, h3, h4, h5⟩ | ⟨p, y, h1, h2⟩
        · exact ⟨[], .of_still [] (h1.trans (List.append_nil _).symm) rfl
            ⟨⟨[], h2.trans (List.append_nil _).symm⟩, h4, h5, [], h3.trans (List.append_nil _).symm⟩⟩
        · refine ⟨_, .of_loud (Obs.done ok p :: y) h1 ?_ (fun h => (h _ List.mem_cons_self).2 ok p rfl)⟩
          unfold ctas at *
          rw [List.countP_cons, h2]; simp [isCta]
      | results =>
        refine lift _ (still_results _)
      | phyDone f => exact lift _ (still_sendPacketDone f _)

/-- Counting down over a piece of run. -/
theorem countdown (hw : c.ways = 1 ∨ c.ways = 3) (ops : List Op) : ∀ (s : St) (x : List Obs),
    (run c me s ops).log = s.log ++ x → Quiet x → s.queue ≠ [] →
    (s.backoffActive = false → (run c me s ops).backoffActive = false) ∧
    (s.backoffActive = true → ∀ n, Left s n → 0 < n →
      ((run c me s ops).backoffActive = true ↔ ctas c me x < n)) := by
  induction ops with
  | nil =>
    intro s x hx _ _
    have : x = [] := by
      have h : s.log = s.log ++ x := hx
      simpa using h.symm
    subst this
    exact ⟨fun h => h, fun h n _ hn => ⟨fun _ => hn, fun _ => h⟩⟩
  | cons o ops ih =>
    intro s x hx hq hne
    obtain ⟨x1, h1⟩ := outcome_step (me := me) hw s o
    have hrun : run c me s (o :: ops) = run c me (step c me s o) ops := rfl
    obtain ⟨x2, h2⟩ : ∃ x2, (run c me (step c me s o) ops).log = (step c me s o).log ++ x2 := by
      clear ih hx hrun h1
      generalize step c me s o = s1
      clear hne
      induction ops generalizing s1 with
      | nil => exact ⟨[], (List.append_nil _).symm⟩
      | cons o ops ih =>
        obtain ⟨y1, g1⟩ := outcome_step (me := me) hw s1 o
        obtain ⟨y2, g2⟩ := ih (step c me s1 o)
        exact ⟨y1 ++ y2, by
          show (run c me (step c me s1 o) ops).log = _
          rw [g2, g1.log, List.append_assoc]⟩
    have ex : x = x1 ++ x2 := by
      rw [hrun, h2, h1.log, List.append_assoc] at hx
      exact (List.append_cancel_left hx).symm
    have q1 : Quiet x1 := fun o ho => hq o (by rw [ex]; exact List.mem_append_left _ ho)
    have q2 : Quiet x2 := fun o ho => hq o (by rw [ex]; exact List.mem_append_right _ ho)
    have ec : ctas c me x = ctas c me x1 + ctas c me x2 := by rw [ex]; exact List.countP_append
    rw [hrun]
    rcases Nat.lt_or_ge 0 (ctas c me x1) with hc | hc
    · have hc1 : ctas c me x1 = 1 := by have := h1.one; omega
      obtain ⟨t1, t2, t3, t4⟩ := h1.tick q1 hne hc1
      have := ih (step c me s o) x2 h2 q2 (by rw [t2]; exact hne)
      refine ⟨fun h => this.1 (t3 h), ?_⟩
      intro ha n hl hn
      have h5 := t4 ha n hl
      split at h5
      · rename_i hn1
        have h6 := this.1 h5
        rw [h6]
        constructor
        · intro h; cases h
        · intro h; omega
      · rename_i hn1
        have h6 := this.2 h5.1 (n - 1) h5.2 (by omega)
        rw [h6]; omega
    · have hc0 : ctas c me x1 = 0 := by omega
      have st := h1.still q1 hne hc0
      obtain ⟨nq, hnq⟩ := st.queue
      have := ih (step c me s o) x2 h2 q2 (by rw [hnq]; simp [hne])
      refine ⟨fun h => this.1 (st.act.trans h), ?_⟩
      intro ha n hl hn
      rw [this.2 (st.act.trans ha) n (st.left hl) hn, ec, hc0, Nat.zero_add]

/-- **C44, what holds.**  Let a client be in back-off, with the packet that caused it not yet settled, in a history with at
most 65536 packets and retry limits other than 0.  Then there is a number of CTAs between 1 and 2^(retries of that
packet) such that in every continuation in which no failure is charged and no packet settled, the client is in back-off
exactly until it has received that many CTAs to contend on. -/
theorem C44_backoff_ends_partial (hw : c.ways = 1 ∨ c.ways = 3) (hlim : c.rtsRetryLimit ≠ 0 ∧ c.dataRetryLimit ≠ 0)
    (seq0 last0 : UInt16) (ops : List Op) (hn : accepted (after c me seq0 last0 ops).log ≤ 65536)
    (ha : (after c me seq0 last0 ops).backoffActive = true) (r : Rec) (hr : r ∈ (after c me seq0 last0 ops).recs)
    (hs : r.pkt.seq = (after c me seq0 last0 ops).backoffSeq) (hq : (after c me seq0 last0 ops).queue ≠ []) :
    ∃ n, 1 ≤ n ∧ n ≤ 2 ^ r.retry.toNat ∧ ∀ more x,
      (run c me (after c me seq0 last0 ops) more).log = (after c me seq0 last0 ops).log ++ x → Quiet x →
      ((run c me (after c me seq0 last0 ops) more).backoffActive = true ↔ ctas c me x < n) := by
  have i := pkinv_after (c := c) (me := me) seq0 last0 ops
  have b := basic_after (c := c) (me := me) seq0 last0 ops
  have hn' : (after c me seq0 last0 ops).v.nextUid ≤ 65536 := by rw [← i.num]; exact hn
  have bo := boinv_after (me := me) hlim seq0 last0 ops
  have hle := bo.go hn' ha r hr hs
  have hpos : 1 ≤ lasts r.life := by
    unfold lasts
    split
    · omega
    · rename_i h
      have : r.life.toNat ≠ 0 := fun h' => h (UInt16.toNat_inj.1 h')
      omega
  refine ⟨lasts r.life, hpos, hle, ?_⟩
  intro more x hx hqx
  have hleft : Left (after c me seq0 last0 ops) (lasts r.life) := by
    obtain ⟨pre, rest, hpr⟩ := List.append_of_mem hr
    refine ⟨pre, r, rest, hpr, ?_, hs, rfl⟩
    intro y hy he
    have hnd := recs_nodup b i hn'
    rw [hpr, List.map_append, List.map_cons, List.nodup_append] at hnd
    exact hnd.2.2 _ (List.mem_map.2 ⟨y, hy, rfl⟩) _ List.mem_cons_self (he.trans hs.symm)
  exact (countdown hw more _ x hx hqx hq).2 ha _ hleft hpos

/-- **C44, contending again.**  Three-way protocol: a CTA to contend on, of the client's sector if it was told one, makes a
client that has data, is not in back-off and has no RTS unanswered schedule an RTS for its first record, 1 to `BoSlots`
slots later. -/
theorem C44_contends (hw : c.ways = 3) (s : St) (f : Frame) (g : UInt16) (r : Rec) (rest : List Rec) (hst : s.state = .rx)
    (hf : Contention me f) (hq : s.queue ≠ []) (ha : s.backoffActive = false) (hr : s.rtsAnswered = true)
    (hsec : s.sector = none ∨ s.sector = some f.sector) (hrec : s.recs = r :: rest) :
    ∃ k : Nat, 1 ≤ k ∧ k ≤ max 1 c.boSlots ∧
      (s.nextTid, s.now + c.slot3 * k, Ev.sendRts r.pkt) ∈ (step c me s (.rxDone f true g)).pend := by
  obtain ⟨k, hk, h1, h2⟩ := drawSlot_spec (c := c) s.rngIdx
  refine ⟨k, h1, h2, ?_⟩
  have hsl : c.slotTime = c.slot3 := by unfold Cfg.slotTime; rw [if_pos hw]
  obtain ⟨e1, e2, e3⟩ := hf
  have hne : ¬ (s.sector ≠ none ∧ s.sector ≠ some f.sector) := by tauto
  show _ ∈ (receivePacketDone c me f true g s).pend
  unfold receivePacketDone
  rw [if_pos (.inl hst), if_neg (by decide)]
  dsimp only
  rw [e1]
  dsimp only
  rw [if_neg (by omega), if_pos hw]
  unfold receiveCta3
  dsimp only
  rw [if_neg e2, if_neg e3, if_neg (show ¬ (s.emit (.rx s.now f)).queue = [] from hq), if_neg (by rw [show (s.emit (.rx s.now f)).rtsAnswered = s.rtsAnswered from rfl, hr]; simp)]
  unfold contend
  rw [if_neg (by rw [show (s.emit (.rx s.now f)).backoffActive = s.backoffActive from rfl, ha]; simp)]
  dsimp only
  rw [if_neg (show ¬ ((s.emit (.rx s.now f)).sector ≠ none ∧ (s.emit (.rx s.now f)).sector ≠ some f.sector) from hne)]
  rw [show (s.emit (.rx s.now f)).recs = s.recs from rfl, hrec]
  dsimp only
  rw [hsl, show (s.emit (.rx s.now f)).rngIdx = s.rngIdx from rfl, hk]
  exact List.mem_append_right _ List.mem_cons_self

/-- Two packets; a CTS for the first asks for DATA 20 ns later; before that, one CTA makes the client request the packet
again and the next one charges the missing answer, with a back-off; a CTS for another client is overheard; the DATA goes
out and is acknowledged. -/
def runStuck : List Op :=
  [.enqueue exBody exAp, .enqueue exBody exAp] ++ hears exCta ++ [.fire 0, .fire 1] ++
    hears (exCts exMe 1 20) ++ hears exCta ++ [.fire 3, .fire 4] ++ hears exCta ++ hears (exCts exAp 1 20) ++
    [.fire 2, .fire 5] ++ hears (exAck 1) ++ [.fire 7, .fire 8]

/-- Two CTAs to go, back-off until then. -/
example : (after (exCfg 3 1) exMe 0 0 (runStuck.take 18)).backoffActive = true ∧
    (after (exCfg 3 1) exMe 0 0 (runStuck.take 18)).recs.map (fun r => (r.pkt, r.retry, r.life)) = [(exP1, 1, 1), (exP2, 0, 0)] ∧
    (after (exCfg 3 1) exMe 0 0 (runStuck.take 18)).backoffSeq = 1 ∧
    (after (exCfg 3 1) exMe 0 0 (runStuck.take 18)).queue = [exP1, exP2] := by decide +kernel

/-- A CTA makes a client with two packets contend. -/
example : (after (exCfg 3 0) exMe 0 0 [.enqueue exBody exAp, .enqueue exBody exAp, .rxStart]).state = .rx ∧
    Contention exMe exCta ∧
    (after (exCfg 3 0) exMe 0 0 [.enqueue exBody exAp, .enqueue exBody exAp, .rxStart]).rtsAnswered = true := by
  refine ⟨by decide +kernel, ⟨rfl, by decide, by decide⟩, by decide +kernel⟩

/-- In back-off for a packet that is gone. -/
structure Stuck (n : Nat) (s : St) : Prop where
  act : s.backoffActive = true
  seq : s.backoffSeq = 1
  recs : s.recs.map (·.pkt) = [exP2]
  queue : s.queue = [exP2]
  pend : s.pend = []
  idle : s.state = .idle
  ans : s.rtsAnswered = true
  ev : s.sendDataEv = none
  num : s.log.countP (fun o => match o with | .handed _ _ => true | _ => false) = n

theorem Stuck.cta {n : Nat} {s : St} (i : Stuck n s) : Stuck n (run (exCfg 3 1) exMe s (hears exCta)) ∧
    timely (exCfg 3 1) exMe s (hears exCta) = true := by
  obtain ⟨i1, i2, i3, i4, i5, i6, i7, i8, i9⟩ := i
  obtain ⟨now, seq, nextUid, nextId, state, queue, recs, ackTO, pktTx, phyTx, ctsReceived, backoffActive, backoffSeq, sector,
    lastSeq, rtsAnswered, timeCts, sendDataEv, result, send, discard, rngIdx, pend, nextTid, ub, log⟩ := s
  simp only at i1 i2 i3 i4 i5 i6 i7 i8 i9
  subst i1 i2 i4 i5 i6 i7 i8
  match recs, i3 with
  | r :: _ :: _, i3 => simp at i3
  | [r], i3 =>
    have hr : r.pkt = exP2 := by simpa using i3
    have hne : ¬ r.pkt.seq = 1 := by rw [hr]; decide
    constructor
    · simp only [run, hears, List.foldl, step, receivePacket, receivePacketDone, receiveCta3, contend, decreaseBackoff,
        tickLoop, exCta, exCfg, St.emit, hne]
      constructor <;> simp [hr, List.countP_append, i9]
    · simp [timely, hears, timelyOp, step, receivePacket]

/-- **C44 fails.**  After that run (in time order) the first packet is settled, the second one is queued, the client is in
back-off for the first, and however many CTAs follow, it stays so and puts nothing on the air. -/
theorem C44_stuck_violated (n : Nat) :
    timely (exCfg 3 1) exMe (init 0 0) (runStuck ++ (List.replicate n (hears exCta)).flatten) = true ∧
    (after (exCfg 3 1) exMe 0 0 (runStuck ++ (List.replicate n (hears exCta)).flatten)).backoffActive = true ∧
    (after (exCfg 3 1) exMe 0 0 (runStuck ++ (List.replicate n (hears exCta)).flatten)).queue = [exP2] ∧
    (after (exCfg 3 1) exMe 0 0 (runStuck ++ (List.replicate n (hears exCta)).flatten)).log.countP
      (fun o => match o with | .handed _ _ => true | _ => false) = 3 ∧
    Obs.done true exP1 ∈ (after (exCfg 3 1) exMe 0 0 runStuck).log := by
  have run_append : ∀ (a b : List Op) (s : St), run (exCfg 3 1) exMe s (a ++ b) = run (exCfg 3 1) exMe (run (exCfg 3 1) exMe s a) b :=
    fun a b s => List.foldl_append
  have timely_append : ∀ (a b : List Op) (s : St), timely (exCfg 3 1) exMe s a = true →
      timely (exCfg 3 1) exMe (run (exCfg 3 1) exMe s a) b = true → timely (exCfg 3 1) exMe s (a ++ b) = true := by
    intro a
    induction a with
    | nil => intro b s _ h; exact h
    | cons o a ih =>
      intro b s h1 h2
      simp only [timely, Bool.and_eq_true, List.cons_append] at h1 ⊢
      exact ⟨h1.1, ih b _ h1.2 h2⟩
  have h0 : Stuck 3 (after (exCfg 3 1) exMe 0 0 runStuck) := by
    constructor <;> decide +kernel
  have hall : ∀ n (s : St), Stuck 3 s → Stuck 3 (run (exCfg 3 1) exMe s (List.replicate n (hears exCta)).flatten) ∧
      timely (exCfg 3 1) exMe s (List.replicate n (hears exCta)).flatten = true := by
    intro n
    induction n with
    | zero => intro s h; exact ⟨h, rfl⟩
    | succ n ih =>
      intro s h
      rw [List.replicate_succ, List.flatten_cons, run_append]
      obtain ⟨h1, h2⟩ := h.cta
      obtain ⟨h3, h4⟩ := ih _ h1
      exact ⟨h3, timely_append _ _ _ h2 h4⟩
  obtain ⟨h1, h2⟩ := hall n _ h0
  have e : after (exCfg 3 1) exMe 0 0 (runStuck ++ (List.replicate n (hears exCta)).flatten) =
      run (exCfg 3 1) exMe (after (exCfg 3 1) exMe 0 0 runStuck) (List.replicate n (hears exCta)).flatten := run_append _ _ _
  rw [e]
  exact ⟨timely_append _ _ _ (by decide +kernel) h2, h1.act, h1.queue, h1.num, by decide +kernel⟩

/-! ## C77: the client does not wait for an ACK for ever -/

/-- Waiting for an ACK, or transmitting the DATA after which it will wait. -/
def Waiting (s : St) : Prop := s.state = .waitAck ∨ (s.state = .tx ∧ ∃ f, s.pktTx = some f ∧ f.kind = .data)

/-- An ACK timeout is pending. -/
def Timer (s : St) : Prop := ∃ e ∈ s.pend, ∃ q, e.2.2 = .ackTimeout q

theorem not_waiting {s : St} (h : s.state ≠ .waitAck) (h' : s.state ≠ .tx) : ¬ Waiting s := by
  rintro (h1 | ⟨h1, _⟩)
  · exact h h1
  · exact h' h1

/-- Nothing changed that matters. -/
theorem waits_same {s s' : St} (i : Waiting s → Timer s) (h1 : s'.state = s.state) (h2 : s'.pktTx = s.pktTx)
    (h3 : ∀ e ∈ s.pend, e ∈ s'.pend) : Waiting s' → Timer s' := by
  intro hw
  unfold Waiting at hw
  rw [h1, h2] at hw
  obtain ⟨e, he, q⟩ := i hw
  exact ⟨e, h3 e he, q⟩

theorem settle_state (ok : Bool) (r : Rec) (s : St) : (settle ok r s).state = s.state ∧ (settle ok r s).pktTx = s.pktTx ∧
    ∀ e ∈ s.pend, e ∈ (settle ok r s).pend := by
  unfold settle
  split <;> exact ⟨rfl, rfl, fun e he => List.mem_append_left _ he⟩

theorem doneLoop_state (ok : Bool) (q : UInt16) : ∀ (rest pre : List Rec) (s : St),
    (doneLoop ok q pre rest s).state = s.state ∧ (doneLoop ok q pre rest s).pktTx = s.pktTx ∧
    ∀ e ∈ s.pend, e ∈ (doneLoop ok q pre rest s).pend
  | [], pre, s => by unfold doneLoop; exact ⟨rfl, rfl, fun e he => he⟩
  | r :: rest, pre, s => by
    unfold doneLoop
    have h := settle_state ok r s
    split
    · split
      · exact ⟨rfl, rfl, fun e he => he⟩
      · match rest with
        | [] => exact h
        | r' :: rest' =>
          have h2 := doneLoop_state ok q rest' (pre ++ [r']) (settle ok r s)
          exact ⟨h2.1.trans h.1, h2.2.1.trans h.2.1, fun e he => h2.2.2 e (h.2.2 e he)⟩
    · exact doneLoop_state ok q rest (pre ++ [r]) s

theorem chargeLoop_state (limit q : UInt16) : ∀ (rest pre : List Rec) (s : St),
    (chargeLoop c limit q pre rest s).state = s.state
  | [], pre, s => by unfold chargeLoop; rfl
  | r :: rest, pre, s => by
    unfold chargeLoop
    split
    · unfold charge; dsimp only; split <;> rfl
    · exact chargeLoop_state limit q rest (pre ++ [r]) s

theorem tickLoop_state (q : UInt16) : ∀ (rest pre : List Rec) (s : St), (tickLoop q pre rest s).state = s.state
  | [], pre, s => by unfold tickLoop; rfl
  | r :: rest, pre, s => by
    unfold tickLoop
    split
    · rfl
    · exact tickLoop_state q rest (pre ++ [r]) s

theorem grantLoop_state (f : Frame) : ∀ (rest : List Rec) (s : St), (grantLoop c f rest s).state = s.state
  | [], s => by unfold grantLoop; rfl
  | r :: rest, s => by
    unfold grantLoop
    split
    · exact grantLoop_state f rest _
    · exact grantLoop_state f rest s

theorem ctsTimeout_state (q : UInt16) (s : St) : (ctsTimeout c q s).state = .idle := by
  unfold ctsTimeout
  dsimp only
  split <;> exact chargeLoop_state _ _ _ _ _

/-- Idle or about to send. -/
def Ready (s : St) : Prop := s.state = .idle ∨ s.state = .waitTx

theorem Ready.not {s : St} (h : Ready s) : ¬ Waiting s := by
  rcases h with h | h <;> exact not_waiting (by rw [h]; decide) (by rw [h]; decide)

theorem ready_contend (f : Frame) (s : St) (h : Ready s) : Ready (contend c f s) := by
  unfold contend
  split
  · unfold Ready at *; unfold decreaseBackoff; rw [tickLoop_state]; exact h
  · dsimp only
    split
    · exact h
    · split
      · exact h
      · exact .inr rfl

theorem ready_receiveCta3 (f : Frame) (g : UInt16) (s : St) : Ready (receiveCta3 c me f g s) := by
  unfold receiveCta3
  dsimp only
  split
  · exact .inl rfl
  · split
    · exact .inl rfl
    · split
      · exact .inl rfl
      · split
        · exact ready_contend f _ (.inl (ctsTimeout_state s.lastSeq { s with state := .idle }))
        · exact ready_contend f _ (.inl rfl)

theorem ready_receiveCta1 (s : St) : Ready (receiveCta1 c s) := by
  unfold receiveCta1
  dsimp only
  split
  · exact .inl rfl
  · split
    · exact .inl (tickLoop_state _ _ _ _)
    · split
      · exact .inl rfl
      · exact .inr rfl

/-- Sending a frame other than DATA. -/
theorem waits_sendCtrl (f : Frame) (hf : f.kind ≠ .data) (s : St) (i : Waiting s → Timer s) :
    Waiting (sendPacket c f 0 s).2 → Timer (sendPacket c f 0 s).2 := by
  unfold sendPacket
  split
  · split
    · rintro (h | ⟨_, f', h, hk⟩)
      · cases h
      · injection h with h; rw [h] at hf; exact absurd hk hf
    · exact fun h => absurd h (not_waiting (by simp [St.emit]) (by simp [St.emit]))
  · exact waits_same i rfl rfl (fun e he => he)

theorem waits_sendData (p : Pkt) (m : Nat) (s : St) :
    Waiting (sendData c me p m s) → Timer (sendData c me p m s) := by
  unfold sendData
  dsimp only
  split
  · exact fun h => absurd h (Ready.not (.inr rfl))
  · generalize sendPacket c (dataFrame me p) m { s with state := .waitTx } = r
    obtain ⟨ok, s1⟩ := r
    cases ok
    · exact fun h => absurd h (Ready.not (.inl rfl))
    · exact fun _ => ⟨_, List.mem_append_right _ List.mem_cons_self, p.seq, rfl⟩

theorem waits_step (s : St) (o : Op) (b : Basic c me s.v) (i : Waiting s → Timer s) :
    Waiting (step c me s o) → Timer (step c me s o) := by
  cases o with
  | enqueue bd dst =>
    show Waiting (enqueue c bd dst s).2 → _
    refine waits_same i ?_ ?_ ?_ <;> simp only [step, enqueue] <;> split <;> first | rfl | exact fun e he => he
  | advance d => exact waits_same i rfl rfl (fun e he => he)
  | rxStart =>
    show Waiting (receivePacket s) → Timer (receivePacket s)
    have keep : ∀ t, s.sendDataEv = some t → Timer s → ∃ e ∈ s.pend.filter (fun e => e.1 ≠ t), ∃ q, e.2.2 = .ackTimeout q := by
      rintro t ht ⟨e, he, q, hq⟩
      refine ⟨e, List.mem_filter.2 ⟨he, ?_⟩, q, hq⟩
      simp only [ne_eq, decide_not, Bool.not_eq_eq_eq_not, Bool.not_true, decide_eq_false_iff_not]
      intro h
      obtain ⟨p, m, hp⟩ := (b.dataEv t ht).2 e he h
      rw [hq] at hp; cases hp
    unfold receivePacket
    cases hev : s.sendDataEv with
    | none =>
      dsimp only
      split
      · exact i
      · exact i
      · exact i
      · exact fun h => absurd h (not_waiting (by simp) (by simp))
    | some t =>
      dsimp only [St.cancel]
      split
      · exact fun h => keep t hev (i h)
      · exact fun h => keep t hev (i h)
      · exact fun h => keep t hev (i h)
      · exact fun h => absurd h (not_waiting (by simp) (by simp))
  | rxDone f ok g =>
    show Waiting (receivePacketDone c me f ok g s) → Timer (receivePacketDone c me f ok g s)
    unfold receivePacketDone
    split
    · split
      · exact i
      · dsimp only
        split
        · split
          · exact fun h => absurd h (ready_receiveCta1 _).not
          · split
            · exact fun h => absurd h (ready_receiveCta3 _ _ _).not
            · exact waits_same i rfl rfl (fun e he => he)
        · unfold receiveCts
          dsimp only
          split
          · exact fun h => absurd h (Ready.not (.inl (grantLoop_state _ _ _)))
          · exact fun h => absurd h (Ready.not (.inl rfl))
        · unfold receiveAck
          dsimp only
          split
          · split <;> exact fun h => absurd h (Ready.not (.inl rfl))
          · exact waits_same i rfl rfl (fun e he => he)
        · exact waits_same i rfl rfl (fun e he => he)
    · exact i
  | fire tid =>
    show Waiting (fire c me tid s) → Timer (fire c me tid s)
    unfold fire
    split
    · exact i
    · rename_i t due e hf
      have hm : (t, due, e) ∈ s.pend := List.mem_of_find?_eq_some hf
      have htt : t = tid := by simpa using List.find?_some hf
      subst htt
      have hw := b.ev _ hm
      have uniq : ∀ e ∈ s.pend, ∀ e' ∈ s.pend, e.1 = e'.1 → e = e' :=
        fun e he e' he' hee => List.inj_on_of_nodup_map b.tid he he' hee
      by_cases hq : ∃ q, e = .ackTimeout q
      · obtain ⟨q, rfl⟩ := hq
        refine fun h => absurd h (Ready.not (.inl ?_))
        exact chargeLoop_state _ _ _ _ _
      · generalize hs1 : ({ s with pend := s.pend.filter (fun e => e.1 ≠ t), now := max s.now due } : St) = s1
        have e1 : s1.pend = s.pend.filter (fun e => e.1 ≠ t) := by rw [← hs1]
        have i1 : Waiting s1 → Timer s1 := by
          intro h
          have : Waiting s := by rw [← hs1] at h; exact h
          obtain ⟨x, hx, q, hxq⟩ := i this
          refine ⟨x, ?_, q, hxq⟩
          rw [e1]
          refine List.mem_filter.2 ⟨hx, ?_⟩
          simp only [ne_eq, decide_not, Bool.not_eq_eq_eq_not, Bool.not_true, decide_eq_false_iff_not]
          intro h
          have := uniq x hx _ hm h
          rw [this] at hxq
          exact hq ⟨q, hxq⟩
        cases e with
        | dummyRts f =>
          have hk : f.kind = .rts := by obtain ⟨_, _, _, _, _, _, _, _, _, h, _⟩ := hw; exact h
          exact waits_sendCtrl f (by rw [hk]; decide) s1 i1
        | sendRts p =>
          exact waits_sendCtrl (rtsFrame me s1.nextId p) (by simp [rtsFrame]) { s1 with nextId := s1.nextId + 1 } i1
        | sendData p m => exact waits_sendData p m s1
        | ackTimeout q => exact absurd ⟨q, rfl⟩ hq
        | sendDataDone ok q =>
          have h := doneLoop_state ok q s1.recs [] s1
          exact waits_same i1 h.1 h.2.1 h.2.2
        | results =>
          show Waiting (resultsRecord s1) → Timer (resultsRecord s1)
          unfold resultsRecord
          split <;> exact waits_same i1 rfl rfl (fun e he => he)
        | phyDone f =>
          show Waiting (sendPacketDone f s1) → Timer (sendPacketDone f s1)
          unfold sendPacketDone
          dsimp only
          split
          · exact waits_same i1 rfl rfl (fun e he => he)
          · rename_i hst
            simp only [not_or, not_not, ne_eq] at hst
            split
            · rename_i hk
              intro _
              exact i1 (.inr ⟨hst.1, f, hst.2, hk⟩)
            · exact fun h => absurd h (Ready.not (.inl rfl))

theorem waits_run (ops : List Op) : ∀ s : St, Basic c me s.v → (Waiting s → Timer s) →
    (Waiting (run c me s ops) → Timer (run c me s ops)) := by
  induction ops with
  | nil => intro s _ i; exact i
  | cons o ops ih =>
    intro s b i
    have h := mis_step (c := c) (me := me) (T := False) (K := fun _ => True) s o b (fun h => h.elim) (fun _ _ _ _ _ => trivial)
    exact ih (step c me s o) (b.mis h) (waits_step s o b i)

/-- **C77.**  Whenever the client waits for an ACK, an ACK timeout is pending; and when an ACK timeout runs the client
stops waiting. -/
theorem C77_ack_timeout_pending (seq0 last0 : UInt16) (ops : List Op) :
    ((after c me seq0 last0 ops).state = .waitAck →
      ∃ tid due q, (tid, due, Ev.ackTimeout q) ∈ (after c me seq0 last0 ops).pend) ∧
    (∀ tid due q, (tid, due, Ev.ackTimeout q) ∈ (after c me seq0 last0 ops).pend →
      (step c me (after c me seq0 last0 ops) (.fire tid)).state = .idle) := by
  constructor
  · intro h
    obtain ⟨⟨tid, due, e⟩, he, q, hq⟩ := waits_run (c := c) (me := me) ops (init seq0 last0) (Basic.init seq0 last0)
      (fun h => absurd h (Ready.not (.inl rfl))) (.inl h)
    simp only at hq
    exact ⟨tid, due, q, hq ▸ he⟩
  · intro tid due q hm
    have b := basic_after (c := c) (me := me) seq0 last0 ops
    generalize after c me seq0 last0 ops = s at *
    have hfind : s.pend.find? (fun e => e.1 = tid) = some (tid, due, Ev.ackTimeout q) := by
      cases hf : s.pend.find? (fun e => e.1 = tid) with
      | none =>
        have := List.find?_eq_none.1 hf _ hm
        simp at this
      | some e =>
        have h1 := List.mem_of_find?_eq_some hf
        have h2 : e.1 = tid := by simpa using List.find?_some hf
        rw [List.inj_on_of_nodup_map b.tid h1 hm h2]
    show (fire c me tid s).state = .idle
    unfold fire
    rw [hfind]
    exact chargeLoop_state _ _ _ _ _

example : (after (exCfg 3 0) exMe 0 0 (runOk.take 12)).state = .waitAck := by decide +kernel

/-! ## C80: broadcast packets -/

/-- Blocked for ever by this record. -/
structure Blocked (s : St) : Prop where
  head : ∃ r rest, s.recs = r :: rest ∧ r.pkt.dst = bcast ∧ ∀ e ∈ s.pend, ∃ m, e.2.2 = .sendData r.pkt m
  ack : s.ackTO = []
  act : s.backoffActive = false
  log : ∀ o ∈ s.log, (∀ t f, o ≠ .handed t f) ∧ ∀ ok p, o ≠ .done ok p

theorem Blocked.step {s : St} (hw : c.ways = 1) (o : Op) (hn : ∀ f ok g, o = .rxDone f ok g → f.kind ≠ .cts) (i : Blocked s) :
    Blocked (step c me s o) := by
  obtain ⟨⟨r, rest, h1, h2, h3⟩, h4, h5, h6⟩ := i
  have logged : ∀ o : Obs, (∀ t f, o ≠ .handed t f) → (∀ ok p, o ≠ .done ok p) → ∀ x ∈ s.log ++ [o],
      (∀ t f, x ≠ .handed t f) ∧ ∀ ok p, x ≠ .done ok p := by
    intro o ho ho' x hx
    rcases List.mem_append.1 hx with hx | hx
    · exact h6 x hx
    · rw [List.mem_singleton.1 hx]; exact ⟨ho, ho'⟩
  cases o with
  | enqueue bd dst =>
    show Blocked (enqueue c bd dst s).2
    unfold enqueue
    split
    · exact ⟨⟨r, rest, h1, h2, h3⟩, h4, h5, logged _ (by simp) (by simp)⟩
    · exact ⟨⟨r, rest ++ [⟨⟨s.nextUid, s.seq + 1, dst, bd⟩, s.now, 0, 0⟩], by simp [St.emit, h1], h2, h3⟩, h4, h5,
        logged _ (by simp) (by simp)⟩
  | advance d => exact ⟨⟨r, rest, h1, h2, h3⟩, h4, h5, h6⟩
  | rxStart =>
    show Blocked (receivePacket s)
    unfold receivePacket
    cases s.sendDataEv with
    | none => dsimp only; split <;> exact ⟨⟨r, rest, h1, h2, h3⟩, h4, h5, h6⟩
    | some t =>
      dsimp only [St.cancel]
      have h3' : ∀ e ∈ s.pend.filter (fun e => e.1 ≠ t), ∃ m, e.2.2 = .sendData r.pkt m :=
        fun e he => h3 e (List.mem_filter.1 he).1
      split <;> exact ⟨⟨r, rest, h1, h2, h3'⟩, h4, h5, h6⟩
  | rxDone f ok g =>
    show Blocked (receivePacketDone c me f ok g s)
    have hl := logged (.rx s.now f) (by simp) (by simp)
    unfold receivePacketDone
    split
    · split
      · exact ⟨⟨r, rest, h1, h2, h3⟩, h4, h5, h6⟩
      · dsimp only
        split
        · first | rw [if_pos hw] | skip
          unfold receiveCta1
          dsimp only
          split
          · exact ⟨⟨r, rest, h1, h2, h3⟩, h4, h5, hl⟩
          · split
            · rename_i ha; exact absurd ha (by show ¬ s.backoffActive = true; rw [h5]; simp)
            · rw [show (s.emit (.rx s.now f)).recs = s.recs from rfl, h1]
              dsimp only
              refine ⟨⟨r, rest, rfl, h2, ?_⟩, h4, h5, hl⟩
              intro e he
              rcases List.mem_append.1 he with he | he
              · exact h3 e he
              · rw [List.mem_singleton.1 he]; exact ⟨0, rfl⟩
        · rename_i hk; exact absurd hk (hn f ok g rfl)
        · unfold receiveAck
          dsimp only
          split
          · rw [show (s.emit (.rx s.now f)).ackTO = s.ackTO from rfl, h4]
            exact ⟨⟨r, rest, h1, h2, h3⟩, rfl, h5, hl⟩
          · exact ⟨⟨r, rest, h1, h2, h3⟩, h4, h5, hl⟩
        · exact ⟨⟨r, rest, h1, h2, h3⟩, h4, h5, hl⟩
    · exact ⟨⟨r, rest, h1, h2, h3⟩, h4, h5, h6⟩
  | fire tid =>
    show Blocked (fire c me tid s)
    unfold fire
    split
    · exact ⟨⟨r, rest, h1, h2, h3⟩, h4, h5, h6⟩
    · rename_i t due e hf
      have hm : (t, due, e) ∈ s.pend := List.mem_of_find?_eq_some hf
      obtain ⟨m, hm⟩ := h3 _ hm
      simp only at hm
      subst hm
      show Blocked (sendData c me r.pkt m _)
      unfold sendData
      dsimp only
      rw [if_pos h2]
      exact ⟨⟨r, rest, h1, h2, fun e he => h3 e (List.mem_filter.1 he).1⟩, h4, h5, h6⟩

/-- **C80 fails.**  One-way protocol: if the first packet a client accepts is addressed to the broadcast address, the client
never transmits and never settles anything, whatever else is enqueued and received (a client gets no CTS in this
protocol). -/
theorem C80_broadcast_blocks_violated (hw : c.ways = 1) (seq0 last0 : UInt16) (b : Body) (hb : c.minSize ≤ b.size)
    (ops : List Op) (hn : ∀ f ok g, Op.rxDone f ok g ∈ ops → f.kind ≠ .cts) :
    ∀ o ∈ (after c me seq0 last0 (.enqueue b bcast :: ops)).log, (∀ t f, o ≠ .handed t f) ∧ ∀ ok p, o ≠ .done ok p := by
  have h0 : Blocked (Client.step c me (init seq0 last0) (.enqueue b bcast)) := by
    simp only [Client.step, enqueue]
    rw [if_neg (Nat.not_lt.2 hb)]
    refine ⟨⟨_, [], rfl, rfl, by simp [Client.init, St.emit]⟩, rfl, rfl, ?_⟩
    intro o ho
    have : o = .accepted ⟨0, seq0 + 1, bcast, b⟩ := by simpa [Client.init, St.emit] using ho
    rw [this]; simp
  have key : ∀ (ops : List Op) (s : St), (∀ f ok g, Op.rxDone f ok g ∈ ops → f.kind ≠ .cts) → Blocked s → Blocked (run c me s ops) := by
    intro ops
    induction ops with
    | nil => intro s _ i; exact i
    | cons o ops ih =>
      intro s hn i
      exact ih _ (fun f ok g h => hn f ok g (List.mem_cons_of_mem _ h))
        (i.step hw o (fun f ok g h => hn f ok g (h ▸ List.mem_cons_self)))
  exact (key ops _ hn h0).log

/-- Ten CTAs, and a second packet waiting behind. -/
example : (after (exCfg 1 0) exMe 0 0 (.enqueue exBody bcast :: .enqueue exBody exAp ::
      (List.replicate 10 (hears exCta)).flatten)).queue.length = 2 ∧
    Op.enqueue exBody bcast ∈ (Op.enqueue exBody bcast :: (List.replicate 10 (hears exCta)).flatten) := by
  exact ⟨by decide +kernel, List.mem_cons_self⟩

end Thz.Client
