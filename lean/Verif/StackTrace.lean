import Verif.StackRx
import Verif.MacroTimed

/-!
# The MAC of a device in the stack runs in time (helper lemmas)

Each step of the stack is, for the MAC of each device, a run of its own model in which time never passes beyond a pending event.
What that run hands over and receives, and when, is what the log of the air says about the device.
-/

namespace Thz.Stack

open Thz
open Thz.Nano (Body bcast)
open Thz.Macro (Frame TidP Tq Th Tx txEvs anyHistory Sent Heard trace newObs onTime onTimeRun)

variable {P : Type}

/-! ## What a step does to the MACs -/

theorem transmit_mac (w : World P) (i : Nat) (f : Frame) (s : St P) :
    (transmit w i f s).mac = s.mac ∧ (transmit w i f s).ch.now = s.ch.now := by
  unfold transmit
  dsimp only
  split
  · refine ⟨rfl, ?_⟩
    dsimp only
    show (if _ then _ else _ : Channel.St P).now = _
    split
    · unfold Channel.sendPacket
      split <;> rfl
    · rfl
  · exact ⟨rfl, rfl⟩

theorem macStep_mac (w : World P) (i : Nat) (op : Macro.Op) (s : St P) :
    (macStep w i op s).mac = Function.update s.mac (w.addr i)
      (Macro.step (w.mcfg (w.addr i)) (w.addr i) (s.mac (w.addr i)) op) ∧ (macStep w i op s).ch.now = s.ch.now := by
  unfold macStep
  dsimp only
  have : ∀ (l : List Frame) (s : St P), (l.foldl (fun s f => transmit w i f s) s).mac = s.mac ∧
      (l.foldl (fun s f => transmit w i f s) s).ch.now = s.ch.now := by
    intro l
    induction l with
    | nil => exact fun s => ⟨rfl, rfl⟩
    | cons f l ih =>
      intro s
      obtain ⟨h1, h2⟩ := ih (transmit w i f s)
      obtain ⟨h3, h4⟩ := transmit_mac w i f s
      exact ⟨h1.trans h3, h2.trans h4⟩
  exact this _ _

theorem transmit_log (w : World P) (i : Nat) (f : Frame) (s : St P) : ∃ l, (transmit w i f s).ch.log = s.ch.log ++ l := by
  unfold transmit
  dsimp only
  split
  · dsimp only
    unfold Channel.step
    dsimp only
    split
    · unfold Channel.sendPacket
      split
      · exact ⟨_, rfl⟩
      · exact ⟨_, rfl⟩
    · exact ⟨[], (List.append_nil _).symm⟩
  · exact ⟨[], (List.append_nil _).symm⟩

theorem macStep_log (w : World P) (i : Nat) (op : Macro.Op) (s : St P) : ∃ l, (macStep w i op s).ch.log = s.ch.log ++ l := by
  unfold macStep
  dsimp only
  have : ∀ (l : List Frame) (s : St P), ∃ l', (l.foldl (fun s f => transmit w i f s) s).ch.log = s.ch.log ++ l' := by
    intro l
    induction l with
    | nil => exact fun s => ⟨[], (List.append_nil _).symm⟩
    | cons f l ih =>
      intro s
      obtain ⟨l1, h1⟩ := ih (transmit w i f s)
      obtain ⟨l2, h2⟩ := transmit_log w i f s
      exact ⟨l2 ++ l1, by rw [List.foldl_cons, h1, h2, List.append_assoc]⟩
  exact this _ _

/-- Each MAC runs operations of this kind; the clock stands still; the log of the channel grows. -/
def Ran (w : World P) (k : Nat → Macro.Op → Prop) (s s' : St P) : Prop :=
  s'.ch.now = s.ch.now ∧ (∀ x ∈ s.ch.log, x ∈ s'.ch.log) ∧ ∀ i < w.num, ∃ mops, s'.mac (w.addr i) = Macro.run (w.mcfg (w.addr i)) (w.addr i) (s.mac (w.addr i)) mops ∧
    ∀ o ∈ mops, k i o

variable {w : World P} {k : Nat → Macro.Op → Prop}

theorem Ran.same {s s' : St P} (h : s'.mac = s.mac) (hn : s'.ch.now = s.ch.now) (hl : ∀ x ∈ s.ch.log, x ∈ s'.ch.log) : Ran w k s s' :=
  ⟨hn, hl, fun i _ => ⟨[], by rw [h]; rfl, by simp⟩⟩

theorem Ran.trans {a b d : St P} (h : Ran w k a b) (h' : Ran w k b d) : Ran w k a d := by
  refine ⟨h'.1.trans h.1, fun x hx => h'.2.1 x (h.2.1 x hx), fun i hi => ?_⟩
  obtain ⟨l, e, q⟩ := h.2.2 i hi
  obtain ⟨l', e', q'⟩ := h'.2.2 i hi
  refine ⟨l ++ l', by rw [e', e, Macro.run_append], fun o ho => ?_⟩
  rcases List.mem_append.1 ho with h1 | h1
  · exact q o h1
  · exact q' o h1

theorem Ran.mac (hw : w.Wf) {i : Nat} (hi : i < w.num) (op : Macro.Op) (hk : k i op) (s : St P) : Ran w k s (macStep w i op s) := by
  obtain ⟨h1, h2⟩ := macStep_mac w i op s
  obtain ⟨l, hl⟩ := macStep_log w i op s
  refine ⟨h2, fun x hx => by rw [hl]; exact List.mem_append_left _ hx, fun j hj => ?_⟩
  by_cases e : j = i
  · subst e
    exact ⟨[op], by rw [h1, Function.update_self]; rfl, by intro o ho; rw [List.mem_singleton.1 ho]; exact hk⟩
  · exact ⟨[], by rw [h1, update_other hw hi hj e]; rfl, by simp⟩

theorem Ran.report (hw : w.Wf) {i : Nat} (hi : i < w.num) (hk : ∀ f ok g, k i (.rxDone f ok g)) (g : UInt16) (s : St P)
    (x : Nat × Bool) : Ran w k s (report w i g s x) := by
  unfold Stack.report
  split
  · exact .same rfl rfl (fun _ h => h)
  · split
    · exact .same rfl rfl (fun _ h => h)
    · rename_i f _
      have h := Ran.mac hw hi (.rxDone f x.2 g) (hk _ _ _) s
      dsimp only
      split
      · exact h.trans (.same rfl rfl (fun _ h => h))
      · exact h

theorem Ran.reports (hw : w.Wf) {i : Nat} (hi : i < w.num) (hk : ∀ f ok g, k i (.rxDone f ok g)) (g : UInt16)
    (l : List (Nat × Bool)) : ∀ s : St P, Ran w k s (l.foldl (Stack.report w i g) s) := by
  induction l with
  | nil => exact fun s => .same rfl rfl (fun _ h => h)
  | cons x l ih => exact fun s => (Ran.report hw hi hk g s x).trans (ih _)

theorem Ran.finish (hw : w.Wf) {i : Nat} (hi : i < w.num) (hk : ∀ f ok g, k i (.rxDone f ok g)) (hs : ∀ b, k i (.sense b))
    (c : Nat) (g : UInt16) (s : St P) : Ran w k s (onFinish w i c g s) := by
  unfold onFinish
  dsimp only
  split
  · exact .same rfl rfl (fun _ h => h)
  · rename_i t _
    refine Ran.trans (b := phyFire w i t s) (.same rfl rfl (fun _ h => h)) ?_
    refine Ran.trans (b := tellSense w i (phyFire w i t s)) (.mac hw hi _ (hs _) _) ?_
    exact .reports hw hi hk g _ _

theorem Ran.txEnd (hw : w.Wf) {i : Nat} (hi : i < w.num) (hf : ∀ t, k i (.fire t)) (hs : ∀ b, k i (.sense b))
    (s : St P) : Ran w k s (onTxEnd w i s) := by
  unfold onTxEnd
  split
  · rename_i t t' _ _
    refine Ran.trans (b := phyFire w i t s) (.same rfl rfl (fun _ h => h)) ?_
    exact Ran.trans (b := tellSense w i (phyFire w i t s)) (.mac hw hi _ (hs _) _) (.mac hw hi _ (hf _) _)
  · exact .same rfl rfl (fun _ h => h)

theorem Ran.arrival (hw : w.Wf) {i : Nat} (hi : i < w.num) (hr : k i .rxStart) (hs : ∀ b, k i (.sense b))
    (c n dur : Nat) (pw : P) (s : St P) : Ran w k s (onArrival w i c n dur pw s) := by
  unfold onArrival
  dsimp only
  have h : Ran w k s (tellSense w i { s with
      phy := Function.update s.phy i (PhyMacro.step (w.pcfg i) (s.phy i) (.arrive dur pw))
      heard := Function.update s.heard i (s.heard i ++ [(c, n)]) }) :=
    Ran.trans (.same rfl rfl (fun _ h => h)) (.mac hw hi _ (hs _) _)
  split
  · exact h.trans (.mac hw hi _ hr _)
  · exact h

/-- The MAC is told of an arrival only if something arrives. -/
def Told (s s' : St P) (i : Nat) (o : Macro.Op) : Prop :=
  o = .rxStart → ∃ c n dur pw, Channel.Obs.arrival s.ch.now c n i i dur pw ∈ s'.ch.log

theorem told {s s' : St P} {i : Nat} {o : Macro.Op} (h : o ≠ .rxStart) : Told s s' i o := fun e => absurd e h

/-- Either only the end of an arrival is reported, or none without error is. -/
def Kind (q : Bool) (o : Macro.Op) : Prop :=
  if q = true then (∃ b, o = .sense b) ∨ ∃ f ok g, o = .rxDone f ok g else ∀ f g, o ≠ .rxDone f true g

theorem Ran.chan (hw : w.Wf) {s : St P} (h : Inv w s) {tid t : Nat} {due : ℤ} {e : Channel.Ev P} (g : UInt16)
    (hf : s.ch.pend.find? (fun e => e.1 = tid) = some (t, due, e)) (hd : due ≤ s.ch.now) :
    ∃ q, Ran w (fun i o => Told s (chanStep w tid g s) i o ∧ Kind q o) s (chanStep w tid g s) := by
  obtain ⟨h1, a, b, h2, h3⟩ := ch_fire h.chi h.inside hf hd
  have hm := List.mem_of_find?_eq_some hf
  have hret : ∀ c : Channel.St P, (Channel.step c .ret).now = c.now := by
    intro c
    show (Channel.ret c).now = _
    unfold Channel.ret
    split <;> rfl
  have hretl : ∀ c : Channel.St P, (Channel.step c .ret).log = c.log := by
    intro c
    show (Channel.ret c).log = _
    unfold Channel.ret
    split <;> rfl
  cases e with
  | txDone n i =>
    obtain ⟨t', d, l, h4, -⟩ := h.chi.txDue _ hm n i rfl
    obtain ⟨f, h5⟩ := h.sentAir _ _ _ _ _ h4
    have hi := (h.airTx _ _ _ _ h5).1
    have hlogd : (Channel.step s.ch (.fire tid)).log.drop s.ch.log.length = [.txEnd s.ch.now n i] := by
      rw [h3]
      show (s.ch.log ++ [_]).drop _ = _
      rw [List.drop_left]
    have ec : chanStep w tid g s = onTxEnd w i { s with ch := Channel.step s.ch (.fire tid) } := by
      unfold chanStep
      dsimp only
      rw [hlogd]
    generalize chanStep w tid g s = s' at ec ⊢
    rw [ec]
    refine ⟨false, ?_⟩
    refine Ran.trans (b := { s with ch := Channel.step s.ch (.fire tid) }) (.same rfl (by dsimp only; rw [h3]; rfl)
      (fun x hx => by dsimp only; rw [h3]; exact List.mem_append_left _ hx)) ?_
    exact .txEnd hw hi (fun _ => ⟨told (by simp), by simp [Kind]⟩) (fun _ => ⟨told (by simp), by simp [Kind]⟩) _
  | rx i ne =>
    have hdv := h.chi.evDev _ hm i ne (.inl rfl)
    obtain ⟨hphy, hi⟩ := dev_eq h hdv
    have hs' : Channel.step s.ch (.fire tid) = { ({ s.ch with pend := a ++ b } : Channel.St P).emit
        (.arrival s.ch.now ne.k ne.n i i ne.dur ne.pw) with noise := s.ch.noise ++ [ne], inside := some (.rx i ne) } := by
      rw [h3]
      show Channel.receivePacket i ne _ = _
      unfold Channel.receivePacket
      dsimp only
      rw [hdv, hphy]
    have hlog : (Channel.step s.ch (.fire tid)).log = s.ch.log ++ [.arrival s.ch.now ne.k ne.n i i ne.dur ne.pw] := by rw [hs']; rfl
    have hlogd : (Channel.step s.ch (.fire tid)).log.drop s.ch.log.length = [.arrival s.ch.now ne.k ne.n i i ne.dur ne.pw] := by
      rw [hlog, List.drop_left]
    have ec : chanStep w tid g s = { onArrival w i ne.k ne.n ne.dur.toNat ne.pw { s with ch := Channel.step s.ch (.fire tid) } with
        ch := Channel.step (onArrival w i ne.k ne.n ne.dur.toNat ne.pw { s with ch := Channel.step s.ch (.fire tid) }).ch .ret } := by
      unfold chanStep
      dsimp only
      rw [hlogd]
    -- the arrival stays in the log
    have hin : Channel.Obs.arrival s.ch.now ne.k ne.n i i ne.dur ne.pw ∈ (chanStep w tid g s).ch.log := by
      rw [ec]
      dsimp only
      rw [hretl]
      have h4 : Channel.Obs.arrival s.ch.now ne.k ne.n i i ne.dur ne.pw ∈ (Channel.step s.ch (.fire tid)).log := by
        rw [hlog]; simp
      unfold onArrival
      dsimp only
      have h5 : Channel.Obs.arrival s.ch.now ne.k ne.n i i ne.dur ne.pw ∈ (tellSense w i { s with
          ch := Channel.step s.ch (.fire tid)
          phy := Function.update s.phy i (PhyMacro.step (w.pcfg i) (s.phy i) (.arrive ne.dur.toNat ne.pw))
          heard := Function.update s.heard i (s.heard i ++ [(ne.k, ne.n)]) }).ch.log := by
        rw [tellSense_eq]; exact h4
      split
      · obtain ⟨l, e⟩ := macStep_log w i .rxStart (tellSense w i { s with
          ch := Channel.step s.ch (.fire tid)
          phy := Function.update s.phy i (PhyMacro.step (w.pcfg i) (s.phy i) (.arrive ne.dur.toNat ne.pw))
          heard := Function.update s.heard i (s.heard i ++ [(ne.k, ne.n)]) })
        rw [e]
        exact List.mem_append_left _ h5
      · exact h5
    generalize chanStep w tid g s = s' at ec hin ⊢
    rw [ec]
    refine ⟨false, ?_⟩
    refine Ran.trans (b := { s with ch := Channel.step s.ch (.fire tid) }) (.same rfl (by dsimp only; rw [hs']; rfl)
      (fun x hx => by dsimp only; rw [hs']; exact List.mem_append_left _ hx)) ?_
    refine Ran.trans (b := onArrival w i ne.k ne.n ne.dur.toNat ne.pw { s with ch := Channel.step s.ch (.fire tid) }) ?_
      (.same rfl (hret _) (fun x hx => by dsimp only; rw [hretl]; exact hx))
    exact .arrival hw hi ⟨fun _ => ⟨_, _, _, _, ec ▸ hin⟩, by simp [Kind]⟩ (fun _ => ⟨told (by simp), by simp [Kind]⟩) _ _ _ _ _
  | rxEnd i ne =>
    have hdv := h.chi.evDev _ hm i ne (.inr rfl)
    obtain ⟨hphy, hi⟩ := dev_eq h hdv
    have hs' : Channel.step s.ch (.fire tid) = { ({ s.ch with pend := a ++ b } : Channel.St P).emit
        (.finish s.ch.now ne.k ne.n i i ne.pw) with inside := some (.rxEnd ne) } := by
      rw [h3]
      show Channel.receivePacketDone i ne _ = _
      unfold Channel.receivePacketDone
      dsimp only
      rw [hdv, hphy]
    have hlogd : (Channel.step s.ch (.fire tid)).log.drop s.ch.log.length = [.finish s.ch.now ne.k ne.n i i ne.pw] := by
      rw [hs']
      show (s.ch.log ++ [_]).drop _ = _
      rw [List.drop_left]
    have ec : chanStep w tid g s = { onFinish w i ne.k g { s with ch := Channel.step s.ch (.fire tid) } with
        ch := Channel.step (onFinish w i ne.k g { s with ch := Channel.step s.ch (.fire tid) }).ch .ret } := by
      unfold chanStep
      dsimp only
      rw [hlogd]
    generalize chanStep w tid g s = s' at ec ⊢
    rw [ec]
    refine ⟨true, ?_⟩
    refine Ran.trans (b := { s with ch := Channel.step s.ch (.fire tid) }) (.same rfl (by dsimp only; rw [hs']; rfl)
      (fun x hx => by dsimp only; rw [hs']; exact List.mem_append_left _ hx)) ?_
    refine Ran.trans (b := onFinish w i ne.k g { s with ch := Channel.step s.ch (.fire tid) }) ?_ (.same rfl (hret _) (fun x hx => by dsimp only; rw [hretl]; exact hx))
    exact .finish hw hi (fun _ _ _ => ⟨told (by simp), by simp [Kind]⟩) (fun _ => ⟨told (by simp), by simp [Kind]⟩) _ _ _
  | del ne =>
    have hlogd : (Channel.step s.ch (.fire tid)).log.drop s.ch.log.length = [.erased s.ch.now ne.k] := by
      rw [h3]
      show (s.ch.log ++ [_]).drop _ = _
      rw [List.drop_left]
    have ec : chanStep w tid g s = { s with ch := Channel.step s.ch (.fire tid) } := by
      unfold chanStep
      dsimp only
      rw [hlogd]
    generalize chanStep w tid g s = s' at ec ⊢
    rw [ec]
    exact ⟨false, .same rfl (by dsimp only; rw [h3]; rfl) (fun x hx => by dsimp only; rw [h3]; exact List.mem_append_left _ hx)⟩

/-- A step of the stack, as the MACs see it: operations at the same time, or time passes and nothing that is pending is overtaken. -/
theorem macs_step (hw : w.Wf) {s : St P} (h : Inv w s) (o : Op) :
    (∃ q, Ran w (fun i x => Told s (step w s o) i x ∧ Kind q x) s (step w s o)) ∨
    ∃ d : Nat, ∀ i < w.num, (step w s o).mac (w.addr i) =
        Macro.step (w.mcfg (w.addr i)) (w.addr i) (s.mac (w.addr i)) (.advance d) ∧
      onTime (w.mcfg (w.addr i)) (w.addr i) (s.mac (w.addr i)) (.advance d) = true ∧
      (step w s o).air = s.air ∧ ∀ x ∈ s.ch.log, x ∈ (step w s o).ch.log := by
  unfold Stack.step
  by_cases ha : allowed w s o = true
  · rw [if_pos ha]
    cases o with
    | enqueue i b dst g =>
      have hi : i < w.num := by simpa [allowed] using ha
      exact .inl ⟨false, .mac hw hi _ ⟨told (by simp), by simp [Kind]⟩ s⟩
    | mac i tid =>
      unfold allowed at ha
      simp only [Bool.and_eq_true, decide_eq_true_eq] at ha
      exact .inl ⟨false, .mac hw ha.1 _ ⟨told (by simp), by simp [Kind]⟩ s⟩
    | chan tid g =>
      unfold allowed at ha
      simp only at ha
      split at ha
      · cases ha
      · rename_i t due e hf
        exact .inl (Ran.chan hw h g hf (by simpa using ha))
    | tick d =>
      refine .inr ⟨d, fun i hi => ?_⟩
      obtain ⟨mac', h1, h2, h3⟩ := tick_macs hw d (List.range w.num) s List.nodup_range (fun i hi => List.mem_range.1 hi) h.reach
      have e : (tickStep w d s).mac = mac' ∧ (tickStep w d s).air = s.air ∧ ∀ x ∈ s.ch.log, x ∈ (tickStep w d s).ch.log := by
        unfold tickStep
        dsimp only
        rw [h1]
        refine ⟨rfl, rfl, fun x hx => ?_⟩
        show x ∈ (if _ then _ else _ : Channel.St P).log
        split
        · exact hx
        · exact hx
      refine ⟨?_, ?_, e.2⟩
      · show (tickStep w d s).mac _ = _
        rw [e.1, h3 i hi, if_pos (List.mem_range.2 hi)]
      · unfold allowed at ha
        simp only [Bool.and_eq_true, List.all_eq_true, decide_eq_true_eq, List.mem_range, Bool.or_eq_true, Bool.not_eq_true'] at ha
        refine List.all_eq_true.2 (fun x hx => ?_)
        simp only [Bool.or_eq_true, decide_eq_true_eq]
        right
        show (s.mac (w.addr i)).now + d ≤ x.2.1
        have hN := h.node i hi
        rw [hN.mnow]
        rcases ha.2 i hi x hx with h4 | h4
        · obtain ⟨t, due, e⟩ := x
          cases e with
          | phyDone f =>
            have hx' := Macro.mem_txEvs.2 hx
            rcases hN.tx with ⟨-, h5, -⟩ | ⟨f', n, due', t', -, h5, -, -, h6, -⟩
            · rw [h5] at hx'; cases hx'
            · rw [h5] at hx'
              have h7 := List.mem_singleton.1 hx'
              simp only [Prod.mk.injEq] at h7
              obtain ⟨-, rfl, -⟩ := h7
              have h8 : (due, n) ∈ chTxs i s.ch.pend := by rw [h6]; exact List.mem_cons_self
              unfold chTxs at h8
              obtain ⟨y, hy, hye⟩ := List.mem_filterMap.1 h8
              have h9 := ha.1 y hy
              split at hye
              · split at hye
                · have := Option.some.inj hye
                  simp only [Prod.mk.injEq] at this
                  rw [← this.1]
                  exact h9
                · cases hye
              · cases hye
          | _ => simp [own] at h4
        · exact h4
  · rw [if_neg ha]
    exact .inl ⟨false, .same rfl rfl (fun _ h => h)⟩

/-! ## The MAC's run and the log of the air -/

theorem mv_air {s s' : St P} (h : Mv w s s') : ∃ la, s'.air = s.air ++ la ∧
    ∀ o ∈ la, (∃ n i f, o = .tx s.ch.now n i f) ∨ ∃ n i f, o = .rx s.ch.now n i f := by
  cases h with
  | quiet _ _ hair => exact ⟨[], by rw [hair, List.append_nil], by simp⟩
  | hand i f _ _ _ _ hair => exact ⟨_, hair, by intro o ho; rw [List.mem_singleton.1 ho]; exact .inl ⟨_, _, _, rfl⟩⟩
  | txEnd _ _ _ _ _ _ _ _ _ hair => exact ⟨[], by rw [hair, List.append_nil], by simp⟩
  | arrive _ _ _ _ _ _ _ _ _ _ _ hair => exact ⟨[], by rw [hair, List.append_nil], by simp⟩
  | finish i c n t pw x y f la _ _ _ _ _ _ hair hla => exact ⟨la, hair, fun o ho => .inr ⟨_, _, _, hla.1 o ho⟩⟩
  | tick _ _ _ hair => exact ⟨[], by rw [hair, List.append_nil], by simp⟩

/-- What the trace of a run shows is what the log gained. -/
theorem trace_log {c : Macro.Cfg} {me : Mac48} (ops : List Macro.Op) : ∀ s : Macro.St, ∃ l, (Macro.run c me s ops).log = s.log ++ l ∧
    ∀ o, o ∈ l ↔ ∃ x ∈ trace c me s ops, o ∈ x.2.2 := by
  induction ops with
  | nil => exact fun s => ⟨[], (List.append_nil _).symm, by simp [trace]⟩
  | cons a ops ih =>
    intro s
    obtain ⟨l, h1, h2⟩ := ih (Macro.step c me s a)
    refine ⟨newObs c me s a ++ l, ?_, fun o => ?_⟩
    · show (Macro.run c me (Macro.step c me s a) ops).log = _
      rw [h1, Macro.log_kop, List.append_assoc]
    · rw [List.mem_append, h2]
      show _ ↔ ∃ x ∈ _ :: trace c me (Macro.step c me s a) ops, _
      simp only [List.mem_cons, exists_eq_or_imp]

/-- A run during which the clock stands still is in time. -/
theorem still_onTime {c : Macro.Cfg} {me : Mac48} (ops : List Macro.Op) : ∀ s : Macro.St, (Macro.run c me s ops).now = s.now →
    onTimeRun c me s ops = true := by
  induction ops with
  | nil => exact fun _ _ => rfl
  | cons a ops ih =>
    intro s h
    have h1 := Macro.now_le_step c me s a
    have h2 := Macro.now_le_run c me ops (Macro.step c me s a)
    have h3 : (Macro.run c me (Macro.step c me s a) ops).now = s.now := h
    show (onTime c me s a && onTimeRun c me (Macro.step c me s a) ops) = true
    rw [ih _ (by omega), Bool.and_true]
    refine List.all_eq_true.2 (fun e _ => ?_)
    simp only [Bool.or_eq_true, decide_eq_true_eq]
    omega

/-- Only a reception without error is logged as one. -/
theorem rx_only {c : Macro.Cfg} {me : Mac48} {s : Macro.St} {o : Macro.Op} {f : Frame} (h : Macro.Obs.rx f ∈ newObs c me s o) :
    ∃ g, o = .rxDone f true g := by
  have hl := Macro.log_kop c me s o
  have quiet : ∀ {s0 s' : Macro.St}, Tq s0 s' → s0.log = s.log → s'.log = s.log ++ newObs c me s o → False := by
    intro s0 s' hq e1 e2
    obtain ⟨l, e3, e4⟩ := hq.log
    have e5 : newObs c me s o = l := List.append_cancel_left (e2.symm.trans (e3.trans (by rw [e1])))
    have : Macro.Obs.rx f ∈ l.filter Macro.phyObs := List.mem_filter.2 ⟨e5 ▸ h, rfl⟩
    rw [e4] at this; cases this
  cases o with
  | enqueue b d g => exact absurd (quiet (Macro.tq_enqueue c b d g s) rfl hl) id
  | rxStart => exact absurd (quiet (Macro.tq_receivePacket c s) rfl hl) id
  | rxDone f' ok g =>
    have hq := Macro.tq_rxDone c me f' ok g s
    cases ok with
    | false => exact absurd (quiet hq rfl hl) id
    | true =>
      obtain ⟨l, e3, e4⟩ := hq.log
      have e5 : newObs c me s (.rxDone f' true g) = .rx f' :: l := by
        refine List.append_cancel_left (hl.symm.trans (e3.trans ?_))
        show (s.log ++ [_]) ++ l = _
        rw [List.append_assoc]; rfl
      rw [e5] at h
      rcases List.mem_cons.1 h with h1 | h1
      · injection h1 with h2
        exact ⟨g, by rw [h2]⟩
      · have : Macro.Obs.rx f ∈ l.filter Macro.phyObs := List.mem_filter.2 ⟨h1, rfl⟩
        rw [e4] at this; cases this
  | sense b =>
    have : newObs c me s (.sense b) = [] := List.append_cancel_left (hl.symm.trans (List.append_nil _).symm)
    rw [this] at h; cases h
  | advance d =>
    have : newObs c me s (.advance d) = [] := List.append_cancel_left (hl.symm.trans (List.append_nil _).symm)
    rw [this] at h; cases h
  | fire tid =>
    exfalso
    cases hf : s.pend.find? (fun e => e.1 = tid) with
    | none =>
      have : newObs c me s (.fire tid) = [] := by
        refine List.append_cancel_left (hl.symm.trans ?_)
        rw [Macro.fire_none c me s hf, List.append_nil]
      rw [this] at h; cases h
    | some x =>
      obtain ⟨t, due, e⟩ := x
      by_cases he : ∃ f, e = .phyDone f
      · obtain ⟨f', rfl⟩ := he
        have hq := Macro.tq_sendPacketDone c f' { s with pend := s.pend.filter (fun e => e.1 ≠ tid), now := max s.now due }
        obtain ⟨l, e3, e4⟩ := hq.log
        have e5 : newObs c me s (.fire tid) = .txEnd f' :: l := by
          refine List.append_cancel_left (hl.symm.trans ?_)
          rw [Macro.fire_eq c me s hf]
          refine e3.trans ?_
          show (s.log ++ [_]) ++ l = _
          rw [List.append_assoc]; rfl
        rw [e5] at h
        rcases List.mem_cons.1 h with h1 | h1
        · cases h1
        · have : Macro.Obs.rx f ∈ l.filter Macro.phyObs := List.mem_filter.2 ⟨h1, rfl⟩
          rw [e4] at this; cases this
      · have := Macro.tx_fire c me { s with now := max s.now due } tid t due e hf (le_max_right _ _) (fun f hf => he ⟨f, hf⟩)
        rw [← Macro.fire_now c me s hf] at this
        rcases this with h1 | ⟨f', h1⟩
        · exact quiet h1 rfl hl
        · obtain ⟨l, e1, e2⟩ := h1.log
          have e3 : l = newObs c me s (.fire tid) := List.append_cancel_left (e1.symm.trans hl)
          have : Macro.Obs.rx f ∈ l.filter Macro.phyObs := List.mem_filter.2 ⟨e3 ▸ h, rfl⟩
          rw [e2] at this
          exact absurd (List.mem_singleton.1 this) (by simp)

/-- The run of the MAC of device `i`. -/
structure Traced (w : World P) (i : Nat) (s : St P) (mops : List Macro.Op) : Prop where
  eq : s.mac (w.addr i) = Macro.after (w.mcfg (w.addr i)) (w.addr i) (w.seq0 (w.addr i)) mops
  time : onTimeRun (w.mcfg (w.addr i)) (w.addr i) (Macro.init (w.seq0 (w.addr i))) mops = true
  sent : ∀ t f, Sent (trace (w.mcfg (w.addr i)) (w.addr i) (Macro.init (w.seq0 (w.addr i))) mops) t f ↔ ∃ n, AObs.tx t n i f ∈ s.air
  got : ∀ t n f, AObs.rx t n i f ∈ s.air →
    ∃ x ∈ trace (w.mcfg (w.addr i)) (w.addr i) (Macro.init (w.seq0 (w.addr i))) mops, x.1 = t ∧ Macro.Obs.rx f ∈ x.2.2
  only : ∀ x ∈ trace (w.mcfg (w.addr i)) (w.addr i) (Macro.init (w.seq0 (w.addr i))) mops, ∀ f, Macro.Obs.rx f ∈ x.2.2 →
    ∃ n, AObs.rx x.1 n i f ∈ s.air
  heard : ∀ t, Heard (trace (w.mcfg (w.addr i)) (w.addr i) (Macro.init (w.seq0 (w.addr i))) mops) t →
    ∃ c n dur pw, Channel.Obs.arrival t c n i i dur pw ∈ s.ch.log

theorem mem_handedIn {l : List Macro.Obs} {f : Frame} : f ∈ handedIn l ↔ Macro.Obs.handed f ∈ l := by
  unfold handedIn
  rw [List.mem_filterMap]
  constructor
  · rintro ⟨o, h, e⟩
    cases o <;> simp only at e <;> cases e
    exact h
  · exact fun h => ⟨_, h, rfl⟩

theorem mem_rxIn {l : List Macro.Obs} {f : Frame} : f ∈ rxIn l ↔ Macro.Obs.rx f ∈ l := by
  unfold rxIn
  rw [List.mem_filterMap]
  constructor
  · rintro ⟨o, h, e⟩
    cases o <;> simp only at e <;> cases e
    exact h
  · exact fun h => ⟨_, h, rfl⟩

theorem mem_txOf {l : List AObs} {i : Nat} {f : Frame} : f ∈ txOf i l ↔ ∃ t n, AObs.tx t n i f ∈ l := by
  unfold txOf
  rw [List.mem_filterMap]
  constructor
  · rintro ⟨o, h, e⟩
    cases o with
    | tx t n j g =>
      simp only at e
      split at e
      · rename_i hj
        cases e; subst hj; exact ⟨_, _, h⟩
      · cases e
    | rx t n j g => simp at e
  · rintro ⟨t, n, h⟩
    exact ⟨_, h, by simp⟩

theorem mem_rxOf {l : List AObs} {i : Nat} {f : Frame} : f ∈ rxOf i l ↔ ∃ t n, AObs.rx t n i f ∈ l := by
  unfold rxOf
  rw [List.mem_filterMap]
  constructor
  · rintro ⟨o, h, e⟩
    cases o with
    | rx t n j g =>
      simp only at e
      split at e
      · rename_i hj
        cases e; subst hj; exact ⟨_, _, h⟩
      · cases e
    | tx t n j g => simp at e
  · rintro ⟨t, n, h⟩
    exact ⟨_, h, by simp⟩

theorem Traced.step (hw : w.Wf) {s : St P} (h : Inv w s) (o : Op) {i : Nat} (hi : i < w.num) {mops : List Macro.Op}
    (ht : Traced w i s mops) : ∃ new, Traced w i (Stack.step w s o) (mops ++ new) ∧ ∃ q, ∀ x ∈ new, Kind q x := by
  obtain ⟨h', hmv⟩ := h.move hw o
  have hN := h.node i hi
  have hN' := h'.node i hi
  rcases macs_step hw h o with ⟨q, hr⟩ | ⟨d, hd⟩
  · obtain ⟨hnow, hlog, hr⟩ := hr
    obtain ⟨new, e, hk⟩ := hr i hi
    obtain ⟨la, ha, hla⟩ := mv_air hmv
    generalize Stack.step w s o = s' at *
    obtain ⟨l, hl1, hl2⟩ := trace_log (c := w.mcfg (w.addr i)) (me := w.addr i) new (s.mac (w.addr i))
    have hsame : (Macro.run (w.mcfg (w.addr i)) (w.addr i) (s.mac (w.addr i)) new).now = (s.mac (w.addr i)).now := by
      rw [← e, hN'.mnow, hN.mnow, hnow]
    have htime : ∀ x ∈ trace (w.mcfg (w.addr i)) (w.addr i) (s.mac (w.addr i)) new, x.1 = s.ch.now := by
      intro x hx
      have h1 := Macro.trace_ge new _ x hx
      have h2 := Macro.trace_le new _ x hx
      rw [hsame] at h2
      rw [hN.mnow] at h1 h2
      omega
    have e0 : Macro.run (w.mcfg (w.addr i)) (w.addr i) (Macro.init (w.seq0 (w.addr i))) mops = s.mac (w.addr i) := ht.eq.symm
    have etr : trace (w.mcfg (w.addr i)) (w.addr i) (Macro.init (w.seq0 (w.addr i))) (mops ++ new) =
        trace (w.mcfg (w.addr i)) (w.addr i) (Macro.init (w.seq0 (w.addr i))) mops ++
        trace (w.mcfg (w.addr i)) (w.addr i) (s.mac (w.addr i)) new := by rw [Macro.trace_append, e0]
    have hh : handedIn l = txOf i la := by
      have h1 := hN'.handed
      rw [e, hl1, handedIn_append, ha, txOf_append, hN.handed] at h1
      exact List.append_cancel_left h1
    have hg : rxIn l = rxOf i la := by
      have h1 := hN'.got
      rw [e, hl1, rxIn_append, ha, rxOf_append, hN.got] at h1
      exact List.append_cancel_left h1
    refine ⟨new, ⟨?_, ?_, fun t f => ?_, fun t n f hm => ?_, fun x hx f hxf => ?_, fun t hm => ?_⟩, q, fun x hx => (hk x hx).2⟩
    · rw [e]
      unfold Macro.after
      rw [Macro.run_append, e0]
    · rw [Macro.onTimeRun_append, ht.time, e0, still_onTime new _ hsame]; rfl
    · rw [etr]
      constructor
      · rintro ⟨x, hx, rfl, hxf⟩
        rcases List.mem_append.1 hx with hx | hx
        · obtain ⟨n, hn⟩ := (ht.sent x.1 f).1 ⟨x, hx, rfl, hxf⟩
          exact ⟨n, by rw [ha]; exact List.mem_append_left _ hn⟩
        · have h1 : f ∈ handedIn l := mem_handedIn.2 ((hl2 _).2 ⟨x, hx, hxf⟩)
          rw [hh] at h1
          obtain ⟨t', n, h2⟩ := mem_txOf.1 h1
          refine ⟨n, ?_⟩
          rw [ha, htime x hx]
          refine List.mem_append_right _ ?_
          rcases hla _ h2 with ⟨n', j, f', e1⟩ | ⟨n', j, f', e1⟩
          · injection e1 with q1 q2 q3 q4
            rw [← q1]; exact h2
          · cases e1
      · rintro ⟨n, hn⟩
        rw [ha] at hn
        rcases List.mem_append.1 hn with hn | hn
        · exact ((ht.sent t f).2 ⟨n, hn⟩).mono (fun x hx => List.mem_append_left _ hx)
        · have h1 : f ∈ handedIn l := by rw [hh]; exact mem_txOf.2 ⟨_, _, hn⟩
          obtain ⟨x, hx, hxf⟩ := (hl2 _).1 (mem_handedIn.1 h1)
          refine ⟨x, List.mem_append_right _ hx, ?_, hxf⟩
          rw [htime x hx]
          rcases hla _ hn with ⟨n', j, f', e1⟩ | ⟨n', j, f', e1⟩
          · injection e1 with q1
            exact q1.symm
          · cases e1
    · rw [etr]
      rw [ha] at hm
      rcases List.mem_append.1 hm with hm | hm
      · obtain ⟨x, h1, h2⟩ := ht.got _ _ _ hm
        exact ⟨x, List.mem_append_left _ h1, h2⟩
      · have h1 : f ∈ rxIn l := by rw [hg]; exact mem_rxOf.2 ⟨_, _, hm⟩
        obtain ⟨x, hx, hxf⟩ := (hl2 _).1 (mem_rxIn.1 h1)
        refine ⟨x, List.mem_append_right _ hx, ?_, hxf⟩
        rw [htime x hx]
        rcases hla _ hm with ⟨n', j, f', e1⟩ | ⟨n', j, f', e1⟩
        · cases e1
        · injection e1 with q1
          exact q1.symm
    · rw [etr] at hx
      rw [ha]
      rcases List.mem_append.1 hx with hx | hx
      · obtain ⟨n, h1⟩ := ht.only x hx f hxf
        exact ⟨n, List.mem_append_left _ h1⟩
      · have h1 : f ∈ rxIn l := mem_rxIn.2 ((hl2 _).2 ⟨x, hx, hxf⟩)
        rw [hg] at h1
        obtain ⟨t', n, h2⟩ := mem_rxOf.1 h1
        refine ⟨n, ?_⟩
        rw [htime x hx]
        refine List.mem_append_right _ ?_
        rcases hla _ h2 with ⟨n', j, f', e1⟩ | ⟨n', j, f', e1⟩
        · cases e1
        · injection e1 with q1
          rw [← q1]; exact h2
    · rw [etr] at hm
      obtain ⟨x, hx, rfl, hxo⟩ := hm
      rcases List.mem_append.1 hx with hx | hx
      · obtain ⟨c, n, dur, pw, h1⟩ := ht.heard x.1 ⟨x, hx, rfl, hxo⟩
        exact ⟨c, n, dur, pw, hlog _ h1⟩
      · rw [htime x hx]
        obtain ⟨a, o', b, h1, h2⟩ := Macro.mem_trace new _ x hx
        have h3 : x.2.1 = o' := by rw [h2]
        refine (hk o' (by rw [h1]; simp)).1 (h3.symm.trans hxo)
  · obtain ⟨e, hon, hair, hlog⟩ := hd i hi
    have e0 : Macro.run (w.mcfg (w.addr i)) (w.addr i) (Macro.init (w.seq0 (w.addr i))) mops = s.mac (w.addr i) := ht.eq.symm
    have hnil : newObs (w.mcfg (w.addr i)) (w.addr i) (s.mac (w.addr i)) (.advance d) = [] :=
      List.append_cancel_left ((Macro.log_kop _ _ _ _).symm.trans (List.append_nil _).symm)
    have etr : trace (w.mcfg (w.addr i)) (w.addr i) (Macro.init (w.seq0 (w.addr i))) (mops ++ [.advance d]) =
        trace (w.mcfg (w.addr i)) (w.addr i) (Macro.init (w.seq0 (w.addr i))) mops ++
        [((Macro.step (w.mcfg (w.addr i)) (w.addr i) (s.mac (w.addr i)) (.advance d)).now, .advance d, [])] := by
      rw [Macro.trace_append, e0]
      show _ ++ [(_, _, newObs _ _ _ _)] = _
      rw [hnil]
    refine ⟨[.advance d], ⟨?_, ?_, fun t f => ?_, fun t n f hm => ?_, fun x hx f hxf => ?_, fun t hm => ?_⟩, false, by simp [Kind]⟩
    · rw [e]
      unfold Macro.after
      rw [Macro.run_append, e0]; rfl
    · rw [Macro.onTimeRun_append, ht.time, e0]
      show (true && (onTime _ _ _ _ && true)) = true
      rw [hon]; rfl
    · rw [etr, hair, ← ht.sent]
      constructor
      · rintro ⟨x, hx, h1, h2⟩
        rcases List.mem_append.1 hx with hx | hx
        · exact ⟨x, hx, h1, h2⟩
        · rw [List.mem_singleton.1 hx] at h2; cases h2
      · exact fun h => h.mono (fun x hx => List.mem_append_left _ hx)
    · rw [hair] at hm
      obtain ⟨x, h1, h2⟩ := ht.got _ _ _ hm
      exact ⟨x, by rw [etr]; exact List.mem_append_left _ h1, h2⟩
    · rw [etr] at hx
      rw [hair]
      rcases List.mem_append.1 hx with hx | hx
      · exact ht.only x hx f hxf
      · rw [List.mem_singleton.1 hx] at hxf; cases hxf
    · rw [etr] at hm
      obtain ⟨x, hx, rfl, hxo⟩ := hm
      rcases List.mem_append.1 hx with hx | hx
      · obtain ⟨c, n, dur, pw, h1⟩ := ht.heard x.1 ⟨x, hx, rfl, hxo⟩
        exact ⟨c, n, dur, pw, hlog _ h1⟩
      · rw [List.mem_singleton.1 hx] at hxo; cases hxo

theorem Traced.init (w : World P) (i : Nat) : Traced w i (Stack.init w) [] :=
  ⟨rfl, rfl, fun t f => by simp [trace, Sent, Stack.init], fun t n f h => by simp [Stack.init] at h, fun x h => by simp [trace] at h,
    fun t h => by simp [trace, Heard] at h⟩

theorem Traced.more (hw : w.Wf) {i : Nat} (hi : i < w.num) (ops : List Op) : ∀ {s : St P} {mops : List Macro.Op}, Inv w s →
    Traced w i s mops → ∃ new, Traced w i (ops.foldl (Stack.step w) s) (mops ++ new) := by
  induction ops with
  | nil => exact fun _ h => ⟨[], by rw [List.append_nil]; exact h⟩
  | cons o ops ih =>
    intro s mops h ht
    obtain ⟨n1, h1, -⟩ := ht.step hw h o hi
    obtain ⟨n2, h2⟩ := ih (h.step hw o) h1
    exact ⟨n1 ++ n2, by rw [← List.append_assoc]; exact h2⟩

theorem traced_after (hw : w.Wf) (ops : List Op) {i : Nat} (hi : i < w.num) : ∃ mops, Traced w i (after w ops) mops := by
  obtain ⟨new, h⟩ := (Traced.init w i).more hw hi ops (.init w)
  exact ⟨_, h⟩

/-! ## The MACs that are no device -/

section Other

variable {x : Mac48}

theorem other_mac (hx : ∀ i, w.addr i ≠ x) (i : Nat) (op : Macro.Op) (s : St P) : (macStep w i op s).mac x = s.mac x := by
  rw [(macStep_mac w i op s).1, Function.update_of_ne (Ne.symm (hx i))]

theorem other_report (hx : ∀ i, w.addr i ≠ x) (i : Nat) (g : UInt16) (s : St P) (y : Nat × Bool) :
    (report w i g s y).mac x = s.mac x := by
  unfold Stack.report
  split
  · rfl
  · split
    · rfl
    · dsimp only
      split
      · exact other_mac hx i _ s
      · exact other_mac hx i _ s

theorem other_reports (hx : ∀ i, w.addr i ≠ x) (i : Nat) (g : UInt16) (l : List (Nat × Bool)) :
    ∀ s : St P, (l.foldl (report w i g) s).mac x = s.mac x := by
  induction l with
  | nil => exact fun s => rfl
  | cons y l ih => exact fun s => (ih _).trans (other_report hx i g s y)

theorem other_chan (hx : ∀ i, w.addr i ≠ x) (tid : Nat) (g : UInt16) (s : St P) : (chanStep w tid g s).mac x = s.mac x := by
  unfold chanStep
  dsimp only
  split
  · unfold onTxEnd
    split
    · exact (other_mac hx _ _ _).trans (other_mac hx _ _ _)
    · rfl
  · show (onArrival w _ _ _ _ _ _).mac x = _
    unfold onArrival
    dsimp only
    split
    · exact (other_mac hx _ _ _).trans (other_mac hx _ _ _)
    · exact other_mac hx _ _ _
  · show (onFinish w _ _ _ _).mac x = _
    unfold onFinish
    dsimp only
    split
    · rfl
    · exact (other_reports hx _ _ _ _).trans (other_mac hx _ _ _)
  · rfl

theorem other_step (hx : ∀ i, w.addr i ≠ x) (o : Op) (s : St P) : (step w s o).mac x = s.mac x := by
  unfold Stack.step
  split
  · cases o with
    | enqueue i b dst g => exact other_mac hx _ _ _
    | mac i tid => exact other_mac hx _ _ _
    | chan tid g => exact other_chan hx _ _ _
    | tick d =>
      show ((List.range w.num).foldl (fun s i => macStep w i (.advance d) s) s).mac x = _
      have : ∀ (l : List Nat) (s : St P), (l.foldl (fun s i => macStep w i (.advance d) s) s).mac x = s.mac x := by
        intro l
        induction l with
        | nil => exact fun s => rfl
        | cons i l ih => exact fun s => (ih _).trans (other_mac hx _ _ _)
      exact this _ _
  · rfl

/-- Nothing happens at an address that no device has. -/
theorem other_after (hx : ∀ i, w.addr i ≠ x) (ops : List Op) : (after w ops).mac x = Macro.init (w.seq0 x) := by
  unfold after
  have : ∀ s : St P, (ops.foldl (step w) s).mac x = s.mac x := by
    induction ops with
    | nil => exact fun s => rfl
    | cons o l ih => exact fun s => (ih _).trans (other_step hx o s)
  exact this _

end Other

end Thz.Stack
