import Verif.NanoStackRx
import Verif.NanoAck

/-!
# Complete nano devices: what a step does to the MACs and to accepted frames

`Eff`: what a step does to the MACs.  `Due`: their events have the due times of the code.  `launched_after`: an accepted frame is
transmitted when its pulses are to start.
-/

set_option linter.unusedSectionVars false

namespace Thz.NStack

open Thz
open Thz.Nano (Body bcast Frame Pkt Kind dataFrame)

variable {P : Type} [AddCommMonoid P]

/-! ## What the MAC hands over -/

theorem transmit_air (w : World P) (i : Nat) (s : St P) (f : Frame) :
    ∃ l, (transmit w i s f).air = s.air ++ .handed s.now i f :: l ∧ ∀ o ∈ l, ∃ st, o = .accepted s.now i f st := by
  unfold transmit
  dsimp only
  split
  · exact ⟨_, rfl, by simp⟩
  · exact ⟨[], rfl, by simp⟩

theorem transmits_air (w : World P) (i : Nat) : ∀ (l : List Frame) (s : St P), ∃ k, (l.foldl (transmit w i) s).air = s.air ++ k ∧
    (∀ f ∈ l, AObs.handed s.now i f ∈ k) ∧ ∀ o ∈ k, ∃ f ∈ l, o = .handed s.now i f ∨ ∃ st, o = .accepted s.now i f st
  | [], s => ⟨[], by simp, by simp, by simp⟩
  | f :: l, s => by
    obtain ⟨k1, e1, h1⟩ := transmit_air w i s f
    obtain ⟨k2, e2, h2, h3⟩ := transmits_air w i l (transmit w i s f)
    have hn : (transmit w i s f).now = s.now := (transmit_keeps w i f s).1
    rw [hn] at h2 h3
    rw [List.foldl_cons]
    refine ⟨.handed s.now i f :: k1 ++ k2, by rw [e2, e1, List.append_assoc], ?_, ?_⟩
    · intro g hg
      rcases List.mem_cons.1 hg with rfl | hg
      · exact List.mem_append_left _ List.mem_cons_self
      · exact List.mem_append_right _ (h2 g hg)
    · intro o ho
      rcases List.mem_append.1 ho with ho | ho
      · rcases List.mem_cons.1 ho with rfl | ho
        · exact ⟨f, List.mem_cons_self, .inl rfl⟩
        · exact ⟨f, List.mem_cons_self, .inr (h1 o ho)⟩
      · obtain ⟨g, hg, h⟩ := h3 o ho
        exact ⟨g, List.mem_cons_of_mem _ hg, h⟩

/-- The new part of the log. -/
theorem take_new {l l' new : List Nano.Obs} (e : l' = new ++ l) : l'.take (l'.length - l.length) = new := by
  subst e
  rw [List.length_append, Nat.add_sub_cancel, List.take_left']
  rfl

/-- What an operation of a MAC does to the common state. -/
theorem macStep_eq (w : World P) (i g : Nat) (op : Nano.Op) (s : St P) {new : List Nano.Obs}
    (e : (Nano.step (w.mcfg (w.addr i)) (w.addr i) (s.mac (w.addr i)) op).log = new ++ (s.mac (w.addr i)).log) :
    ∃ k, (macStep w i g op s).air = s.air ++ k ∧ (∀ f, Nano.Obs.tx f ∈ new → AObs.handed s.now i f ∈ k) ∧
    (∀ o ∈ k, ∃ f, Nano.Obs.tx f ∈ new ∧ (o = .handed s.now i f ∨ ∃ st, o = .accepted s.now i f st)) ∧
    (macStep w i g op s).due = Function.update s.due i (fun tid => if (s.mac (w.addr i)).nextTid ≤ tid then
      s.now + wait w i g (Nano.step (w.mcfg (w.addr i)) (w.addr i) (s.mac (w.addr i)) op) new tid else s.due i tid) := by
  unfold macStep
  dsimp only
  rw [take_new e]
  obtain ⟨k, h1, h2, h3⟩ := transmits_air w i (framesIn new) { s with
    mac := Function.update s.mac (w.addr i) (Nano.step (w.mcfg (w.addr i)) (w.addr i) (s.mac (w.addr i)) op)
    due := Function.update s.due i (fun tid => if (s.mac (w.addr i)).nextTid ≤ tid then
      s.now + wait w i g (Nano.step (w.mcfg (w.addr i)) (w.addr i) (s.mac (w.addr i)) op) new tid else s.due i tid) }
  refine ⟨k, h1, fun f hf => h2 f (mem_framesIn.2 hf), ?_, (transmits_keep w i _ _).2.2.2.2.2.2.1⟩
  intro o ho
  obtain ⟨f, hf, h⟩ := h3 o ho
  exact ⟨f, mem_framesIn.1 hf, h⟩

/-! ## The effect of a step -/

/-- The effect of a step on the MACs. -/
inductive Eff (w : World P) (s s' : St P) : Prop
  | still (hm : s'.mac = s.mac) (hd : s'.due = s.due) (ha : ∃ l, s'.air = s.air ++ l ∧ ∀ o ∈ l, ∃ t n i f, o = .tx t n i f)
      (hn : s'.now = s.now ∨ (s.now ≤ s'.now ∧ ∀ i < w.num, ∀ e ∈ (s.mac (w.addr i)).pend, s'.now ≤ s.due i e.1))
  | mac (i g : Nat) (op : Nano.Op) (s0 : St P) (hi : i < w.num) (h0 : Inv w s0) (hal : Nano.Allowed s0.mac op)
      (hm0 : s0.mac = s.mac) (hd0 : s0.due = s.due) (hn0 : s0.now = s.now)
      (ha0 : (s0.air = s.air ∧ ∀ f, op ≠ .recv f true) ∨ ∃ f n, op = .recv f true ∧ s0.air = s.air ++ [.rx s.now n i f])
      (hf : ∀ tid, op = .fire tid → s.due i tid ≤ s.now)
      (hm : s'.mac = (macStep w i g op s0).mac) (hd : s'.due = (macStep w i g op s0).due) (hn : s'.now = (macStep w i g op s0).now)
      (ha : s'.air = (macStep w i g op s0).air)

theorem smove_eff {w : World P} {s s' : St P} {o : Op P} (h : Inv w s) (hidle : Idle s) (m : SMove w s o s') : Eff w s s' := by
  cases m with
  | none => exact .still rfl rfl ⟨[], by simp, by simp⟩ (.inl rfl)
  | mac i g op hi ha ho =>
    refine .mac i g op s hi h ha rfl rfl rfl (.inl ⟨rfl, ?_⟩) ?_ rfl rfl rfl rfl
    · rintro f rfl
      rcases ho with ⟨b, d, -, h⟩ | ⟨tid, -, h, -⟩ | ⟨-, h⟩ | ⟨-, h⟩ <;> cases h
    · rintro tid rfl
      rcases ho with ⟨b, d, -, h⟩ | ⟨tid, -, h, h'⟩ | ⟨-, h⟩ | ⟨-, h⟩ <;> cases h
      exact h'
  | land hx hdue => exact .still rfl rfl ⟨[], by simp, by simp⟩ (.inl rfl)
  | @tick d ha =>
    refine .still rfl rfl ⟨[], by simp [tick], by simp⟩ (.inr ⟨?_, ?_⟩)
    · show s.now ≤ s.now + d
      omega
    · simp only [allowed, Bool.and_eq_true, List.all_eq_true, decide_eq_true_eq, List.mem_range] at ha
      intro i hi e he
      exact (ha.2 i hi).2 e he
  | @phy i tid _ hi hm =>
    cases hm with
    | none => exact .still rfl rfl ⟨[], by simp, by simp⟩ (.inl rfl)
    | launch => exact .still rfl rfl ⟨_, rfl, by simp⟩ (.inl rfl)
    | erase => exact .still rfl rfl ⟨[], by simp, by simp⟩ (.inl rfl)
    | quiet => exact .still rfl rfl ⟨[], by simp, by simp⟩ (.inl rfl)
    | @notice _ a b r p' n src t0 f hp hr hend hn htx hne hst hdur hno e hs =>
      refine .mac i 0 (.recv f (!r.coll))
        { s with phy := Function.update s.phy i p', air := s.air ++ if r.coll = true then [] else [.rx s.now n i f] } hi
        (h.noticed hidle hi hp hend hn htx hne hst hdur hno e hs) ?_ rfl rfl rfl ?_ (by simp) rfl rfl rfl rfl
      · cases r.coll
        · exact ⟨w.addr src, h.tx_mac htx⟩
        · trivial
      · cases hc : r.coll
        · exact .inr ⟨f, n, rfl, by simp⟩
        · exact .inl ⟨by simp, by simp⟩

theorem step_eff {w : World P} (hw : w.Wf) (ops : List (Op P)) (o : Op P) : Eff w (after w ops) (after w (ops ++ [o])) := by
  obtain ⟨h, hidle⟩ := inv_after hw ops
  rw [after_snoc]
  exact smove_eff h hidle (step_smove hw h hidle o)

/-! ## Due times -/

theorem node_tids {w : World P} {s : St P} (h : Inv w s) (a : Mac48) : Nano.Tids (s.mac a) := by
  obtain ⟨ops, e⟩ := h.reach.node a
  rw [e]
  exact Nano.after_tids _ _ _ _

theorem node_inv0 {w : World P} {s : St P} (h : Inv w s) (a : Mac48) : Nano.Inv0 (s.mac a) := by
  obtain ⟨ops, e⟩ := h.reach.node a
  rw [e]
  exact Nano.after_inv0 _ _ _ _

/-- The events of the MACs are not overdue; the timeout of an acknowledgement is due when the code says; without RTS there is no CTS timeout. -/
structure Due (w : World P) (s : St P) : Prop where
  ahead : ∀ i < w.num, ∀ e ∈ (s.mac (w.addr i)).pend, s.now ≤ s.due i e.1
  ack : ∀ i < w.num, ∀ tid q, (tid, Nano.Ev.ackTimeout q) ∈ (s.mac (w.addr i)).pend →
    ∃ t p, p.seq = q ∧ AObs.handed t i (dataFrame (w.addr i) p) ∈ s.air ∧ s.due i tid = t + ackWait w i p.size
  cts : ∀ i < w.num, (w.mcfg (w.addr i)).rts = false → ∀ tid p, (tid, Nano.Ev.ctsTimeout p) ∉ (s.mac (w.addr i)).pend

theorem Due.init (w : World P) : Due w (init w) := by
  constructor <;> simp [NStack.init, Nano.St.init]

theorem wait_ack {w : World P} {i g : Nat} {m : Nano.St} {new : List Nano.Obs} (hT : Nano.Tids m) {tid : Nat} {q : UInt16} {p : Pkt}
    (h1 : (tid, Nano.Ev.ackTimeout q) ∈ m.pend) (h2 : ⟨q, tid, p⟩ ∈ m.ackTO) (h3 : ∀ a ∈ m.ackTO, a.tid = tid → a.pkt = p) :
    wait w i g m new tid = ackWait w i p.size := by
  unfold wait
  cases hf : m.pend.find? (fun e => decide (e.1 = tid)) with
  | none =>
    have := List.find?_eq_none.1 hf _ h1
    simp at this
  | some e =>
    obtain ⟨tid', ev⟩ := e
    have ht : tid' = tid := by simpa using List.find?_some hf
    subst ht
    have := hT.uniq _ _ _ (List.mem_of_find?_eq_some hf) h1
    subst this
    dsimp only
    cases hg : m.ackTO.find? (fun t => decide (t.tid = tid')) with
    | none =>
      have := List.find?_eq_none.1 hg _ h2
      simp at this
    | some t =>
      dsimp only
      rw [h3 t (List.mem_of_find?_eq_some hg) (by simpa using List.find?_some hg)]

theorem Due.eff {w : World P} (hw : w.Wf) {s s' : St P} (hd : Due w s) (he : Eff w s s') : Due w s' := by
  cases he with
  | still hm hdue ha hn =>
    obtain ⟨l, ha, -⟩ := ha
    constructor
    · intro i hi e he
      rw [hm] at he
      rw [hdue]
      rcases hn with hn | ⟨-, hn⟩
      · rw [hn]; exact hd.ahead i hi e he
      · exact hn i hi e he
    · intro i hi tid q he
      rw [hm] at he
      obtain ⟨t, p, h1, h2, h3⟩ := hd.ack i hi tid q he
      exact ⟨t, p, h1, by rw [ha]; exact List.mem_append_left _ h2, by rw [hdue]; exact h3⟩
    · intro i hi hc tid p he
      rw [hm] at he
      exact hd.cts i hi hc tid p he
  | mac i g op s0 hi h0 hal hm0 hd0 hn0 ha0 hf hm hdue hn ha =>
    obtain ⟨new, el, -⟩ := Nano.step_adds (w.mcfg (w.addr i)) (w.addr i) (s0.mac (w.addr i)) op
    obtain ⟨k, e1, e2, e3, e4⟩ := macStep_eq w i g op s0 el
    have em := (macStep_keeps w i g op s0).2.2.2.2.2.1
    have en := (macStep_keeps w i g op s0).1
    have hT := node_tids h0 (w.addr i)
    have hT' : Nano.Tids (Nano.step (w.mcfg (w.addr i)) (w.addr i) (s0.mac (w.addr i)) op) := hT.step _ _ _
    have hair : ∃ l, s'.air = s.air ++ l := by
      rw [ha, e1]
      rcases ha0 with ⟨h, -⟩ | ⟨f, n, -, h⟩
      · exact ⟨k, by rw [h]⟩
      · exact ⟨[.rx s.now n i f] ++ k, by rw [h, List.append_assoc]⟩
    obtain ⟨l, hair⟩ := hair
    have hmac : ∀ j < w.num, j ≠ i → s'.mac (w.addr j) = s.mac (w.addr j) ∧ s'.due j = s.due j := by
      intro j hj hne
      refine ⟨?_, ?_⟩
      · rw [hm, em, Function.update_of_ne (fun hc => hne (hw.inj j hj i hi hc)), hm0]
      · rw [hdue, e4, Function.update_of_ne hne, hd0]
    have hmi : s'.mac (w.addr i) = Nano.step (w.mcfg (w.addr i)) (w.addr i) (s0.mac (w.addr i)) op := by rw [hm, em, Function.update_self]
    have hdi : ∀ tid, s'.due i tid = if (s0.mac (w.addr i)).nextTid ≤ tid then
        s0.now + wait w i g (Nano.step (w.mcfg (w.addr i)) (w.addr i) (s0.mac (w.addr i)) op) new tid else s0.due i tid := by
      intro tid
      rw [hdue, e4, Function.update_self]
    have hnow : s'.now = s.now := hn.trans (en.trans hn0)
    have hold : ∀ e ∈ (s0.mac (w.addr i)).pend, s'.due i e.1 = s.due i e.1 := by
      intro e he
      rw [hdi, if_neg (by have := hT.lt e he; omega), hd0]
    constructor
    · intro j hj e he
      by_cases hne : j = i
      · subst hne
        rw [hmi] at he
        rcases Nano.new_events _ _ _ _ e he with h | h
        · rw [hold e h, hnow]
          rw [hm0] at h
          exact hd.ahead j hj e h
        · rw [hdi, if_pos h, hnow, hn0]
          omega
      · obtain ⟨q1, q2⟩ := hmac j hj hne
        rw [q1] at he
        rw [q2, hnow]
        exact hd.ahead j hj e he
    · intro j hj tid q he
      by_cases hne : j = i
      · subst hne
        rw [hmi] at he
        by_cases hin : (tid, Nano.Ev.ackTimeout q) ∈ (s0.mac (w.addr j)).pend
        · rw [hold _ hin]
          rw [hm0] at hin
          obtain ⟨t, p, h1, h2, h3⟩ := hd.ack j hj tid q hin
          exact ⟨t, p, h1, by rw [hair]; exact List.mem_append_left _ h2, h3⟩
        · obtain ⟨p, h1, h2, h3, h4⟩ := Nano.new_wait hT el he hin
          have h5 := (Nano.new_events _ _ _ _ _ he).resolve_left hin
          refine ⟨s0.now, p, h1, ?_, ?_⟩
          · rw [ha, e1]
            exact List.mem_append_right _ (e2 _ h2)
          · rw [hdi, if_pos h5, wait_ack hT' he h3 h4]
      · obtain ⟨q1, q2⟩ := hmac j hj hne
        rw [q1] at he
        obtain ⟨t, p, h1, h2, h3⟩ := hd.ack j hj tid q he
        exact ⟨t, p, h1, by rw [hair]; exact List.mem_append_left _ h2, by rw [q2]; exact h3⟩
    · intro j hj hc tid p he
      by_cases hne : j = i
      · subst hne
        rw [hmi] at he
        refine Nano.noCts_step hc _ _ ?_ tid p he
        rw [hm0]
        exact hd.cts j hj hc
      · rw [(hmac j hj hne).1] at he
        exact hd.cts j hj hc tid p he

theorem due_after {w : World P} (hw : w.Wf) (ops : List (Op P)) : Due w (after w ops) := by
  induction ops using List.reverseRecOn with
  | nil => exact Due.init w
  | append_singleton ops o ih => exact ih.eff hw (step_eff hw ops o)

/-! ## Accepted frames are transmitted -/

/-- The start of an accepted frame is pending, or it has been transmitted. -/
def Booked (s : St P) (i : Nat) (f : Frame) (st : ℤ) : Prop :=
  (∃ tid id dur, (tid, st, PhyNano.Ev.launch id dur) ∈ (s.phy i).pend ∧ (s.acc i)[id]? = some f) ∨ ∃ n, AObs.tx st n i f ∈ s.air

theorem get_append {α : Type} {l k : List α} {n : Nat} {x : α} (h : l[n]? = some x) : (l ++ k)[n]? = some x := by
  obtain ⟨h1, -⟩ := List.getElem?_eq_some_iff.1 h
  rw [List.getElem?_append_left h1]
  exact h

theorem transmit_booked {w : World P} (hw : w.Wf) {s : St P} (h : Inv w s) (i : Nat) (f : Frame) {j : Nat} {g : Frame} {st : ℤ} :
    (Booked s j g st → Booked (transmit w i s f) j g st) ∧
    ∀ t, AObs.accepted t j g st ∈ (transmit w i s f).air → AObs.accepted t j g st ∉ s.air → Booked (transmit w i s f) j g st := by
  rcases transmit_cases hw h i f with ⟨start, e, -, -⟩ | ⟨e, -, -⟩
  · rw [e]
    constructor
    · rintro (⟨tid, id, dur, h1, h2⟩ | ⟨n, h1⟩)
      · left
        refine ⟨tid, id, dur, ?_, ?_⟩
        · show _ ∈ (Function.update s.phy i _ j).pend
          by_cases hj : j = i
          · subst hj
            rw [Function.update_self]
            exact List.mem_append_left _ h1
          · rw [Function.update_of_ne hj]; exact h1
        · show (Function.update s.acc i _ j)[id]? = _
          by_cases hj : j = i
          · subst hj
            rw [Function.update_self]
            exact get_append h2
          · rw [Function.update_of_ne hj]; exact h2
      · exact .inr ⟨n, List.mem_append_left _ h1⟩
    · intro t hm hn
      rcases List.mem_append.1 hm with hm | hm
      · exact absurd hm hn
      simp only [List.mem_cons, reduceCtorEq, AObs.accepted.injEq, List.not_mem_nil, or_false, false_or] at hm
      obtain ⟨rfl, rfl, rfl, rfl⟩ := hm
      left
      refine ⟨(s.phy j).nextTid, (s.phy j).nextTx, w.airtime j g.size, ?_, ?_⟩
      · show _ ∈ (Function.update s.phy j _ j).pend
        rw [Function.update_self]
        exact List.mem_append_right _ List.mem_cons_self
      · show (Function.update s.acc j _ j)[_]? = _
        rw [Function.update_self, ← h.accLen j, List.getElem?_append_right (le_refl _), Nat.sub_self]
        rfl
  · rw [e]
    constructor
    · rintro (⟨tid, id, dur, h1, h2⟩ | ⟨n, h1⟩)
      · left
        refine ⟨tid, id, dur, ?_, h2⟩
        show _ ∈ (Function.update s.phy i _ j).pend
        by_cases hj : j = i
        · subst hj
          rw [Function.update_self]
          exact h1
        · rw [Function.update_of_ne hj]; exact h1
      · exact .inr ⟨n, List.mem_append_left _ h1⟩
    · intro t hm hn
      rcases List.mem_append.1 hm with hm | hm
      · exact absurd hm hn
      · simp at hm

/-- Whatever is accepted is booked. -/
def AllBooked (s : St P) : Prop := ∀ t j g st, AObs.accepted t j g st ∈ s.air → Booked s j g st

theorem transmits_booked {w : World P} (hw : w.Wf) {i : Nat} (hi : i < w.num) : ∀ (l : List Frame) {s : St P}, Inv w s →
    (∀ f ∈ l, Nano.Obs.tx f ∈ (s.mac (w.addr i)).log) → AllBooked s → AllBooked (l.foldl (transmit w i) s)
  | [], _, _, _, hb => hb
  | f :: l, s, h, ht, hb => by
    obtain ⟨h1, h2⟩ := h.sent hw hi (ht f List.mem_cons_self)
    refine transmits_booked hw hi l h1 (fun g hg => by rw [h2]; exact ht g (List.mem_cons_of_mem _ hg)) ?_
    intro t j g st hm
    obtain ⟨k1, k2⟩ := transmit_booked hw h i f (j := j) (g := g) (st := st)
    by_cases hc : AObs.accepted t j g st ∈ s.air
    · exact k1 (hb t j g st hc)
    · exact k2 t hm hc

theorem macStep_booked {w : World P} (hw : w.Wf) {s : St P} (h : Inv w s) {i : Nat} (hi : i < w.num) (g : Nat) (op : Nano.Op)
    (ha : Nano.Allowed s.mac op) (hb : AllBooked s) : AllBooked (macStep w i g op s) := by
  unfold NStack.macStep
  refine transmits_booked hw hi _ (h.macUpd hw hi op ha _) ?_ hb
  intro f hf
  show _ ∈ (Function.update s.mac (w.addr i) _ (w.addr i)).log
  rw [Function.update_self]
  exact List.mem_of_mem_take (mem_framesIn.1 hf)

/-- Events of a PHY that are no starts leave the starts alone. -/
theorem AllBooked.quiet {s : St P} (hb : AllBooked s) {i : Nat} {p' : PhyNano.St P} {l : List AObs}
    (hp : ∀ tid st id dur, (tid, st, PhyNano.Ev.launch id dur) ∈ (s.phy i).pend → (tid, st, PhyNano.Ev.launch id dur) ∈ p'.pend)
    (hl : ∀ t j g st, AObs.accepted t j g st ∉ l) : AllBooked { s with phy := Function.update s.phy i p', air := s.air ++ l } := by
  intro t j g st hm
  rcases List.mem_append.1 hm with hm | hm
  swap
  · exact absurd hm (hl _ _ _ _)
  rcases hb t j g st hm with ⟨tid, id, dur, h1, h2⟩ | ⟨n, h1⟩
  · left
    refine ⟨tid, id, dur, ?_, h2⟩
    show _ ∈ (Function.update s.phy i p' j).pend
    by_cases hj : j = i
    · subst hj
      rw [Function.update_self]
      exact hp _ _ _ _ h1
    · rw [Function.update_of_ne hj]; exact h1
  · exact .inr ⟨n, List.mem_append_left _ h1⟩

theorem mem_cut {α : Type} {x y : α} {a b l : List α} (e : l = a ++ y :: b) (h : x ∈ l) (hne : x ≠ y) : x ∈ a ++ b := by
  rw [e] at h
  rcases List.mem_append.1 h with h | h
  · exact List.mem_append_left _ h
  · rcases List.mem_cons.1 h with h | h
    · exact absurd h hne
    · exact List.mem_append_right _ h

theorem booked_smove {w : World P} (hw : w.Wf) {s s' : St P} {o : Op P} (h : Inv w s) (hidle : Idle s) (hb : AllBooked s) (m : SMove w s o s') :
    AllBooked s' := by
  cases m with
  | none => exact hb
  | mac i g op hi ha ho => exact macStep_booked hw h hi g op ha hb
  | @land n j junk x hx hdue =>
    have key := hb.quiet (i := j) (p' := PhyNano.step (w.pcfg j) (s.phy j) (.arrive x.dur x.pw junk)) (l := []) (by
      intro tid st id dur hm
      rcases phy_arrive (w.pcfg j) (hidle j) x.dur x.pw junk with ⟨-, e⟩ | ⟨-, e⟩ <;>
      · rw [e]
        exact List.mem_append_left _ hm) (by simp)
    rw [List.append_nil] at key
    intro t k g st hm
    exact key t k g st hm
  | @tick d ha =>
    intro t j g st hm
    rcases hb t j g st hm with ⟨tid, id, dur, h1, h2⟩ | ⟨n, h1⟩
    · left
      refine ⟨tid, id, dur, ?_, h2⟩
      show _ ∈ (PhyNano.step (w.pcfg j) (s.phy j) (.advance _)).pend
      simp only [PhyNano.step]
      rw [if_pos (hidle j)]
      exact h1
    · exact .inr ⟨n, h1⟩
  | @phy i tid _ hi hm =>
    cases hm with
    | none => exact hb
    | @launch tid' id f t0 p' a b hp hacc e hs hf =>
      intro t j g st hm
      rcases List.mem_append.1 hm with hm | hm
      swap
      · simp at hm
      rcases hb t j g st hm with ⟨tid2, id2, dur2, h1, h2⟩ | ⟨n, h1⟩
      · by_cases hj : j = i
        · subst hj
          by_cases hx : (tid2, st, PhyNano.Ev.launch id2 dur2) = (tid', s.now, PhyNano.Ev.launch (P := P) id (w.airtime j f.size))
          · simp only [Prod.mk.injEq, PhyNano.Ev.launch.injEq] at hx
            obtain ⟨rfl, rfl, rfl, rfl⟩ := hx
            have : f = g := Option.some.inj (hf.symm.trans h2)
            subst this
            exact .inr ⟨_, List.mem_append_right _ List.mem_cons_self⟩
          · left
            refine ⟨tid2, id2, dur2, ?_, h2⟩
            show _ ∈ (Function.update s.phy j p' j).pend
            rw [Function.update_self, e]
            exact List.mem_append_left _ (mem_cut hp h1 hx)
        · left
          refine ⟨tid2, id2, dur2, ?_, h2⟩
          show _ ∈ (Function.update s.phy i p' j).pend
          rw [Function.update_of_ne hj]
          exact h1
      · exact .inr ⟨n, List.mem_append_left _ h1⟩
    | @erase tid' a b u v r p' hp htx hend e hs =>
      have key := hb.quiet (i := i) (p' := p') (l := []) (by
        intro tid2 st id dur hm
        rw [e]
        exact mem_cut hp hm (by simp)) (by simp)
      rw [List.append_nil] at key
      exact key
    | @quiet tid' a b ev p' l hp hev e hs hnl =>
      have key := hb.quiet (i := i) (p' := p') (l := []) (by
        intro tid2 st id dur hm
        rw [e]
        refine mem_cut hp hm ?_
        intro hc
        simp only [Prod.mk.injEq] at hc
        exact hnl _ _ hc.2.2.symm) (by simp)
      rw [List.append_nil] at key
      exact key
    | @notice tid' a b r p' n src t0 f hp hr hend hn htx hne hst hdur hno e hs =>
      have h1 := h.noticed hidle hi hp hend hn htx hne hst hdur hno e hs
      have hal : Nano.Allowed s.mac (.recv f (!r.coll)) := by
        cases r.coll
        · exact ⟨w.addr src, h.tx_mac htx⟩
        · trivial
      have key := hb.quiet (i := i) (p' := p') (l := if r.coll = true then [] else [.rx s.now n i f]) (by
        intro tid2 st id dur hm
        rw [e]
        exact mem_cut hp hm (by simp)) (by
        intro t j g st hm
        split at hm <;> simp at hm)
      have key2 := macStep_booked hw h1 hi 0 (.recv f (!r.coll)) hal key
      unfold phyRet
      have key3 := key2.quiet (i := i) (l := [])
        (p' := PhyNano.step (w.pcfg i) ((macStep w i 0 (.recv f (!r.coll))
          { s with phy := Function.update s.phy i p', air := s.air ++ if r.coll = true then [] else [.rx s.now n i f] }).phy i) .ret) (by
        intro tid2 st id dur hm
        show _ ∈ (PhyNano.ret _).pend
        unfold PhyNano.ret
        split <;> exact hm) (by simp)
      rw [List.append_nil] at key3
      exact key3

/-- An accepted frame is transmitted at the time at which its pulses are to start. -/
theorem launched_after {w : World P} (hw : w.Wf) (ops : List (Op P)) {t : ℤ} {i : Nat} {f : Frame} {st : ℤ}
    (h : AObs.accepted t i f st ∈ (after w ops).air) (hn : st < (after w ops).now) : ∃ n, AObs.tx st n i f ∈ (after w ops).air := by
  have hb : AllBooked (after w ops) := by
    clear h hn
    induction ops using List.reverseRecOn with
    | nil =>
      intro t j g st hm
      simp [after, NStack.init] at hm
    | append_singleton ops o ih =>
      obtain ⟨h, hidle⟩ := inv_after hw ops
      rw [after_snoc]
      exact booked_smove hw h hidle ih (step_smove hw h hidle o)
  rcases hb _ _ _ _ h with ⟨tid, id, dur, h1, -⟩ | h1
  · have := (inv_after hw ops).1.pendDue i _ h1
    dsimp only at this
    omega
  · exact h1

end Thz.NStack
