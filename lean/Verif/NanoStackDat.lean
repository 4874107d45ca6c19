import Verif.NanoStackLiveProps
import Verif.NanoDataTimer

/-!
# C120: the energy a receiver reserves when it sends a CTS

A nano device that answers an RTS books the energy for receiving the DATA frame and for acknowledging it.  A timer returns it if DATA does not come.  All
theorems are about all histories of `num` complete nano devices, `NStack.after`.
-/

set_option linter.unusedSectionVars false

namespace Thz.NStack

open Thz
open Thz.Nano (Body bcast Frame Pkt Kind exA exB exBody)

variable {P : Type} [AddCommMonoid P]

/-- What becomes of the timer of a CTS. -/
structure DatDue (w : World P) (s : St P) : Prop where
  due : ∀ i < w.num, ∀ tid q, (tid, Nano.Ev.dataTimeout q) ∈ (s.mac (w.addr i)).pend →
    ∃ t f, f.kind = .cts ∧ f.seq = q ∧ AObs.handed t i f ∈ s.air ∧ s.due i tid = t + dataWait w i
  fate : ∀ t i f, AObs.handed t i f ∈ s.air → f.kind = .cts →
    (∃ tid, (tid, Nano.Ev.dataTimeout f.seq) ∈ (s.mac (w.addr i)).pend ∧ s.due i tid = t + dataWait w i) ∨
    Nano.Obs.ret 18 (w.mcfg (w.addr i)).frameLength ∈ (s.mac (w.addr i)).log ∨
    ∃ T n g, AObs.rx T n i g ∈ s.air ∧ t ≤ T ∧ T ≤ t + dataWait w i ∧ g.kind = .data ∧ g.dst = w.addr i ∧ g.seq = f.seq
  empty : ∀ t i f, AObs.handed t i f ∈ s.air → f.kind = .cts → f.body.size = 0

theorem DatDue.init (w : World P) : DatDue w (init w) := by
  constructor <;> simp [NStack.init, Nano.St.init]

theorem wait_data {w : World P} {i g : Nat} {m : Nano.St} {new : List Nano.Obs} (hT : Nano.Tids m) {tid : Nat} {q : UInt16}
    (h1 : (tid, Nano.Ev.dataTimeout q) ∈ m.pend) : wait w i g m new tid = dataWait w i := by
  unfold wait
  cases hf : m.pend.find? (fun e => decide (e.1 = tid)) with
  | none =>
    have := List.find?_eq_none.1 hf _ h1
    simp at this
  | some e =>
    obtain ⟨tid', ev⟩ := e
    have ht : tid' = tid := by simpa using List.find?_some hf
    subst ht
    have := hT.uniq _ _ _ (List.mem_of_find?_eq_some hf) h1
    subst this
    rfl

theorem DatDue.eff {w : World P} (hw : w.Wf) {s s' : St P} (hi0 : Inv w s) (hahead : Due w s) (hd : DatDue w s) (he : Eff w s s') : DatDue w s' := by
  obtain ⟨l, hair⟩ := eff_air he
  have hup : ∀ o, o ∈ s.air → o ∈ s'.air := by
    intro o ho
    rw [hair]
    exact List.mem_append_left _ ho
  have hlog : ∀ a o, o ∈ (s.mac a).log → o ∈ (s'.mac a).log := by
    intro a o ho
    obtain ⟨l, e⟩ := eff_log he a
    rw [e]
    exact List.mem_append_right _ ho
  cases he with
  | still hm hdue ha hn =>
    obtain ⟨l', ha, hl⟩ := ha
    constructor
    · intro i hi tid q he
      rw [hm] at he
      obtain ⟨t, f, h1, h2, h3, h4⟩ := hd.due i hi tid q he
      exact ⟨t, f, h1, h2, hup _ h3, by rw [hdue]; exact h4⟩
    · intro t i f hh hk
      have hh' : AObs.handed t i f ∈ s.air := by
        rw [ha] at hh
        rcases List.mem_append.1 hh with hh | hh
        · exact hh
        · obtain ⟨_, _, _, _, e⟩ := hl _ hh
          cases e
      rw [hm, hdue]
      rcases hd.fate t i f hh' hk with h1 | h1 | ⟨T, n, g, h1, h2⟩
      · exact .inl h1
      · exact .inr (.inl h1)
      · exact .inr (.inr ⟨T, n, g, hup _ h1, h2⟩)
    · intro t i f hh hk
      rw [ha] at hh
      rcases List.mem_append.1 hh with hh | hh
      · exact hd.empty t i f hh hk
      · obtain ⟨_, _, _, _, e⟩ := hl _ hh
        cases e
  | mac i g op s0 hi h0 hal hm0 hd0 hn0 ha0 hf hm hdue hn ha =>
    obtain ⟨new, el, -⟩ := Nano.step_adds (w.mcfg (w.addr i)) (w.addr i) (s0.mac (w.addr i)) op
    obtain ⟨k, e1, e2, e3, e4⟩ := macStep_eq w i g op s0 el
    have em := (macStep_keeps w i g op s0).2.2.2.2.2.1
    have en := (macStep_keeps w i g op s0).1
    have hT := node_tids h0 (w.addr i)
    have hT' : Nano.Tids (Nano.step (w.mcfg (w.addr i)) (w.addr i) (s0.mac (w.addr i)) op) := hT.step _ _ _
    have hmac : ∀ j < w.num, j ≠ i → s'.mac (w.addr j) = s.mac (w.addr j) ∧ s'.due j = s.due j := by
      intro j hj hne
      refine ⟨?_, ?_⟩
      · rw [hm, em, Function.update_of_ne (fun hc => hne (hw.inj j hj i hi hc)), hm0]
      · rw [hdue, e4, Function.update_of_ne hne, hd0]
    have hmi : s'.mac (w.addr i) = Nano.step (w.mcfg (w.addr i)) (w.addr i) (s0.mac (w.addr i)) op := by rw [hm, em, Function.update_self]
    have hdi : ∀ tid, s'.due i tid = if (s0.mac (w.addr i)).nextTid ≤ tid then
        s0.now + wait w i g (Nano.step (w.mcfg (w.addr i)) (w.addr i) (s0.mac (w.addr i)) op) new tid else s0.due i tid := by
      intro tid
      rw [hdue, e4, Function.update_self]
    have hold : ∀ e ∈ (s0.mac (w.addr i)).pend, s'.due i e.1 = s.due i e.1 := by
      intro e he
      rw [hdi, if_neg (by have := hT.lt e he; omega), hd0]
    have hnewH : ∀ t j f, AObs.handed t j f ∈ s'.air → AObs.handed t j f ∈ s.air ∨ (t = s.now ∧ j = i ∧ Nano.Obs.tx f ∈ new) := by
      intro t j f hh
      rw [ha, e1] at hh
      rcases List.mem_append.1 hh with hh | hh
      · left
        rcases ha0 with ⟨h, -⟩ | ⟨f', n', -, h⟩ <;> rw [h] at hh
        · exact hh
        · simpa using hh
      · right
        obtain ⟨f', h1, h2 | ⟨st, h2⟩⟩ := e3 _ hh
        · simp only [AObs.handed.injEq] at h2
          obtain ⟨rfl, rfl, rfl⟩ := h2
          exact ⟨hn0, rfl, h1⟩
        · cases h2
    have hstep := Nano.dat_step (w.mcfg (w.addr i)) (w.addr i) hT op
    constructor
    · intro j hj tid q he
      by_cases hne : j = i
      swap
      · obtain ⟨q1, q2⟩ := hmac j hj hne
        rw [q1] at he
        obtain ⟨t, f, h1, h2, h3, h4⟩ := hd.due j hj tid q he
        exact ⟨t, f, h1, h2, hup _ h3, by rw [q2]; exact h4⟩
      subst hne
      rw [hmi] at he
      by_cases hin : (tid, Nano.Ev.dataTimeout q) ∈ (s0.mac (w.addr j)).pend
      · rw [hold _ hin]
        rw [hm0] at hin
        obtain ⟨t, f, h1, h2, h3, h4⟩ := hd.due j hj tid q hin
        exact ⟨t, f, h1, h2, hup _ h3, h4⟩
      · cases hstep with
        | none h => exact absurd ((h.pend _ _).1 he) hin
        | fired tid' q' hop h hp hl =>
          rw [hp] at he
          exact absurd (List.mem_of_mem_filter he) hin
        | data f hop hk hdst hp hl =>
          rcases hp with hp | ⟨t, -, -, hp⟩ <;> rw [hp] at he
          · exact absurd he hin
          · exact absurd (List.mem_of_mem_filter he) hin
        | rts f hop hk hdst hp hl =>
          have he0 := he
          rw [hp] at he
          have he := (List.mem_append.1 he).resolve_left hin
          simp only [List.mem_singleton, Prod.mk.injEq, Nano.Ev.dataTimeout.injEq] at he
          obtain ⟨rfl, rfl⟩ := he
          refine ⟨s0.now, ⟨.cts, w.addr j, f.src, f.seq, ⟨0, 0⟩⟩, rfl, rfl, ?_, ?_⟩
          · rw [ha, e1]
            refine List.mem_append_right _ (e2 _ ?_)
            rw [hl] at el
            rw [← List.append_cancel_right el]
            exact List.mem_cons_self
          · rw [hdi, if_pos (le_refl _), wait_data hT' he0]
    · intro t j f hh hk
      by_cases hne : j = i
      swap
      · have hh' : AObs.handed t j f ∈ s.air := (hnewH t j f hh).resolve_right (fun h => hne h.2.1)
        obtain ⟨q1, q2⟩ := hmac j (hi0.handed _ _ _ hh').2.2 hne
        rw [q1, q2]
        rcases hd.fate t j f hh' hk with h1 | h1 | ⟨T, n, g, h1, h2⟩
        · exact .inl h1
        · exact .inr (.inl h1)
        · exact .inr (.inr ⟨T, n, g, hup _ h1, h2⟩)
      subst hne
      rcases hnewH t j f hh with hh' | ⟨ht, -, htx⟩
      · rcases hd.fate t j f hh' hk with ⟨tid, h1, h2⟩ | h1 | ⟨T, n, g, h1, h2⟩
        · have h1' : (tid, Nano.Ev.dataTimeout f.seq) ∈ (s0.mac (w.addr j)).pend := by rw [hm0]; exact h1
          have hkeep : (tid, Nano.Ev.dataTimeout f.seq) ∈ (s'.mac (w.addr j)).pend →
              ∃ tid, (tid, Nano.Ev.dataTimeout f.seq) ∈ (s'.mac (w.addr j)).pend ∧ s'.due j tid = t + dataWait w j :=
            fun h => ⟨tid, h, by rw [← h2]; exact hold _ h1'⟩
          rw [hmi] at hkeep ⊢
          cases hstep with
          | none h => exact .inl (hkeep ((h.pend _ _).2 h1'))
          | fired tid' q' hop h hp hl =>
            right; left
            rw [hl]
            exact List.mem_cons_self
          | rts f' hop hk' hdst hp hl =>
            refine .inl (hkeep ?_)
            rw [hp]
            exact List.mem_append_left _ h1'
          | data f' hop hk' hdst hp hl =>
            rcases hp with hp | ⟨x, hx, hxs, hp⟩
            · exact .inl (hkeep (by rw [hp]; exact h1'))
            · by_cases hxt : x.tid = tid
              · right; right
                subst hxt
                have := (hT.dat x hx).2 _ h1'
                simp only [Nano.Ev.dataTimeout.injEq] at this
                rcases ha0 with ⟨-, h⟩ | ⟨f'', n, hop', h⟩
                · exact absurd hop (h f')
                · rw [hop] at hop'
                  simp only [Nano.Op.recv.injEq, and_true] at hop'
                  subst hop'
                  refine ⟨s.now, n, f', ?_, (hi0.handed _ _ _ hh').2.1, ?_, hk', hdst, by rw [this, hxs]⟩
                  · rw [ha, e1, h]
                    exact List.mem_append_left _ (List.mem_append_right _ List.mem_cons_self)
                  · have := hahead.ahead j hi _ h1
                    dsimp only at this
                    omega
              · refine .inl (hkeep ?_)
                rw [hp, List.mem_filter]
                exact ⟨h1', by simpa using fun h => hxt h.symm⟩
        · exact .inr (.inl (hlog _ _ h1))
        · exact .inr (.inr ⟨T, n, g, hup _ h1, h2⟩)
      · -- a CTS is sent now
        rw [hmi]
        cases hstep with
        | none h => exact absurd hk ((h.log.new el _ htx).2 f rfl)
        | fired tid' q' hop h hp hl =>
          rw [show Nano.Obs.ret 18 (w.mcfg (w.addr j)).frameLength :: (s0.mac (w.addr j)).log =
            [.ret 18 (w.mcfg (w.addr j)).frameLength] ++ (s0.mac (w.addr j)).log from rfl, el] at hl
          rw [List.append_cancel_right hl] at htx
          simp at htx
        | data f' hop hk' hdst hp hl => exact absurd hk ((hl.new el _ htx).2 f rfl)
        | rts f' hop hk' hdst hp hl =>
          rw [el] at hl
          rw [List.append_cancel_right hl] at htx
          simp only [List.mem_cons, Nano.Obs.tx.injEq, reduceCtorEq, List.not_mem_nil, or_false] at htx
          subst htx
          left
          have hnew : ((s0.mac (w.addr j)).nextTid, Nano.Ev.dataTimeout f'.seq) ∈
              (Nano.step (w.mcfg (w.addr j)) (w.addr j) (s0.mac (w.addr j)) op).pend := by
            rw [hp]
            exact List.mem_append_right _ List.mem_cons_self
          refine ⟨(s0.mac (w.addr j)).nextTid, hnew, ?_⟩
          rw [hdi, if_pos (le_refl _), wait_data hT' hnew, hn0, ht]
    · intro t j f hh hk
      rcases hnewH t j f hh with hh' | ⟨-, -, htx⟩
      · exact hd.empty t j f hh' hk
      · cases hstep with
        | none h => exact absurd hk ((h.log.new el _ htx).2 f rfl)
        | fired tid' q' hop h hp hl =>
          rw [show Nano.Obs.ret 18 (w.mcfg (w.addr i)).frameLength :: (s0.mac (w.addr i)).log =
            [.ret 18 (w.mcfg (w.addr i)).frameLength] ++ (s0.mac (w.addr i)).log from rfl, el] at hl
          rw [List.append_cancel_right hl] at htx
          simp at htx
        | data f' hop hk' hdst hp hl => exact absurd hk ((hl.new el _ htx).2 f rfl)
        | rts f' hop hk' hdst hp hl =>
          rw [el] at hl
          rw [List.append_cancel_right hl] at htx
          simp only [List.mem_cons, Nano.Obs.tx.injEq, reduceCtorEq, List.not_mem_nil, or_false] at htx
          rw [htx]

theorem datDue_after {w : World P} (hw : w.Wf) (ops : List (Op P)) : DatDue w (after w ops) := by
  induction ops using List.reverseRecOn with
  | nil => exact DatDue.init w
  | append_singleton ops o ih => exact ih.eff hw (inv_after hw ops).1 (due_after hw ops) (step_eff hw ops o)

/-! ## C120 -/

/-- **C120, the part that holds: DATA that does not come.**  Device `b` has handed over a CTS at `t`.  If no DATA frame with its number comes within the
duration of a CTS and 676 ps, the reserved energy is returned. -/
theorem C120_returned_without_data_partial (w : World P) (hw : w.Wf) (ops : List (Op P)) (t : ℤ) (b : Nat) (f : Frame)
    (hh : AObs.handed t b f ∈ (after w ops).air) (hk : f.kind = .cts) (hnow : t + dataWait w b < (after w ops).now)
    (hno : ∀ T n g, AObs.rx T n b g ∈ (after w ops).air → g.kind = .data → g.dst = w.addr b → g.seq = f.seq → T < t ∨ t + dataWait w b < T) :
    Nano.Obs.ret 18 (w.mcfg (w.addr b)).frameLength ∈ ((after w ops).mac (w.addr b)).log := by
  have hi := (inv_after hw ops).1
  rcases (datDue_after hw ops).fate t b f hh hk with ⟨tid, h1, h2⟩ | h | ⟨T, n, g, h1, h2, h3, h4, h5, h6⟩
  · have := (due_after hw ops).ahead b (hi.handed _ _ _ hh).2.2 _ h1
    dsimp only at this
    omega
  · exact h
  · rcases hno T n g h1 h4 h5 h6 with h | h <;> omega

/-- **C120, the part that holds: no refund before the timeout.**  The energy is returned only the duration of a CTS and 676 ps after a CTS was handed over. -/
theorem C120_returned_at_timeout_partial (w : World P) (hw : w.Wf) (ops : List (Op P)) (o : Op P) (b : Nat) (hb : b < w.num)
    (h : ((after w ops).mac (w.addr b)).log.count (.ret 18 (w.mcfg (w.addr b)).frameLength) <
      ((after w (ops ++ [o])).mac (w.addr b)).log.count (.ret 18 (w.mcfg (w.addr b)).frameLength)) :
    ∃ t f, AObs.handed t b f ∈ (after w ops).air ∧ f.kind = .cts ∧ (after w (ops ++ [o])).now = t + dataWait w b := by
  have hdue := due_after hw ops
  have hdat := datDue_after hw ops
  have zero : ∀ new : List Nano.Obs, (∀ o ∈ new, o ≠ .ret 18 (w.mcfg (w.addr b)).frameLength) →
      new.count (.ret 18 (w.mcfg (w.addr b)).frameLength) = 0 := fun new hn => List.count_eq_zero.2 (fun hm => hn _ hm rfl)
  cases step_eff hw ops o with
  | still hm => rw [hm] at h; exact absurd h (lt_irrefl _)
  | mac i g op s0 hi h0 hal hm0 hd0 hn0 ha0 hf hm hd hn ha =>
    have em := (macStep_keeps w i g op s0).2.2.2.2.2.1
    have en := (macStep_keeps w i g op s0).1
    by_cases hib : b = i
    swap
    · rw [hm, em, Function.update_of_ne (fun hc => hib (hw.inj b hb i hi hc)), hm0] at h
      exact absurd h (lt_irrefl _)
    subst hib
    rw [hm, em, Function.update_self] at h
    obtain ⟨new, el, -⟩ := Nano.step_adds (w.mcfg (w.addr b)) (w.addr b) (s0.mac (w.addr b)) op
    cases Nano.dat_step (w.mcfg (w.addr b)) (w.addr b) (node_tids h0 (w.addr b)) op with
    | none h' =>
      rw [el, List.count_append, hm0, zero new (fun o ho => (h'.log.new el o ho).1)] at h
      omega
    | data f hop hk hdst hp hl =>
      rw [el, List.count_append, hm0, zero new (fun o ho => (hl.new el o ho).1)] at h
      omega
    | rts f hop hk hdst hp hl =>
      rw [el] at hl
      rw [el, List.count_append, hm0, zero new (by rw [List.append_cancel_right hl]; simp)] at h
      omega
    | fired tid q hop hpd hp hl =>
      rw [hm0] at hpd
      obtain ⟨t, f, h1, h2, h3, h4⟩ := hdat.due b hb tid q hpd
      refine ⟨t, f, h3, h1, ?_⟩
      have h5 := hf tid hop
      have h6 := hdue.ahead b hb _ hpd
      dsimp only at h6
      rw [hn, en, hn0]
      omega

/-- **C120, why it fails.**  The time allowed is too short for any exchange: if `a` hands over its DATA frame when or after it has received the CTS of `b`, and the frame
lasts 676 ps or longer, then DATA arrives only after the energy was returned. -/
theorem C120_data_comes_later (w : World P) (hw : w.Wf) (ops : List (Op P)) (t T1 t2 T2 : ℤ) (n1 n2 a b : Nat) (f g : Frame)
    (hh : ∃ st, AObs.accepted t b f st ∈ (after w ops).air ∧ AObs.tx st n1 b f ∈ (after w ops).air) (hk : f.kind = .cts)
    (hrx : AObs.rx T1 n1 a f ∈ (after w ops).air)
    (hd : ∃ st, AObs.accepted t2 a g st ∈ (after w ops).air ∧ AObs.tx st n2 a g ∈ (after w ops).air) (hlate : T1 ≤ t2)
    (hrx2 : AObs.rx T2 n2 b g ∈ (after w ops).air) (hlong : 676 * w.ps < w.airtime a g.size) : t + dataWait w b < T2 := by
  have hi := (inv_after hw ops).1
  obtain ⟨st, h1, h2⟩ := hh
  obtain ⟨st2, h3, h4⟩ := hd
  obtain ⟨-, t0, x, h5, -, -, h6, -⟩ := hi.rxAir _ _ _ _ hrx
  obtain ⟨-, t0', x', h7, -, -, h8, -⟩ := hi.rxAir _ _ _ _ hrx2
  obtain ⟨rfl, rfl, -⟩ := tx_unique hi h5 h2
  obtain ⟨rfl, rfl, -⟩ := tx_unique hi h7 h4
  have hp1 := hw.pulse x
  have hp2 := hw.pulse x'
  have h9 : t ≤ t0 := by rcases (hi.accHand _ _ _ _ h1).2 with h | ⟨h, -⟩ <;> omega
  have h10 : t2 ≤ t0' := by rcases (hi.accHand _ _ _ _ h3).2 with h | ⟨h, -⟩ <;> omega
  have hbody := (datDue_after hw ops).empty _ _ _ (hi.accHand _ _ _ _ h1).1 hk
  have hs : f.size = 19 := by
    unfold Frame.size
    rw [hk, hbody]
    rfl
  rw [hs] at h6
  unfold dataWait
  push_cast
  omega

/-! ## The example: an exchange with RTS and CTS over 3 cm -/

/-- The RTS of the example. -/
def exRts : Frame := ⟨.rts, exA, exB, 1, ⟨0, 0⟩⟩

/-- Its answer. -/
def exCts : Frame := ⟨.cts, exB, exA, 1, ⟨0, 0⟩⟩

/-- The whole exchange as it passes the air. -/
theorem exRts_air : (after (exW true 100000) (exOps (exW true 100000) 0 60)).air =
    [.handed 0 0 exRts, .accepted 0 0 exRts 0, .tx 0 0 0 exRts, .rx 1540000 0 1 exRts, .handed 1540000 1 exCts,
     .accepted 1540000 1 exCts 1540100, .tx 1540100 1 1 exCts, .rx 3160100 1 0 exCts, .handed 3160100 0 exData,
     .accepted 3160100 0 exData 3160200, .tx 3160200 2 0 exData, .rx 12620200 2 1 exData, .handed 12620200 1 exAck,
     .accepted 12620200 1 exAck 12620300, .tx 12620300 3 1 exAck, .rx 14080300 3 0 exAck] := by
  rw [exOps_after]
  decide +kernel

/-- What the MAC of the receiver does, newest first: it books the reception of the RTS and then 36 bytes to send (CTS and ACK) and 5 to receive (DATA), sends the
CTS, returns 18 and 5 bytes, and then acknowledges DATA and passes it up without booking anything. -/
theorem exRts_mac : ((after (exW true 100000) (exOps (exW true 100000) 0 60)).mac exB).log =
    [.up exBody exA exB 1, .tx exAck, .ret 18 5, .tx exCts, .book true 36 5, .book true 0 18] := by
  rw [exOps_after]
  decide +kernel

/-- The hypotheses of `C120_returned_without_data_partial` are met (just after the time allowed). -/
example : Nano.Obs.ret 18 5 ∈ ((after (exW true 100000) (exOps (exW true 100000) 0 60)).mac exB).log := by
  refine C120_returned_without_data_partial (exW true 100000) (exW_wf _ _) (exOps (exW true 100000) 0 60) 1540000 1 exCts ?_ rfl ?_ ?_
  · rw [exRts_air]; decide
  · rw [exOps_after]; decide +kernel
  · intro T n g hm hk hd hs
    rw [exRts_air] at hm
    simp only [List.mem_cons, AObs.rx.injEq, reduceCtorEq, List.not_mem_nil, false_or, or_false] at hm
    rcases hm with ⟨-, -, -, rfl⟩ | ⟨-, -, h, -⟩ | ⟨rfl, -⟩ | ⟨-, -, h, -⟩
    · cases hk
    · cases h
    · exact Or.inr (by decide)
    · cases h

/-- The hypotheses of `C120_data_comes_later` are met. -/
example : (1540000 : ℤ) + dataWait (exW true 100000) 1 < 12620200 := by
  refine C120_data_comes_later (exW true 100000) (exW_wf _ _) (exOps (exW true 100000) 0 60) 1540000 3160100 3160100 12620200 1 2 0 1 exCts exData
    ⟨1540100, ?_, ?_⟩ rfl ?_ ⟨3160200, ?_, ?_⟩ (le_refl _) ?_ (by decide) <;> rw [exRts_air] <;> decide

/-- The last operation of a longer simulation. -/
theorem auto_succ (w : World ℕ) (g n : Nat) (s : St ℕ) : auto w g (n + 1) s = auto w g n s ++ (nextOp w g (autoRun w g n s)).toList := by
  induction n generalizing s with
  | zero =>
    unfold auto autoRun
    cases nextOp w g s <;> rfl
  | succ n ih =>
    rw [auto]
    conv_rhs => rw [auto, autoRun]
    cases h : nextOp w g s with
    | none => simp [h]
    | some o => simp [ih]

/-- The step at which the energy is returned in the example. -/
theorem exRts_step : ∃ pre o, exOps (exW true 100000) 0 23 = pre ++ [o] ∧
    ((after (exW true 100000) pre).mac exB).log.count (.ret 18 5) < ((after (exW true 100000) (pre ++ [o])).mac exB).log.count (.ret 18 5) := by
  have h3 := auto_succ (exW true 100000) 0 22 (step (exW true 100000) (init (exW true 100000)) (.enqueue 0 exBody exB))
  cases ho : nextOp (exW true 100000) 0
    (autoRun (exW true 100000) 0 22 (step (exW true 100000) (init (exW true 100000)) (.enqueue 0 exBody exB))) with
  | none =>
    have : (nextOp (exW true 100000) 0
      (autoRun (exW true 100000) 0 22 (step (exW true 100000) (init (exW true 100000)) (.enqueue 0 exBody exB)))).isSome = true := by decide +kernel
    rw [ho] at this
    cases this
  | some o =>
    rw [ho] at h3
    have h4 : exOps (exW true 100000) 0 23 = exOps (exW true 100000) 0 22 ++ [o] := congrArg (List.cons _) h3
    refine ⟨exOps (exW true 100000) 0 22, o, h4, ?_⟩
    rw [← h4, exOps_after, exOps_after]
    decide +kernel

/-- The hypotheses of `C120_returned_at_timeout_partial` are met. -/
example : ∃ t f o pre, AObs.handed t 1 f ∈ (after (exW true 100000) pre).air ∧ f.kind = .cts ∧
    (after (exW true 100000) (pre ++ [o])).now = t + dataWait (exW true 100000) 1 := by
  obtain ⟨pre, o, -, h⟩ := exRts_step
  obtain ⟨t, f, h1, h2, h3⟩ := C120_returned_at_timeout_partial (exW true 100000) (exW_wf _ _) pre o 1 (by decide) h
  exact ⟨t, f, o, pre, h1, h2, h3⟩

/-- **C120, violated.**  Two devices 3 cm apart exchange RTS, CTS, DATA and ACK, every frame is received without error and the sender reports success.  And yet the
receiver gets back the energy it had reserved for DATA and ACK, before DATA comes: in the end it has booked nothing for receiving DATA nor for sending the ACK. -/
theorem C120_reserved_energy_violated :
    ∃ (w : World ℕ) (ops : List (Op ℕ)) (p : Pkt), w.Wf ∧ w.num = 2 ∧ p.dst = w.addr 1 ∧
      (∀ t n f, AObs.tx t n 0 f ∈ (after w ops).air → AObs.rx (t + w.delay t 0 1 + w.airtime 0 f.size) n 1 f ∈ (after w ops).air) ∧
      (∀ t n f, AObs.tx t n 1 f ∈ (after w ops).air → AObs.rx (t + w.delay t 1 0 + w.airtime 1 f.size) n 0 f ∈ (after w ops).air) ∧
      Nano.Obs.done true p ∈ ((after w ops).mac (w.addr 0)).log ∧
      .up p.body (w.addr 0) (w.addr 1) p.seq ∈ ((after w ops).mac (w.addr 1)).log ∧
      Nano.Obs.ret 18 (w.mcfg (w.addr 1)).frameLength ∈ ((after w ops).mac (w.addr 1)).log ∧
      ((after w ops).mac (w.addr 1)).log.filter (fun o => match o with | .book .. => true | .ret .. => true | _ => false) =
        [.ret 18 5, .book true 36 5, .book true 0 18] := by
  have hall : allReceived (exW true 100000) (after (exW true 100000) (exOps (exW true 100000) 0 60)).air = true := by
    rw [exRts_air]; decide +kernel
  refine ⟨exW true 100000, exOps (exW true 100000) 0 60, exPkt, exW_wf _ _, rfl, rfl, ?_, ?_, ?_, ?_, ?_, ?_⟩
  · intro t n f hm
    have := List.all_eq_true.1 hall _ hm
    simpa using this
  · intro t n f hm
    have := List.all_eq_true.1 hall _ hm
    simpa using this
  · rw [exOps_after]; decide +kernel
  · show _ ∈ ((after (exW true 100000) (exOps (exW true 100000) 0 60)).mac exB).log
    rw [exRts_mac]; decide
  · show _ ∈ ((after (exW true 100000) (exOps (exW true 100000) 0 60)).mac exB).log
    rw [exRts_mac]; decide
  · show ((after (exW true 100000) (exOps (exW true 100000) 0 60)).mac exB).log.filter _ = _
    rw [exRts_mac]; decide

end Thz.NStack
