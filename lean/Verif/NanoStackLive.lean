import Verif.NanoStackEff
import Verif.NanoStackProps

/-!
# Complete nano devices: an acknowledged exchange

`answered_in_time`: a device that waits for an acknowledgement and receives it before its timeout reports success.  `answers_after`: a
device that receives DATA for itself answers it.  Both are used for C119.
-/

set_option linter.unusedSectionVars false

namespace Thz.NStack

open Thz
open Thz.Nano (Body bcast Frame Pkt Kind dataFrame numAccepted accs outcomes)

variable {P : Type} [AddCommMonoid P]

/-! ## Histories only grow -/

theorem eff_log {w : World P} {s s' : St P} (he : Eff w s s') (a : Mac48) : ∃ l, (s'.mac a).log = l ++ (s.mac a).log := by
  cases he with
  | still hm hd ha hn => exact ⟨[], by rw [hm]; rfl⟩
  | mac i g op s0 hi h0 hal hm0 hd0 hn0 ha0 hf hm hd hn ha =>
    rw [hm, (macStep_keeps w i g op s0).2.2.2.2.2.1, ← hm0]
    by_cases h : a = w.addr i
    · subst h
      rw [Function.update_self]
      obtain ⟨new, el, -⟩ := Nano.step_adds (w.mcfg (w.addr i)) (w.addr i) (s0.mac (w.addr i)) op
      exact ⟨new, el⟩
    · rw [Function.update_of_ne h]
      exact ⟨[], rfl⟩

theorem eff_air {w : World P} {s s' : St P} (he : Eff w s s') : ∃ l, s'.air = s.air ++ l := by
  cases he with
  | still hm hd ha hn => obtain ⟨l, h, -⟩ := ha; exact ⟨l, h⟩
  | mac i g op s0 hi h0 hal hm0 hd0 hn0 ha0 hf hm hd hn ha =>
    obtain ⟨new, el, -⟩ := Nano.step_adds (w.mcfg (w.addr i)) (w.addr i) (s0.mac (w.addr i)) op
    obtain ⟨k, e1, -⟩ := macStep_eq w i g op s0 el
    rw [ha, e1]
    rcases ha0 with ⟨h, -⟩ | ⟨f, n, -, h⟩
    · exact ⟨k, by rw [h]⟩
    · exact ⟨[.rx s.now n i f] ++ k, by rw [h, List.append_assoc]⟩

theorem log_suffix {w : World P} (hw : w.Wf) (pre post : List (Op P)) (a : Mac48) :
    ∃ l, ((after w (pre ++ post)).mac a).log = l ++ ((after w pre).mac a).log := by
  induction post using List.reverseRecOn with
  | nil => exact ⟨[], by rw [List.append_nil]; rfl⟩
  | append_singleton post o ih =>
    obtain ⟨l, ih⟩ := ih
    obtain ⟨l', e⟩ := eff_log (step_eff hw (pre ++ post) o) a
    refine ⟨l' ++ l, ?_⟩
    rw [← List.append_assoc, e, ih, List.append_assoc]

theorem air_grows {w : World P} (hw : w.Wf) (pre post : List (Op P)) :
    ∃ l, (after w (pre ++ post)).air = (after w pre).air ++ l := by
  induction post using List.reverseRecOn with
  | nil => exact ⟨[], by rw [List.append_nil, List.append_nil]⟩
  | append_singleton post o ih =>
    obtain ⟨l, ih⟩ := ih
    obtain ⟨l', e⟩ := eff_air (step_eff hw (pre ++ post) o)
    refine ⟨l ++ l', ?_⟩
    rw [← List.append_assoc, e, ih, List.append_assoc]

theorem numAccepted_mono {l k : List Nano.Obs} : numAccepted k ≤ numAccepted (l ++ k) := by
  unfold numAccepted
  rw [List.countP_append]
  omega

/-! ## The sender: an acknowledgement in time is a success -/

/-- The DATA frame of a packet has the size of the packet. -/
theorem dataFrame_size (a : Mac48) (p : Pkt) : (dataFrame a p).size = p.size := by
  show 17 + p.body.size = p.body.size + 17
  omega

/-- A DATA frame with the number of `p` is that of `p`. -/
theorem data_is {w : World P} {s : St P} (h : Inv w s) {a : Nat} {p : Pkt} (hn : numAccepted (s.mac (w.addr a)).log ≤ 65535)
    (hu : ∀ r ∈ accs (s.mac (w.addr a)).log, r.seq = p.seq → r = p) {t : ℤ} {f : Frame} (hf : AObs.handed t a f ∈ s.air)
    (hk : f.kind = .data) (hq : f.seq = p.seq) : f = dataFrame (w.addr a) p ∧ p ∈ accs (s.mac (w.addr a)).log := by
  obtain ⟨ops, e⟩ := h.reach.node (w.addr a)
  have h1 := (h.handed t a f hf).1
  rw [e] at hn hu h1 ⊢
  obtain ⟨r, hr, he⟩ := (Nano.after_inv1 _ _ _ _ hn).data f h1 hk
  have : r = p := hu r hr (by rw [← hq, he]; rfl)
  subst this
  exact ⟨he, hr⟩

/-- What the sender relies on: the frame of `p` handed over at `t0`. -/
structure Sending (w : World P) (a : Nat) (p : Pkt) (t0 : ℤ) (s : St P) : Prop where
  wait : AObs.handed t0 a (dataFrame (w.addr a) p) ∈ s.air →
    Nano.Obs.done true p ∈ (s.mac (w.addr a)).log ∨ t0 + ackWait w a p.size ≤ s.now ∨ Nano.Waiting p (s.mac (w.addr a))
  got : ∀ T n g, AObs.rx T n a g ∈ s.air → g.kind = .ack → g.dst = w.addr a → g.seq = p.seq → t0 < T → T < t0 + ackWait w a p.size →
    AObs.handed t0 a (dataFrame (w.addr a) p) ∈ s.air → Nano.Obs.done true p ∈ (s.mac (w.addr a)).log

theorem sending_eff {w : World P} (hw : w.Wf) {s s' : St P} (hi : Inv w s) (hi' : Inv w s') (hdue : Due w s) (he : Eff w s s') {a : Nat} (haw : a < w.num)
    (hrts : (w.mcfg (w.addr a)).rts = false) {p : Pkt} (hb : p.dst ≠ bcast) {t0 : ℤ}
    (hn : numAccepted (s'.mac (w.addr a)).log ≤ 65535) (hu : ∀ r ∈ accs (s'.mac (w.addr a)).log, r.seq = p.seq → r = p)
    (hwin : ∀ t' f', AObs.handed t' a f' ∈ s'.air → f'.kind = .data → f'.seq = p.seq → t' + ackWait w a p.size < t0 ∨ t0 ≤ t')
    (hng : AObs.handed t0 a (dataFrame (w.addr a) p) ∉ s.air → Nano.Obs.done false p ∉ (s.mac (w.addr a)).log)
    (h : Sending w a p t0 s) : Sending w a p t0 s' := by
  obtain ⟨lg, elg⟩ := eff_log he (w.addr a)
  have hlog : ∀ o, o ∈ (s.mac (w.addr a)).log → o ∈ (s'.mac (w.addr a)).log := by
    intro o ho
    rw [elg]
    exact List.mem_append_right _ ho
  have hn0 : numAccepted (s.mac (w.addr a)).log ≤ 65535 := by
    rw [elg] at hn
    exact le_trans numAccepted_mono hn
  have hu0 : ∀ r ∈ accs (s.mac (w.addr a)).log, r.seq = p.seq → r = p := fun r hr =>
    hu r (Nano.mem_accs.2 (hlog _ (Nano.mem_accs.1 hr)))
  obtain ⟨la, ela⟩ := eff_air he
  have hair : ∀ o, o ∈ s.air → o ∈ s'.air := by
    intro o ho
    rw [ela]
    exact List.mem_append_left _ ho
  cases he with
  | still hm hd ha hn1 =>
    obtain ⟨l, ha, hl⟩ := ha
    have hold : ∀ o, (∀ t n i f, o ≠ .tx t n i f) → o ∈ s'.air → o ∈ s.air := by
      intro o hne ho
      rw [ha] at ho
      rcases List.mem_append.1 ho with ho | ho
      · exact ho
      · obtain ⟨t, n, i, f, e⟩ := hl o ho
        exact absurd e (hne _ _ _ _)
    have hnow : s.now ≤ s'.now := by rcases hn1 with h | ⟨h, -⟩ <;> omega
    constructor
    · intro hh
      rw [hm]
      rcases h.wait (hold _ (by simp) hh) with h1 | h1 | h1
      · exact .inl h1
      · exact .inr (.inl (by omega))
      · exact .inr (.inr h1)
    · intro T n g h1 h2 h3 h4 h5 h6 h7
      rw [hm]
      exact h.got T n g (hold _ (by simp) h1) h2 h3 h4 h5 h6 (hold _ (by simp) h7)
  | mac i g op s0 hiw h0 hal hm0 hd0 hn1 ha0 hf hm hd hn2 ha =>
    obtain ⟨new, el, -⟩ := Nano.step_adds (w.mcfg (w.addr i)) (w.addr i) (s0.mac (w.addr i)) op
    obtain ⟨k, e1, e2, e3, -⟩ := macStep_eq w i g op s0 el
    have em := (macStep_keeps w i g op s0).2.2.2.2.2.1
    have en := (macStep_keeps w i g op s0).1
    have hnow : s'.now = s.now := hn2.trans (en.trans hn1)
    -- what is new on the air
    have hnewH : ∀ t j f, AObs.handed t j f ∈ s'.air → AObs.handed t j f ∈ s.air ∨ (t = s.now ∧ j = i ∧ Nano.Obs.tx f ∈ new) := by
      intro t j f hh
      rw [ha, e1] at hh
      rcases List.mem_append.1 hh with hh | hh
      · left
        rcases ha0 with ⟨h, -⟩ | ⟨f', n', -, h⟩ <;> rw [h] at hh
        · exact hh
        · simpa using hh
      · right
        obtain ⟨f', h1, h2 | ⟨st, h2⟩⟩ := e3 _ hh
        · simp only [AObs.handed.injEq] at h2
          obtain ⟨rfl, rfl, rfl⟩ := h2
          exact ⟨hn1, rfl, h1⟩
        · cases h2
    have hnewR : ∀ t n j f, AObs.rx t n j f ∈ s'.air → AObs.rx t n j f ∈ s.air ∨ (t = s.now ∧ j = i ∧ op = .recv f true) := by
      intro t n j f hh
      rw [ha, e1] at hh
      rcases List.mem_append.1 hh with hh | hh
      · rcases ha0 with ⟨h, -⟩ | ⟨f', n', hop, h⟩ <;> rw [h] at hh
        · exact .inl hh
        · rcases List.mem_append.1 hh with hh | hh
          · exact .inl hh
          · simp only [List.mem_singleton, AObs.rx.injEq] at hh
            obtain ⟨rfl, rfl, rfl, rfl⟩ := hh
            exact .inr ⟨rfl, rfl, hop⟩
      · obtain ⟨f', h1, h2 | ⟨st, h2⟩⟩ := e3 _ hh <;> cases h2
    by_cases hia : a = i
    swap
    · have hma : s'.mac (w.addr a) = s.mac (w.addr a) := by
        rw [hm, em, Function.update_of_ne (fun hc => hia (hw.inj a haw i hiw hc)), hm0]
      constructor
      · intro hh
        rw [hma, hnow]
        rcases hnewH _ _ _ hh with hh | ⟨-, hh, -⟩
        · exact h.wait hh
        · exact absurd hh hia
      · intro T n g' h1 h2 h3 h4 h5 h6 h7
        rw [hma]
        rcases hnewH _ _ _ h7 with h7 | ⟨-, hh, -⟩
        · rcases hnewR _ _ _ _ h1 with h1 | ⟨-, hh, -⟩
          · exact h.got T n g' h1 h2 h3 h4 h5 h6 h7
          · exact absurd hh hia
        · exact absurd hh hia
    subst hia
    have hma : s'.mac (w.addr a) = Nano.step (w.mcfg (w.addr a)) (w.addr a) (s.mac (w.addr a)) op := by
      rw [hm, em, Function.update_self, hm0]
    rw [hm0] at el
    by_cases hold : AObs.handed t0 a (dataFrame (w.addr a) p) ∈ s.air
    · have ht0 : t0 ≤ s.now := (hi.handed _ _ _ hold).2.1
      have hgot : ∀ T n g', AObs.rx T n a g' ∈ s.air → g'.kind = .ack → g'.dst = w.addr a → g'.seq = p.seq → t0 < T →
          T < t0 + ackWait w a p.size → Nano.Obs.done true p ∈ (s'.mac (w.addr a)).log := fun T n g' h1 h2 h3 h4 h5 h6 =>
        hlog _ (h.got T n g' h1 h2 h3 h4 h5 h6 hold)
      -- either over, or reported, or still waiting
      have key : Nano.Obs.done true p ∈ (s'.mac (w.addr a)).log ∨ t0 + ackWait w a p.size ≤ s.now ∨
          (Nano.Waiting p (s'.mac (w.addr a)) ∧ ¬ Nano.isAckFor (w.addr a) p op) := by
        rcases h.wait hold with h1 | h1 | h1
        · exact .inl (hlog _ h1)
        · exact .inr (.inl h1)
        · by_cases hfire : ∃ tid, op = .fire tid ∧ (tid, Nano.Ev.ackTimeout p.seq) ∈ (s.mac (w.addr a)).pend
          · obtain ⟨tid, hop, hpd⟩ := hfire
            right; left
            obtain ⟨t', r, h2, h3, h4⟩ := hdue.ack a haw tid _ hpd
            have h5 := hf tid hop
            have h6 := hdue.ahead a haw _ hpd
            dsimp only at h6
            have h7 := (data_is hi hn0 hu0 h3 rfl h2).1
            have h8 : r.size = p.size := by rw [← dataFrame_size (w.addr a) r, h7, dataFrame_size]
            rw [h8] at h4
            rcases hwin t' _ (hair _ h3) rfl h2 with h9 | h9 <;> omega
          · rcases Nano.waiting_step (c := w.mcfg (w.addr a)) (me := w.addr a) (op := op) (node_tids hi (w.addr a)) h1
              (hdue.cts a haw hrts) (fun tid hop hc => hfire ⟨tid, hop, hc⟩) with h2 | h2
            · rw [hma]
              exact .inr (.inr h2)
            · rw [hma]
              exact .inl h2
      constructor
      · intro _
        rw [hnow]
        rcases key with h1 | h1 | h1
        · exact .inl h1
        · exact .inr (.inl h1)
        · exact .inr (.inr h1.1)
      · intro T n g' h1 h2 h3 h4 h5 h6 _
        rcases hnewR _ _ _ _ h1 with h1 | ⟨rfl, -, hop⟩
        · exact hgot T n g' h1 h2 h3 h4 h5 h6
        · rcases key with h7 | h7 | h7
          · exact h7
          · omega
          · exact absurd (by rw [hop]; exact ⟨rfl, h2, h3, h4⟩) h7.2
    · constructor
      · intro hh
        obtain ⟨h1, -, h2⟩ := (hnewH _ _ _ hh).resolve_left hold
        obtain ⟨⟨r, h3, h4⟩, h5⟩ := Nano.data_sent el h2 rfl
        have hseq : r.seq = p.seq := by
          have := congrArg Frame.seq h3
          exact this.symm
        have hdst : r.dst ≠ bcast := by
          have : p.dst = r.dst := congrArg Frame.dst h3
          rw [← this]; exact hb
        obtain ⟨-, hacc⟩ := data_is hi' hn hu hh rfl rfl
        rw [← hma] at h4 h5
        have hinv0 := node_inv0 hi' (w.addr a)
        rcases List.mem_append.1 (hinv0.perm.mem_iff.1 hacc) with h6 | h6
        · obtain ⟨ok, h7⟩ := Nano.mem_outcomes.1 h6
          cases ok
          · exact absurd (h5 _ _ h7) (hng hold)
          · exact .inl h7
        · right; right
          obtain ⟨x, hx, hx'⟩ := h4 hdst
          exact ⟨⟨x, hx, hx'.trans hseq⟩, hinv0.pktTx_of_queue h6⟩
      · intro T n g' h1 h2 h3 h4 h5 h6 h7
        obtain ⟨h8, -, -⟩ := (hnewH _ _ _ h7).resolve_left hold
        have := (hi'.rxAir _ _ _ _ h1).1
        omega

/-- An acknowledgement received before the timeout is a success. -/
theorem answered_in_time {w : World P} (hw : w.Wf) (ops : List (Op P)) {a : Nat} (haw : a < w.num)
    (hrts : (w.mcfg (w.addr a)).rts = false) {p : Pkt} (hb : p.dst ≠ bcast) {t0 : ℤ}
    (hn : numAccepted ((after w ops).mac (w.addr a)).log ≤ 65535) (hp : Nano.Obs.accepted p ∈ ((after w ops).mac (w.addr a)).log)
    (hwin : ∀ t' f', AObs.handed t' a f' ∈ (after w ops).air → f'.kind = .data → f'.seq = p.seq → t' + ackWait w a p.size < t0 ∨ t0 ≤ t')
    (hng : ∀ pre post, ops = pre ++ post → Nano.Obs.done false p ∈ ((after w pre).mac (w.addr a)).log →
      AObs.handed t0 a (dataFrame (w.addr a) p) ∈ (after w pre).air)
    (hh : AObs.handed t0 a (dataFrame (w.addr a) p) ∈ (after w ops).air)
    {T : ℤ} {n : Nat} {g : Frame} (hr : AObs.rx T n a g ∈ (after w ops).air) (hk : g.kind = .ack) (hd : g.dst = w.addr a) (hq : g.seq = p.seq)
    (h1 : t0 < T) (h2 : T < t0 + ackWait w a p.size) : Nano.Obs.done true p ∈ ((after w ops).mac (w.addr a)).log := by
  have hi := (inv_after hw ops).1
  have hu : ∀ r ∈ accs ((after w ops).mac (w.addr a)).log, r.seq = p.seq → r = p := by
    intro r hr e
    have h0 := node_inv0 hi (w.addr a)
    exact Nano.seq_inj h0 (by rw [← Nano.numAccepted_nextUid h0]; exact hn) hr (Nano.mem_accs.2 hp) e
  have key : ∀ pre, pre <+: ops → Sending w a p t0 (after w pre) := by
    intro pre
    induction pre using List.reverseRecOn with
    | nil =>
      intro _
      constructor
      · intro h
        simp [after, NStack.init] at h
      · intro T n g h
        simp [after, NStack.init] at h
    | append_singleton pre o ih =>
      rintro ⟨post, e⟩
      obtain ⟨l, el⟩ := log_suffix hw (pre ++ [o]) post (w.addr a)
      obtain ⟨k, ek⟩ := air_grows hw (pre ++ [o]) post
      rw [e] at el ek
      have e' : ops = pre ++ ([o] ++ post) := by rw [← e, List.append_assoc]
      refine sending_eff hw (inv_after hw pre).1 (inv_after hw _).1 (due_after hw pre) (step_eff hw pre o) haw hrts hb ?_ ?_ ?_ ?_
        (ih ⟨_, e'.symm⟩)
      · rw [el] at hn
        exact le_trans numAccepted_mono hn
      · intro r hr
        refine hu r ?_
        rw [el, Nano.accs_append]
        exact List.mem_append_right _ hr
      · intro t' f' h
        refine hwin t' f' ?_
        rw [ek]
        exact List.mem_append_left _ h
      · intro hno hc
        exact hno (hng pre _ e' hc)
  exact (key ops (List.prefix_refl _)).got T n g hr hk hd hq h1 h2 hh

/-! ## The receiver: DATA is answered -/

/-- The acknowledgement of a DATA frame by device `b` (model/thz-mac-nano.cc:453-466). -/
def ackOf (w : World P) (b : Nat) (f : Frame) : Frame := ⟨.ack, w.addr b, f.src, f.seq, ⟨0, 0⟩⟩

/-- There is room for an answer to frame `f`: within the symbol that follows `T` some pulse position of device `b` meets no train of pulses that is on its
way there at time `T` - neither one of its own nor one arriving. -/
def Room (w : World P) (air : List AObs) (T : ℤ) (b : Nat) (f : Frame) : Prop :=
  ∃ u, T + (w.pcfg b).p ≤ u ∧ u + (w.pcfg b).p ≤ T + (w.pcfg b).ts ∧
    (∀ t' f' st, AObs.accepted t' b f' st ∈ air → t' ≤ T → T ≤ st + w.airtime b f'.size →
      ¬ PhyNano.Overlap (w.pcfg b).p (w.pcfg b).ts st u ∨ (t' = T ∧ f' = ackOf w b f)) ∧
    ∀ t' n' a' f', AObs.tx t' n' a' f' ∈ air → a' ≠ b → t' + w.delay t' a' b ≤ T → T ≤ t' + w.delay t' a' b + w.airtime a' f'.size →
      ¬ PhyNano.Overlap (w.pcfg b).p (w.pcfg b).ts (t' + w.delay t' a' b) u

theorem Room.mono {w : World P} {air l : List AObs} {T : ℤ} {b : Nat} {f : Frame} (h : Room w (air ++ l) T b f) : Room w air T b f := by
  obtain ⟨u, h1, h2, h3, h4⟩ := h
  exact ⟨u, h1, h2, fun t' f' st hm => h3 t' f' st (List.mem_append_left _ hm), fun t' n' a' f' hm => h4 t' n' a' f' (List.mem_append_left _ hm)⟩

/-- The answer to a DATA frame, or the reason why there is none. -/
def Answered (w : World P) (s : St P) (T : ℤ) (b : Nat) (f : Frame) : Prop :=
  (∃ st, AObs.accepted T b (ackOf w b f) st ∈ s.air ∧ T ≤ st ∧ st < T + (w.pcfg b).ts) ∨
  Nano.Obs.book false 18 f.body.size ∈ (s.mac (w.addr b)).log

/-- What the MAC hands over when it receives DATA for itself. -/
theorem recv_data (c : Nano.Cfg) (me : Mac48) (f : Frame) (s : Nano.St) (hk : f.kind = .data) (hd : f.dst = me) (hb : me ≠ bcast) :
    ∃ new, (Nano.step c me s (.recv f true)).log = new ++ s.log ∧
      (framesIn new = [⟨.ack, me, f.src, f.seq, ⟨0, 0⟩⟩] ∨ Nano.Obs.book false 18 f.body.size ∈ new) := by
  have e : Nano.step c me s (.recv f true) = Nano.receiveData c me f s := by
    show Nano.receivePacketDone c me f true s = _
    unfold Nano.receivePacketDone
    rw [if_neg (by decide), hk]
  rw [e]
  unfold Nano.receiveData
  rw [if_neg (by rw [hd]; exact hb), if_neg (not_not.2 hd)]
  have key : ∀ s1 : Nano.St, ∃ new, (Nano.acceptData me f s1).log = new ++ s1.log ∧ framesIn new = [⟨.ack, me, f.src, f.seq, ⟨0, 0⟩⟩] := by
    intro s1
    obtain ⟨ups, h1, h2⟩ := Nano.acceptData_adds me f s1
    refine ⟨ups ++ [.tx ⟨.ack, me, f.src, f.seq, ⟨0, 0⟩⟩], by rw [h1, List.append_assoc]; rfl, ?_⟩
    rw [h2]
    split_ifs <;> rfl
  dsimp only
  split_ifs with h1 h2
  · obtain ⟨new, h3, h4⟩ := key (s.book c 18 f.body.size).2
    refine ⟨new ++ [.book (s.book c 18 f.body.size).1 18 f.body.size], ?_, ?_⟩
    · rw [h3, List.append_assoc]
      rfl
    · left
      have : ∀ l : List Nano.Obs, ∀ g x y, framesIn (l ++ [.book g x y]) = framesIn l := by
        intro l g x y
        unfold framesIn
        rw [List.reverse_append]
        rfl
      rw [this]
      exact h4
  · refine ⟨[.book false 18 f.body.size], ?_, ?_⟩
    · have h3 : (s.book c 18 f.body.size).1 = false := by simpa using h2
      show Nano.Obs.book (s.book c 18 f.body.size).1 18 f.body.size :: s.log = _
      rw [h3]
      rfl
    · exact .inr List.mem_cons_self
  · obtain ⟨new, h3, h4⟩ := key s
    exact ⟨new, h3, .inl h4⟩

theorem answered_smove {w : World P} (hw : w.Wf) {s s' : St P} {o : Op P} (h : Inv w s) (hidle : Idle s) (m : SMove w s o s') {b : Nat}
    {f : Frame} {T : ℤ} {n : Nat} (hold : AObs.rx T n b f ∈ s.air → Answered w s T b f) (hk : f.kind = .data) (hd : f.dst = w.addr b)
    (hroom : Room w s'.air T b f) (hrx : AObs.rx T n b f ∈ s'.air) : Answered w s' T b f := by
  have he := smove_eff h hidle m
  obtain ⟨lg, elg⟩ := eff_log he (w.addr b)
  obtain ⟨la, ela⟩ := eff_air he
  by_cases hin : AObs.rx T n b f ∈ s.air
  · rcases hold hin with ⟨st, h1, h2⟩ | h1
    · exact .inl ⟨st, by rw [ela]; exact List.mem_append_left _ h1, h2⟩
    · exact .inr (by rw [elg]; exact List.mem_append_right _ h1)
  cases m with
  | none => exact absurd hrx hin
  | mac i g op hi ha ho =>
    exfalso
    obtain ⟨new, el, -⟩ := Nano.step_adds (w.mcfg (w.addr i)) (w.addr i) (s.mac (w.addr i)) op
    obtain ⟨k, e1, -, e3, -⟩ := macStep_eq w i g op s el
    rw [e1] at hrx
    rcases List.mem_append.1 hrx with hrx | hrx
    · exact hin hrx
    · obtain ⟨f', -, h2 | ⟨st, h2⟩⟩ := e3 _ hrx <;> cases h2
  | land hx hdue => exact absurd hrx hin
  | tick ha => exact absurd hrx hin
  | @phy i tid _ hi hm =>
    cases hm with
    | none => exact absurd hrx hin
    | launch =>
      exfalso
      rcases List.mem_append.1 hrx with hrx | hrx
      · exact hin hrx
      · simp at hrx
    | erase => exact absurd hrx hin
    | quiet => exact absurd hrx hin
    | @notice tid' a0 b0 r p' n' src t0 f' hp hr hend hn htx hne hst hdur hno e hs =>
      obtain ⟨new0, el0, -⟩ := Nano.step_adds (w.mcfg (w.addr i)) (w.addr i) (s.mac (w.addr i)) (.recv f' (!r.coll))
      obtain ⟨s0, es0⟩ : ∃ s0 : St P, s0 = { s with phy := Function.update s.phy i p', air := s.air ++ if r.coll = true then [] else [.rx s.now n' i f'] } :=
        ⟨_, rfl⟩
      have h0 : Inv w s0 := by rw [es0]; exact h.noticed hidle hi hp hend hn htx hne hst hdur hno e hs
      have hm0 : s0.mac = s.mac := by rw [es0]
      have hn0 : s0.now = s.now := by rw [es0]
      rw [← es0] at hrx hroom elg ela ⊢
      obtain ⟨k, e1, -, e3, -⟩ := macStep_eq w i 0 (.recv f' (!r.coll)) s0 (by rw [hm0]; exact el0)
      have hnew : AObs.rx T n b f ∈ (if r.coll = true then [] else [AObs.rx s.now n' i f']) := by
        have h1 : AObs.rx T n b f ∈ (macStep w i 0 (.recv f' (!r.coll)) s0).air := hrx
        rw [e1] at h1
        rcases List.mem_append.1 h1 with h1 | h1
        · rw [es0] at h1
          exact (List.mem_append.1 h1).resolve_left hin
        · obtain ⟨f'', -, h2 | ⟨st, h2⟩⟩ := e3 _ h1 <;> cases h2
      cases hc : r.coll
      swap
      · rw [hc] at hnew
        simp at hnew
      rw [hc] at hnew hrx hroom elg ela
      simp only [Bool.false_eq_true, if_false, List.mem_singleton, AObs.rx.injEq] at hnew
      obtain ⟨rfl, rfl, rfl, rfl⟩ := hnew
      clear el0 e1 e3
      obtain ⟨new, el, hfr⟩ := recv_data (w.mcfg (w.addr b)) (w.addr b) f (s0.mac (w.addr b)) hk hd (hw.uni b hi)
      rcases hfr with hfr | hfr
      swap
      · right
        show _ ∈ ((macStep w b 0 (.recv f true) s0).mac (w.addr b)).log
        rw [(macStep_keeps w b 0 (.recv f true) s0).2.2.2.2.2.1, Function.update_self, el]
        exact List.mem_append_left _ hfr
      left
      have hal : Nano.Allowed s0.mac (.recv f true) := by
        rw [hm0]
        exact ⟨w.addr src, h.tx_mac htx⟩
      obtain ⟨due', ed⟩ : ∃ due' : Nat → Nat → ℤ, due' = Function.update s0.due b (fun tid => if (s0.mac (w.addr b)).nextTid ≤ tid then
        s0.now + wait w b 0 (Nano.step (w.mcfg (w.addr b)) (w.addr b) (s0.mac (w.addr b)) (.recv f true)) new tid else s0.due b tid) := ⟨_, rfl⟩
      have hmu := h0.macUpd hw hi (.recv f true) hal due'
      have emac : macStep w b 0 (.recv f true) s0 = transmit w b { s0 with
          mac := Function.update s0.mac (w.addr b) (Nano.step (w.mcfg (w.addr b)) (w.addr b) (s0.mac (w.addr b)) (.recv f true)), due := due' }
          (ackOf w b f) := by
        unfold NStack.macStep
        dsimp only
        rw [take_new el, hfr, List.foldl_cons, List.foldl_nil, ed]
        rfl
      have eair : (phyRet w b (macStep w b 0 (.recv f (!false)) s0)).air = (macStep w b 0 (.recv f true) s0).air := rfl
      rw [eair] at hroom ⊢
      rw [emac] at hroom ⊢
      have hpw := hw.pulse b
      have hsy := hw.symbol b
      rcases transmit_cases hw hmu b (ackOf w b f) with ⟨start, e2, -, h3⟩ | ⟨e2, -, h3⟩
      · rw [e2]
        refine ⟨start, ?_, ?_, ?_⟩
        · dsimp only
          rw [hn0]
          exact List.mem_append_right _ (List.mem_cons_of_mem _ List.mem_cons_self)
        · rcases h3 with ⟨-, -, h3⟩ | ⟨h3, -⟩ <;> dsimp only at h3 <;> omega
        · rcases h3 with ⟨-, -, h3⟩ | ⟨-, h3⟩ <;> dsimp only at h3 <;> omega
      · rw [e2] at hroom ⊢
        obtain ⟨u, u1, u2, u3, u4⟩ := hroom.mono
        dsimp only at u3 u4 h3 ⊢
        rw [hn0] at h3
        obtain ⟨x, hx, kk, hk1, hk2⟩ := h3 u u1 u2
        have hov : PhyNano.Overlap (w.pcfg b).p (w.pcfg b).ts x u := ⟨kk, by omega, by omega⟩
        have hpi := h.phyI hw b
        have hx' : x ∈ PhyNano.starts (s.phy b) := by
          have : PhyNano.starts (s0.phy b) = PhyNano.starts (s.phy b) := by
            rw [es0]
            dsimp only
            rw [Function.update_self, e]
            rfl
          rw [← this]
          exact hx
        have hair0 : ∀ o, o ∈ s.air → o ∈ s0.air := by
          intro o ho
          rw [es0]
          exact List.mem_append_left _ ho
        rcases List.mem_append.1 hx' with hx' | hx'
        · obtain ⟨q, hq, rfl⟩ := List.mem_map.1 hx'
          obtain ⟨g, t1, g1, g2, -⟩ := h.txRec b q hq
          obtain ⟨td, g3⟩ := hpi.txPend q hq
          have g4 := h.pendDue b _ g3
          dsimp only at g4
          obtain ⟨g5, g6⟩ := h.accHand _ _ _ _ g2
          have g7 := (h.handed _ _ _ g5).2.1
          rcases u3 t1 g q.start (hair0 _ g2) g7 (by rw [← g1]; exact g4) with g8 | ⟨g8, g9⟩
          · exact absurd hov g8
          · subst g8 g9
            exact ⟨q.start, List.mem_append_left _ (hair0 _ g2), by rcases g6 with g6 | ⟨g6, -⟩ <;> omega, by rcases g6 with g6 | ⟨-, g6⟩ <;> omega⟩
        · obtain ⟨q, hq, rfl⟩ := List.mem_map.1 hx'
          obtain ⟨n1, t1, a1, g, -, g2, g3, -, g5, g6, -⟩ := h.rxRec b q hq
          have g7 := hpi.rxOld q hq
          rw [h.pnow b] at g7
          rcases hpi.rxPend q hq with g8 | ⟨td, g8⟩
          · rw [hidle b] at g8
            cases g8
          · have g9 := h.pendDue b _ g8
            dsimp only at g9
            exact absurd (by rw [← g5]; exact hov) (u4 t1 n1 a1 g (hair0 _ g2) g3 (by rw [← g5]; exact g7) (by rw [← g5, ← g6]; exact g9))

/-- DATA that a device receives for itself is answered within a symbol if there is room. -/
theorem answers_after {w : World P} (hw : w.Wf) (ops : List (Op P)) {T : ℤ} {n b : Nat} {f : Frame} (hrx : AObs.rx T n b f ∈ (after w ops).air)
    (hk : f.kind = .data) (hd : f.dst = w.addr b) (hroom : Room w (after w ops).air T b f) : Answered w (after w ops) T b f := by
  induction ops using List.reverseRecOn with
  | nil => simp [after, NStack.init] at hrx
  | append_singleton ops o ih =>
    obtain ⟨h, hidle⟩ := inv_after hw ops
    obtain ⟨l, e⟩ := air_grows hw ops [o]
    rw [after_snoc]
    refine answered_smove hw h hidle (step_smove hw h hidle o) (fun hm => ih hm ?_) hk hd (by rw [← after_snoc]; exact hroom)
      (by rw [← after_snoc]; exact hrx)
    rw [e] at hroom
    exact hroom.mono

end Thz.NStack
