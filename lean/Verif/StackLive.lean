import Verif.StackTrace
import Verif.StackRuns
import Verif.MacroAnswers

/-!
# C106, the part that holds: a clean exchange within reach succeeds

Complete macro devices (`Stack.after`).  A DATA frame that arrives undisturbed, whose acknowledgement is not in the way of anything and
arrives undisturbed, and a round trip that is short enough: the sender reports the packet as delivered.
-/

namespace Thz.Stack

open Thz
open Thz.Nano (Body bcast)
open Thz.Macro (Frame Pkt exA exB exBody numAccepted dataFrame ackFrame Sent Heard trace NoWrap deliveries)

variable {P : Type}

/-! ## Specification -/

/-- When a frame that device `a` starts to transmit at time `t` has completely arrived at device `j`. -/
def arrived (w : World P) (t : ℤ) (a j : Nat) (f : Frame) : ℤ := t + w.delay t a j + (w.mcfg (w.addr a)).frameDur f

/-- The exchange of DATA and ACK for packet `p`, which device `a` starts with transmission `n` at time `t`, is not disturbed:
the DATA frame arrives undisturbed at `b`; until the ACK is sent (a SIFS later) `b` is not busy with a frame of its own other than an ACK sent at
that very moment and nothing else arrives there; and the ACK arrives undisturbed at `a`. -/
structure CleanExchange (w : World P) (air : List AObs) (t : ℤ) (n a b : Nat) (p : Pkt) : Prop where
  data : Undisturbed w air t n a (dataFrame (w.addr a) p) b
  free : ∀ t' n' f', AObs.tx t' n' b f' ∈ air →
    t' + (w.mcfg (w.addr b)).frameDur f' < arrived w t a b (dataFrame (w.addr a) p) ∨
    arrived w t a b (dataFrame (w.addr a) p) + (w.mcfg (w.addr b)).sifs < t' ∨
    (t' = arrived w t a b (dataFrame (w.addr a) p) + (w.mcfg (w.addr b)).sifs ∧ f'.kind = .ack)
  calm : ∀ t' n' a' f', AObs.tx t' n' a' f' ∈ air → a' ≠ b → n' ≠ n →
    t' + w.delay t' a' b < arrived w t a b (dataFrame (w.addr a) p) ∨
    arrived w t a b (dataFrame (w.addr a) p) + (w.mcfg (w.addr b)).sifs < t' + w.delay t' a' b
  ack : ∀ n', AObs.tx (arrived w t a b (dataFrame (w.addr a) p) + (w.mcfg (w.addr b)).sifs) n' b
      (ackFrame (w.addr b) (w.addr a) p.seq) ∈ air →
    Undisturbed w air (arrived w t a b (dataFrame (w.addr a) p) + (w.mcfg (w.addr b)).sifs) n' b
      (ackFrame (w.addr b) (w.addr a) p.seq) a

/-- A frame from `a` arrives at `j` with a power above the carrier-sense threshold and, alone, with a signal-to-noise ratio above the
threshold; and it takes time to transmit. -/
structure StrongLink (w : World P) (t : ℤ) (a j : Nat) (f : Frame) : Prop where
  long : 0 < (w.mcfg (w.addr a)).frameDur f
  loud : (w.pcfg j).loud (w.power t a j) = true
  sinr : (w.pcfg j).sinr (w.power t a j) [] = true

/-! ## Proof -/

/-- What arrives at a device was sent by another. -/
theorem arrival_sent {w : World P} {s : St P} (hi : Inv w s) {t : ℤ} {c n j : Nat} {dur : ℤ} {pw : P} (hj : j < w.num)
    (h : Channel.Obs.arrival t c n j j dur pw ∈ s.ch.log) :
    ∃ t0 a f, AObs.tx t0 n a f ∈ s.air ∧ a ≠ j ∧ t = t0 + w.delay t0 a j := by
  obtain ⟨t0, a, link, delay, h5, h6, h7, h8⟩ := hi.chi.arrWhy h
  obtain ⟨f, h9, -, -, h10, -⟩ := sent_data hi h5
  refine ⟨t0, a, f, h9, h8, ?_⟩
  rw [h10] at h6
  unfold World.links at h6
  rw [List.getElem?_map, List.getElem?_range hj] at h6
  simp only [Option.map_some, Option.some.injEq, Prod.mk.injEq] at h6
  rw [h7, h6.1]

/-- A reception without error is logged. -/
theorem rx_logged (c : Macro.Cfg) (me : Mac48) (s : Macro.St) (f : Frame) (g : UInt16) :
    Macro.Obs.rx f ∈ Macro.newObs c me s (.rxDone f true g) := by
  obtain ⟨l, e3, -⟩ := (Macro.tq_rxDone c me f true g s).log
  have e5 : Macro.newObs c me s (.rxDone f true g) = .rx f :: l := by
    refine List.append_cancel_left ((Macro.log_kop c me s (.rxDone f true g)).symm.trans (e3.trans ?_))
    show (s.log ++ [_]) ++ l = _
    rw [List.append_assoc]; rfl
  rw [e5]
  exact List.mem_cons_self

/-- An undisturbed frame is the only one that is received when it has arrived. -/
theorem lone {w : World P} (hw : w.Wf) {ops : List Op} {t : ℤ} {n a b : Nat} {f f' : Frame} {mops : List Macro.Op}
    (tb : Traced w b (after w ops) mops) (hm : AObs.tx t n a f ∈ (after w ops).air) (hu : Undisturbed w (after w ops).air t n a f b)
    (h : Macro.Got (trace (w.mcfg (w.addr b)) (w.addr b) (Macro.init (w.seq0 (w.addr b))) mops)
      (t + w.delay t a b + (w.mcfg (w.addr a)).frameDur f) f') : f' = f := by
  obtain ⟨x, hx, hx1, g, hx2⟩ := h
  obtain ⟨pre, o, later, eo, ex⟩ := Macro.mem_trace mops _ x hx
  have h0 : Macro.Obs.rx f' ∈ x.2.2 := by
    rw [ex] at hx2 ⊢
    dsimp only at hx2 ⊢
    rw [hx2]
    exact rx_logged _ _ _ _ _
  obtain ⟨n', h1⟩ := tb.only x hx f' h0
  obtain ⟨t0, a', h2, h3, h4, h5, h6⟩ := C104_received_was_sent w hw ops _ _ _ _ h1
  by_cases hn : n' = n
  · subst hn
    exact (tx_unique (inv_after hw ops) h2 hm).2.2
  · have h7 := hw.dur a ((inv_after hw ops).airTx _ _ _ _ hm).1 f
    have h8 := hw.dur a' h4 f'
    rcases hu.alone _ _ _ _ h2 h3 hn with h9 | h9 <;> omega

/-- **C106, the part that holds.**  Device `a` transmits the DATA frame of an accepted packet for device `b` at time `t`.  If the
exchange is not disturbed, the links are strong in both directions, and the two propagation delays together are shorter than what the
sender allows for (twice the hard-coded propagation time, and a slot), then the sender reports the packet as delivered - unless it had
already charged five timeouts to it.  (Both devices are configured with the same SIFS and ACK duration; the sender has accepted at most
65536 packets and sent no other DATA frame with this number within a timeout before `t`.) -/
theorem C106_clean_exchange_partial (w : World P) (hw : w.Wf) (ops : List Op) (t : ℤ) (n a b : Nat) (p : Pkt)
    (hb : b < w.num) (hba : b ≠ a)
    (htpn : 0 ≤ (w.mcfg (w.addr a)).tpn) (hslot : 0 ≤ (w.mcfg (w.addr a)).slot) (hsifs : 0 ≤ (w.mcfg (w.addr a)).sifs)
    (hsame : (w.mcfg (w.addr b)).sifs = (w.mcfg (w.addr a)).sifs ∧ (w.mcfg (w.addr b)).ctrlDur .ack = (w.mcfg (w.addr a)).ctrlDur .ack)
    (hp : Macro.Obs.accepted p ∈ ((after w ops).mac (w.addr a)).log) (hdst : p.dst = w.addr b)
    (hnum : numAccepted ((after w ops).mac (w.addr a)).log ≤ 65536)
    (hm : AObs.tx t n a (dataFrame (w.addr a) p) ∈ (after w ops).air)
    (hfirst : ∀ t0 n0 f0, AObs.tx t0 n0 a f0 ∈ (after w ops).air → f0.kind = .data → f0.seq = p.seq →
      t0 + Macro.ackTimeoutDur (w.mcfg (w.addr a)) p < t ∨ t ≤ t0)
    (hclean : CleanExchange w (after w ops).air t n a b p)
    (hlink : StrongLink w t a b (dataFrame (w.addr a) p))
    (hlink' : StrongLink w (arrived w t a b (dataFrame (w.addr a) p) + (w.mcfg (w.addr b)).sifs) b a
      (ackFrame (w.addr b) (w.addr a) p.seq))
    (hreach : w.delay t a b + w.delay (arrived w t a b (dataFrame (w.addr a) p) + (w.mcfg (w.addr b)).sifs) b a <
      2 * (w.mcfg (w.addr a)).tProp + (w.mcfg (w.addr a)).slot)
    (hnow : arrived w (arrived w t a b (dataFrame (w.addr a) p) + (w.mcfg (w.addr b)).sifs) b a (ackFrame (w.addr b) (w.addr a) p.seq) +
      (w.mcfg (w.addr a)).ps 1 < (after w ops).ch.now) :
    Macro.Obs.done true p ∈ ((after w ops).mac (w.addr a)).log ∨
    ∃ k, Macro.Obs.timedOut p k ∈ ((after w ops).mac (w.addr a)).log ∧ 5 ≤ k := by
  have hi := inv_after hw ops
  have ha : a < w.num := (hi.airTx _ _ _ _ hm).1
  obtain ⟨T, eT⟩ : ∃ T, T = arrived w t a b (dataFrame (w.addr a) p) := ⟨_, rfl⟩
  obtain ⟨T2, eT2⟩ : ∃ T2, T2 = arrived w (T + (w.mcfg (w.addr b)).sifs) b a (ackFrame (w.addr b) (w.addr a) p.seq) := ⟨_, rfl⟩
  obtain ⟨hcd, hcf, hcc, hca⟩ := hclean
  rw [← eT] at hcf hcc hca hlink' hreach hnow
  rw [← eT2] at hnow
  have hps : 0 ≤ (w.mcfg (w.addr a)).ps 1 := by
    unfold Macro.Cfg.ps
    exact Int.tdiv_nonneg (by omega) (by omega)
  have htp : 0 ≤ (w.mcfg (w.addr a)).tProp := by
    unfold Macro.Cfg.tProp Macro.Cfg.ps
    exact Int.tdiv_nonneg (by omega) (by omega)
  have hT : T = t + w.delay t a b + (w.mcfg (w.addr a)).frameDur (dataFrame (w.addr a) p) := eT
  have hT2 : T2 = T + (w.mcfg (w.addr b)).sifs + w.delay (T + (w.mcfg (w.addr b)).sifs) b a +
      (w.mcfg (w.addr b)).frameDur (ackFrame (w.addr b) (w.addr a) p.seq) := eT2
  have hl1 := hlink.long
  have hl2 := hlink'.long
  have hD : ∀ p, 0 ≤ Macro.ackTimeoutDur (w.mcfg (w.addr a)) p := by
    intro p
    have h1 : 0 ≤ (w.mcfg (w.addr a)).dataDur p.size := hw.dur a ha (dataFrame (w.addr a) p)
    have h2 : 0 ≤ (w.mcfg (w.addr a)).ctrlDur .ack := hw.dur a ha (ackFrame (w.addr a) (w.addr a) p.seq)
    unfold Macro.ackTimeoutDur
    omega
  -- the DATA frame is received
  have hrx := C105_undisturbed_is_received w hw ops t n a b _ hm hb hba hl1 hlink.loud hlink.sinr hcd (by rw [← hT]; omega)
  rw [← hT] at hrx
  -- and answered
  obtain ⟨mb, tb⟩ := traced_after hw ops hb
  have hans : ∃ n2, AObs.tx (T + (w.mcfg (w.addr b)).sifs) n2 b (ackFrame (w.addr b) (w.addr a) p.seq) ∈ (after w ops).air := by
    obtain ⟨x, hx, hx1, hx2⟩ := tb.got _ _ _ hrx
    obtain ⟨pre, o, later, eo, ex⟩ := Macro.mem_trace mb _ x hx
    rw [ex] at hx1 hx2
    obtain ⟨g, rfl⟩ := rx_only hx2
    subst eo
    have hTn : T = (Macro.after (w.mcfg (w.addr b)) (w.addr b) (w.seq0 (w.addr b)) pre).now := by
      rw [← hx1]
      exact Macro.now_step _ _ _ _ (by simp) (by simp)
    have key := Macro.data_is_answered (w.mcfg (w.addr b)) (w.addr b) (w.seq0 (w.addr b)) pre later (dataFrame (w.addr a) p) g
      (by omega) (hw.dur b hb) (hw.uni b hb) tb.time rfl hdst T hTn ?_ ?_ ?_ ?_
    · exact (tb.sent _ _).1 key
    · intro t' ht'
      have h1 : Heard (trace (w.mcfg (w.addr b)) (w.addr b) (Macro.init (w.seq0 (w.addr b)))
          (pre ++ .rxDone (dataFrame (w.addr a) p) true g :: later)) t' := by
        obtain ⟨y, hy, hy1⟩ := ht'
        refine ⟨y, ?_, hy1⟩
        rw [show pre ++ .rxDone (dataFrame (w.addr a) p) true g :: later = (pre ++ [.rxDone (dataFrame (w.addr a) p) true g]) ++ later
          by simp, Macro.trace_append]
        exact List.mem_append_right _ hy
      have h2 : T ≤ t' := by
        obtain ⟨y, hy, rfl, -⟩ := ht'
        have h3 := Macro.trace_ge later _ y hy
        have h4 : T ≤ (Macro.after (w.mcfg (w.addr b)) (w.addr b) (w.seq0 (w.addr b))
            (pre ++ [.rxDone (dataFrame (w.addr a) p) true g])).now := by
          rw [hTn]
          unfold Macro.after
          rw [Macro.run_append]
          exact Macro.now_le_run _ _ _ _
        omega
      obtain ⟨c, n', dur, pw, h3⟩ := tb.heard t' h1
      obtain ⟨t0, a', f', h4, h5, h6⟩ := arrival_sent hi hb h3
      by_cases hn : n' = n
      · subst hn
        obtain ⟨rfl, rfl, rfl⟩ := tx_unique hi h4 hm
        omega
      · rcases hcc t0 n' a' f' h4 h5 hn with h7 | h7
        · omega
        · omega
    · intro f' h1 _ _
      rw [hT] at h1
      rw [lone hw tb hm hcd h1]
      exact ⟨rfl, rfl⟩
    · intro t' f' ht'
      obtain ⟨n', h1⟩ := (tb.sent _ _).1 ht'
      exact hcf t' n' f' h1
    · rw [← tb.eq, (hi.node b hb).mnow]
      omega
  obtain ⟨n2, hm2⟩ := hans
  -- the ACK is received
  have hrx2 := C105_undisturbed_is_received w hw ops _ n2 b a _ hm2 ha (Ne.symm hba) hl2 hlink'.loud hlink'.sinr (hca n2 hm2)
    (by rw [← hT2]; omega)
  rw [← hT2] at hrx2
  -- and counts
  obtain ⟨ma, ta⟩ := traced_after hw ops ha
  obtain ⟨x, hx, hx1, hx2⟩ := ta.got _ _ _ hrx2
  obtain ⟨pre, o, later, eo, ex⟩ := Macro.mem_trace ma _ x hx
  rw [ex] at hx1 hx2
  obtain ⟨g, rfl⟩ := rx_only hx2
  subst eo
  have hTn : T2 = (Macro.after (w.mcfg (w.addr a)) (w.addr a) (w.seq0 (w.addr a)) pre).now := by
    rw [← hx1]
    exact Macro.now_step _ _ _ _ (by simp) (by simp)
  have hsent := (ta.sent t (dataFrame (w.addr a) p)).2 ⟨n, hm⟩
  rw [Macro.trace_append] at hsent
  have hsent' : Sent (trace (w.mcfg (w.addr a)) (w.addr a) (Macro.init (w.seq0 (w.addr a))) pre) t (dataFrame (w.addr a) p) := by
    obtain ⟨y, hy, hy1, hy2⟩ := hsent
    rcases List.mem_append.1 hy with hy | hy
    · exact ⟨y, hy, hy1, hy2⟩
    · exfalso
      have h1 := Macro.trace_ge _ _ y hy
      have h2 : T2 ≤ y.1 := by rw [hTn]; exact h1
      omega
  have heq := ta.eq
  have hdur : (w.mcfg (w.addr a)).frameDur (dataFrame (w.addr a) p) = (w.mcfg (w.addr a)).dataDur p.size := rfl
  have hdur2 : (w.mcfg (w.addr b)).frameDur (ackFrame (w.addr b) (w.addr a) p.seq) = (w.mcfg (w.addr b)).ctrlDur .ack := rfl
  rw [heq]
  refine Macro.C108_acknowledged_in_time (w.mcfg (w.addr a)) htpn hD (w.addr a) (w.seq0 (w.addr a)) pre later p
    (ackFrame (w.addr b) (w.addr a) p.seq) g ta.time (by rw [← heq]; exact hnum) (by rw [hdst]; exact hw.uni b hb)
    (by rw [← heq]; exact hp) t T2 hsent' ⟨rfl, rfl, rfl⟩ hTn ?_ ?_ ?_
  · unfold Macro.ackTimeoutDur
    have h1 := hsame.1
    have h2 := hsame.2
    omega
  · intro t0 f0 h1 h2 h3
    have h4 : Sent (trace (w.mcfg (w.addr a)) (w.addr a) (Macro.init (w.seq0 (w.addr a)))
        (pre ++ .rxDone (ackFrame (w.addr b) (w.addr a) p.seq) true g :: later)) t0 f0 := by
      rw [Macro.trace_append]
      exact h1.mono (fun x hx => List.mem_append_left _ hx)
    obtain ⟨n0, h5⟩ := (ta.sent _ _).1 h4
    exact hfirst t0 n0 f0 h5 h2 h3
  · rw [← heq, (hi.node a ha).mnow]
    exact hnow

/-- **C106, the part that holds, with the delivery.**  Under the same conditions, if no device uses RTS, no counter has wrapped and the
packet was not charged five timeouts: the packet is reported as delivered, and was delivered exactly once. -/
theorem C106_clean_exchange_delivered_partial (w : World P) (hw : w.Wf) (ops : List Op) (t : ℤ) (n a b : Nat) (p : Pkt)
    (hb : b < w.num) (hba : b ≠ a)
    (htpn : 0 ≤ (w.mcfg (w.addr a)).tpn) (hslot : 0 ≤ (w.mcfg (w.addr a)).slot) (hsifs : 0 ≤ (w.mcfg (w.addr a)).sifs)
    (hsame : (w.mcfg (w.addr b)).sifs = (w.mcfg (w.addr a)).sifs ∧ (w.mcfg (w.addr b)).ctrlDur .ack = (w.mcfg (w.addr a)).ctrlDur .ack)
    (hp : Macro.Obs.accepted p ∈ ((after w ops).mac (w.addr a)).log) (hdst : p.dst = w.addr b)
    (hnw : NoWrap w.seq0 (after w ops).mac)
    (hm : AObs.tx t n a (dataFrame (w.addr a) p) ∈ (after w ops).air)
    (hfirst : ∀ t0 n0 f0, AObs.tx t0 n0 a f0 ∈ (after w ops).air → f0.kind = .data → f0.seq = p.seq →
      t0 + Macro.ackTimeoutDur (w.mcfg (w.addr a)) p < t ∨ t ≤ t0)
    (hclean : CleanExchange w (after w ops).air t n a b p)
    (hlink : StrongLink w t a b (dataFrame (w.addr a) p))
    (hlink' : StrongLink w (arrived w t a b (dataFrame (w.addr a) p) + (w.mcfg (w.addr b)).sifs) b a
      (ackFrame (w.addr b) (w.addr a) p.seq))
    (hreach : w.delay t a b + w.delay (arrived w t a b (dataFrame (w.addr a) p) + (w.mcfg (w.addr b)).sifs) b a <
      2 * (w.mcfg (w.addr a)).tProp + (w.mcfg (w.addr a)).slot)
    (hnow : arrived w (arrived w t a b (dataFrame (w.addr a) p) + (w.mcfg (w.addr b)).sifs) b a (ackFrame (w.addr b) (w.addr a) p.seq) +
      (w.mcfg (w.addr a)).ps 1 < (after w ops).ch.now)
    (hrts : ∀ a, (w.mcfg a).rts = false)
    (hto : ∀ k, Macro.Obs.timedOut p k ∈ ((after w ops).mac (w.addr a)).log → k < 5) :
    Macro.Obs.done true p ∈ ((after w ops).mac (w.addr a)).log ∧
    ((after w ops).mac (w.addr b)).log.count (.up p.body (w.addr a) (w.addr b) p.seq) = 1 := by
  have hnum : numAccepted ((after w ops).mac (w.addr a)).log ≤ 65536 := by
    have := hnw (w.addr a)
    omega
  have hdone : Macro.Obs.done true p ∈ ((after w ops).mac (w.addr a)).log := by
    rcases C106_clean_exchange_partial w hw ops t n a b p hb hba htpn hslot hsifs hsame hp hdst hnum hm hfirst hclean hlink hlink'
      hreach hnow with h | ⟨k, h, hk⟩
    · exact h
    · exact absurd hk (UInt16.not_le.2 (hto k h))
  refine ⟨hdone, ?_⟩
  have := (C98_complete_devices_partial w hw ops hrts hnw (w.addr a) p hdone (by rw [hdst]; exact hw.uni b hb) hto).1
  rw [hdst] at this
  exact this

/-! ## Examples -/

/-- The exchange over 5 m is clean. -/
theorem exNear_clean {l : List AObs} (hair : l = [.tx 810001 0 0 exData, .rx 1638624 0 1 exData, .tx 1638624 1 1 exAckF,
    .rx 1656383 1 0 exAckF]) : CleanExchange (exW false 16678) l 810001 0 0 1 exPkt where
  data := {
    quiet := by
      rw [hair]
      intro x z t n f h
      right; right
      match x, h with
      | [], h => simp at h
      | [_], h => simp at h
      | [_, _], h =>
        simp only [List.cons_append, List.nil_append, List.cons.injEq, AObs.tx.injEq] at h
        obtain ⟨rfl, rfl, ⟨rfl, -⟩, -⟩ := h
        exact ⟨by decide +kernel, by simp [exData, exPkt, dataFrame, exW]⟩
      | [_, _, _], h => simp at h
      | _ :: _ :: _ :: _ :: _, h => simp at h
    alone := by
      rw [hair]
      intro t n a f h h1 h2
      simp only [List.mem_cons, List.not_mem_nil, or_false, reduceCtorEq, false_or, AObs.tx.injEq] at h
      omega }
  free := by
    rw [hair]
    intro t n f h
    simp only [List.mem_cons, List.not_mem_nil, or_false, reduceCtorEq, false_or, AObs.tx.injEq] at h
    rcases h with ⟨_, _, h, _⟩ | ⟨rfl, rfl, _, rfl⟩
    · exact absurd h (by decide)
    · exact .inr (.inr ⟨by decide +kernel, by decide +kernel⟩)
  calm := by
    rw [hair]
    intro t n a f h h1 h2
    simp only [List.mem_cons, List.not_mem_nil, or_false, reduceCtorEq, false_or, AObs.tx.injEq] at h
    omega
  ack := by
    rw [hair]
    intro n' h
    simp only [List.mem_cons, List.not_mem_nil, or_false, reduceCtorEq, false_or, AObs.tx.injEq] at h
    rcases h with ⟨_, _, h, _⟩ | ⟨_, rfl, _, _⟩
    · exact absurd h (by decide)
    · have e : arrived (exW false 16678) 810001 0 1 (dataFrame ((exW false 16678).addr 0) exPkt) +
          ((exW false 16678).mcfg ((exW false 16678).addr 1)).sifs = 1638624 := by decide +kernel
      rw [e]
      refine ⟨?_, ?_⟩
      · intro x z t n f h
        left
        match x, h with
        | [], h =>
          simp only [List.nil_append, List.cons.injEq, AObs.tx.injEq] at h
          obtain ⟨⟨rfl, _, _, rfl⟩, _⟩ := h
          decide +kernel
        | [_], h => simp at h
        | [_, _], h => simp at h
        | [_, _, _], h => simp at h
        | _ :: _ :: _ :: _ :: _, h => simp at h
      · intro t n a f h h1 h2
        simp only [List.mem_cons, List.not_mem_nil, or_false, reduceCtorEq, false_or, AObs.tx.injEq] at h
        omega

-- the exchange over 5 m meets all conditions
example : Macro.Obs.done true exPkt ∈ (exNear.mac exA).log ∨ ∃ k, Macro.Obs.timedOut exPkt k ∈ (exNear.mac exA).log ∧ 5 ≤ k := by
  have hlog : Macro.Obs.accepted exPkt ∈ (exNear.mac exA).log ∧ numAccepted (exNear.mac exA).log ≤ 65536 := by
    unfold exNear
    rw [exOps_after]
    decide +kernel
  have main : ∀ ops : List Op, (after (exW false 16678) ops).air = exNear.air → (after (exW false 16678) ops).ch.now = exNear.ch.now →
      Macro.Obs.accepted exPkt ∈ ((after (exW false 16678) ops).mac exA).log →
      numAccepted ((after (exW false 16678) ops).mac exA).log ≤ 65536 →
      Macro.Obs.done true exPkt ∈ ((after (exW false 16678) ops).mac exA).log ∨
        ∃ k, Macro.Obs.timedOut exPkt k ∈ ((after (exW false 16678) ops).mac exA).log ∧ 5 ≤ k := by
    intro ops h1 h2 h3 h4
    rw [exNear_air.1] at h1
    rw [exNear_air.2] at h2
    refine C106_clean_exchange_partial (exW false 16678) (exW_wf _ _) ops 810001 0 0 1 exPkt
      ?_ ?_ ?_ ?_ ?_ ?_ h3 ?_ h4 ?_ ?_ (exNear_clean h1) ?_ ?_ ?_ ?_
    · decide +kernel
    · decide
    · decide +kernel
    · decide +kernel
    · decide +kernel
    · decide +kernel
    · decide +kernel
    · rw [h1]; decide +kernel
    · rw [h1]
      intro t n f h h1
      simp only [List.mem_cons, List.not_mem_nil, or_false, reduceCtorEq, false_or, AObs.tx.injEq] at h
      intro _
      omega
    · exact ⟨by decide +kernel, by decide +kernel, by decide +kernel⟩
    · exact ⟨by decide +kernel, by decide +kernel, by decide +kernel⟩
    · decide +kernel
    · rw [h2]; decide +kernel
  have e : after (exW false 16678) (exOps (exW false 16678) 300) = exNear := by unfold exNear; rfl
  have := main (exOps (exW false 16678) 300)
  rw [e] at this
  exact this rfl rfl hlog.1 hlog.2

/-- No counter wraps in the exchange over 5 m. -/
theorem exNear_noWrap : NoWrap (exW false 16678).seq0 exNear.mac := by
  intro x
  by_cases hx : ∀ i, (exW false 16678).addr i ≠ x
  · unfold exNear
    rw [other_after hx]
    show (0 : UInt16).toNat + 0 ≤ 65535
    decide
  · have h : x = exA ∨ x = exB := by
      simp only [not_forall, not_not] at hx
      obtain ⟨i, rfl⟩ := hx
      show (if i = 0 then exA else exB) = exA ∨ (if i = 0 then exA else exB) = exB
      split <;> simp
    have h2 : numAccepted (exNear.mac exA).log ≤ 1 ∧ numAccepted (exNear.mac exB).log ≤ 1 := by
      unfold exNear
      rw [exOps_after]
      decide +kernel
    show (0 : UInt16).toNat + _ ≤ _
    rcases h with rfl | rfl
    · have := h2.1
      simp; omega
    · have := h2.2
      simp; omega

-- the conditions of C98 and C99 for complete devices are met, and the packet was delivered
example : (exW false 16678).Wf ∧ NoWrap (exW false 16678).seq0 exNear.mac ∧ (∀ a, ((exW false 16678).mcfg a).rts = false) ∧
    Macro.Obs.done true exPkt ∈ (exNear.mac exA).log ∧ (∀ k, Macro.Obs.timedOut exPkt k ∈ (exNear.mac exA).log → k < 5) ∧
    deliveries exA (exNear.mac exB).log = [(exBody, exB, 1)] := by
  refine ⟨exW_wf _ _, exNear_noWrap, fun _ => rfl, ?_⟩
  unfold exNear
  rw [exOps_after]
  have hall : ∀ l : List Macro.Obs, (l.all (fun o => match o with
      | .timedOut _ _ => false
      | _ => true) = true) → ∀ k, Macro.Obs.timedOut exPkt k ∈ l → k < 5 := by
    intro l h k hk
    exact absurd (List.all_eq_true.1 h _ hk) (by simp)
  refine ⟨by decide +kernel, hall _ (by decide +kernel), by decide +kernel⟩

end Thz.Stack
