import Verif.StackLive
import Verif.MacroRtsTimed

/-!
# C106, the part that holds: the whole exchange with RTS and CTS

Complete macro devices (`Stack.after`).  An RTS that arrives undisturbed at a device that is not holding back, whose CTS arrives undisturbed
and in time: the DATA frame follows.  Together with `C106_clean_exchange_partial`: the packet is reported as delivered.
-/

namespace Thz.Stack

open Thz
open Thz.Nano (Body bcast)
open Thz.Macro (Frame Pkt exA exB exBody numAccepted dataFrame rtsFrame ackFrame Sent Heard trace newObs)

variable {P : Type}

/-! ## Specification -/

/-- The frame is a CTS from `b` to `a` with the number of `p`. -/
def IsCts (w : World P) (a b : Nat) (p : Pkt) (f : Frame) : Prop :=
  f.kind = .cts ∧ f.src = w.addr b ∧ f.dst = w.addr a ∧ f.seq = p.seq

/-- When device `b` sends the CTS if `a` starts to transmit the RTS at time `t`. -/
def ctsTime (w : World P) (t : ℤ) (a b : Nat) (p : Pkt) : ℤ :=
  arrived w t a b (rtsFrame (w.addr a) p) + (w.mcfg (w.addr b)).ps 1

/-- When that CTS has arrived. -/
def ctsEnd (w : World P) (t : ℤ) (a b : Nat) (p : Pkt) : ℤ :=
  ctsTime w t a b p + w.delay (ctsTime w t a b p) b a + (w.mcfg (w.addr b)).ctrlDur .cts

/-- When the DATA frame follows. -/
def dataTime (w : World P) (t : ℤ) (a b : Nat) (p : Pkt) : ℤ := ctsEnd w t a b p + (w.mcfg (w.addr a)).ps 1

/-- The exchange of RTS and CTS for packet `p`, which device `a` starts with transmission `n` at time `t`, is not disturbed: the RTS arrives
undisturbed at `b`; until the CTS is sent `b` is not busy with a frame of its own (other than a CTS at that very moment) and nothing else arrives
there; the CTS arrives
undisturbed at `a`; until the DATA frame is sent `a` is not busy with a frame of its own (other
than unicast DATA at that very moment) and nothing else arrives there; and `a` did
not receive a CTS for this packet before, from `t` on. -/
structure CleanRts (w : World P) (air : List AObs) (t : ℤ) (n a b : Nat) (p : Pkt) : Prop where
  rts : Undisturbed w air t n a (rtsFrame (w.addr a) p) b
  freeB : ∀ t' n' f', AObs.tx t' n' b f' ∈ air →
    t' + (w.mcfg (w.addr b)).frameDur f' < arrived w t a b (rtsFrame (w.addr a) p) ∨ ctsTime w t a b p < t' ∨
    (t' = ctsTime w t a b p ∧ f'.kind = .cts)
  calmB : ∀ t' n' a' f', AObs.tx t' n' a' f' ∈ air → a' ≠ b →
    t' + w.delay t' a' b < arrived w t a b (rtsFrame (w.addr a) p) ∨ ctsTime w t a b p < t' + w.delay t' a' b
  cts : ∀ n' f', AObs.tx (ctsTime w t a b p) n' b f' ∈ air → IsCts w a b p f' → Undisturbed w air (ctsTime w t a b p) n' b f' a
  freeA : ∀ t' n' f', AObs.tx t' n' a f' ∈ air →
    t' + (w.mcfg (w.addr a)).frameDur f' < ctsEnd w t a b p ∨ dataTime w t a b p < t' ∨
    (t' = dataTime w t a b p ∧ f'.kind = .data ∧ f'.dst ≠ bcast)
  calmA : ∀ t' n' a' f', AObs.tx t' n' a' f' ∈ air → a' ≠ a →
    t' + w.delay t' a' a < ctsEnd w t a b p ∨ dataTime w t a b p < t' + w.delay t' a' a
  first : ∀ t' n' f', AObs.rx t' n' a f' ∈ air → f'.kind = .cts → f'.dst = w.addr a → f'.seq = p.seq → t' < t ∨ ctsEnd w t a b p ≤ t'

/-- When device `b` receives the frame, no reservation of the channel that it has heard of or made itself is running. -/
def NotHolding (w : World P) (ops : List Op) (T : ℤ) (n b : Nat) (f : Frame) : Prop :=
  ∀ opre o opost, ops = opre ++ o :: opost → AObs.rx T n b f ∉ (after w opre).air → AObs.rx T n b f ∈ (after w (opre ++ [o])).air →
    ((after w opre).mac (w.addr b)).nav ≤ T ∧ ((after w opre).mac (w.addr b)).localNav ≤ T

/-! ## Proof -/

theorem after_append (w : World P) (a b : List Op) : after w (a ++ b) = b.foldl (step w) (after w a) := by
  unfold after; rw [List.foldl_append]

/-- What holds in the end and not in the beginning starts to hold in some step. -/
theorem first_step {w : World P} {Q : St P → Prop} (h0 : ¬ Q (init w)) (ops : List Op) : Q (after w ops) →
    ∃ opre o opost, ops = opre ++ o :: opost ∧ ¬ Q (after w opre) ∧ Q (after w (opre ++ [o])) := by
  induction ops using List.reverseRecOn with
  | nil => exact fun h => absurd h h0
  | append_singleton l o ih =>
    intro h
    by_cases hq : Q (after w l)
    · obtain ⟨a, o', b, h1, h2, h3⟩ := ih hq
      exact ⟨a, o', b ++ [o], by rw [h1]; simp, h2, h3⟩
    · exact ⟨l, o, [], rfl, hq, h⟩

/-- What the PHY senses, and frames with errors, do not change the reservations. -/
theorem nav_same {c : Macro.Cfg} {me : Mac48} (l : List Macro.Op) : (∀ o ∈ l, Kind true o) → (∀ o ∈ l, ∀ f g, o ≠ .rxDone f true g) →
    ∀ s : Macro.St, (Macro.run c me s l).nav = s.nav ∧ (Macro.run c me s l).localNav = s.localNav ∧ (Macro.run c me s l).now = s.now := by
  induction l with
  | nil => exact fun _ _ s => ⟨rfl, rfl, rfl⟩
  | cons o l ih =>
    intro h1 h2 s
    obtain ⟨h3, h4, h5⟩ := ih (fun o h => h1 o (List.mem_cons_of_mem _ h)) (fun o h => h2 o (List.mem_cons_of_mem _ h)) (Macro.step c me s o)
    have : (Macro.step c me s o).nav = s.nav ∧ (Macro.step c me s o).localNav = s.localNav ∧ (Macro.step c me s o).now = s.now := by
      have hk := h1 o List.mem_cons_self
      unfold Kind at hk
      rw [if_pos rfl] at hk
      rcases hk with ⟨b, rfl⟩ | ⟨f, ok, g, rfl⟩
      · exact ⟨rfl, rfl, rfl⟩
      · cases ok with
        | true => exact absurd rfl (h2 _ List.mem_cons_self f g)
        | false => exact ⟨rfl, rfl, rfl⟩
    exact ⟨h3.trans this.1, h4.trans this.2.1, h5.trans this.2.2⟩

/-- A list in which something occurs is split at the first occurrence. -/
theorem split_first {α : Type} (q : α → Prop) (l : List α) : (∃ x ∈ l, q x) → ∃ a x b, l = a ++ x :: b ∧ q x ∧ ∀ y ∈ a, ¬ q y := by
  induction l with
  | nil => rintro ⟨x, h, _⟩; cases h
  | cons y l ih =>
    rintro ⟨x, h, hx⟩
    by_cases hy : q y
    · exact ⟨[], y, l, rfl, hy, by simp⟩
    · obtain ⟨a, z, b, h1, h2, h3⟩ := ih (by
        rcases List.mem_cons.1 h with rfl | h
        · exact absurd hx hy
        · exact ⟨x, h, hx⟩)
      refine ⟨y :: a, z, b, by rw [h1]; rfl, h2, fun u hu => ?_⟩
      rcases List.mem_cons.1 hu with rfl | hu
      · exact hy
      · exact h3 u hu

/-- The reception in the run of the MAC: the reservations just before it are those before the step. -/
theorem rx_split {w : World P} (hw : w.Wf) {opre : List Op} {o : Op} {opost : List Op} {T : ℤ} {n b : Nat} {f : Frame} (hb : b < w.num)
    (h1 : AObs.rx T n b f ∉ (after w opre).air) (h2 : AObs.rx T n b f ∈ (after w (opre ++ [o])).air) :
    ∃ pre g later, Traced w b (after w (opre ++ o :: opost)) (pre ++ .rxDone f true g :: later) ∧
      T = (Macro.after (w.mcfg (w.addr b)) (w.addr b) (w.seq0 (w.addr b)) pre).now ∧
      (Macro.after (w.mcfg (w.addr b)) (w.addr b) (w.seq0 (w.addr b)) pre).nav = ((after w opre).mac (w.addr b)).nav ∧
      (Macro.after (w.mcfg (w.addr b)) (w.addr b) (w.seq0 (w.addr b)) pre).localNav = ((after w opre).mac (w.addr b)).localNav := by
  have hi := inv_after hw opre
  obtain ⟨m1, t1⟩ := traced_after hw opre hb
  obtain ⟨new, t2, q, hq⟩ := t1.step hw hi o hb
  have es : after w (opre ++ [o]) = step w (after w opre) o := by rw [after_append]; rfl
  have ea : after w (opre ++ o :: opost) = opost.foldl (step w) (step w (after w opre) o) := by rw [after_append]; rfl
  obtain ⟨rest, t3⟩ := t2.more hw hb opost (hi.step hw o)
  rw [ea]
  rw [es] at h2
  obtain ⟨hi', hmv⟩ := hi.move hw o
  obtain ⟨la, ha, hla⟩ := mv_air hmv
  have hin : AObs.rx T n b f ∈ la := by
    rw [ha] at h2
    exact (List.mem_append.1 h2).resolve_left h1
  -- all receptions of the step are of this frame
  have hsame : ∀ t' n' f', AObs.rx t' n' b f' ∈ la → f' = f ∧ T = (after w opre).ch.now := by
    intro t' n' f' hm
    cases hmv with
    | quiet _ _ hair => rw [hair] at h2; exact absurd h2 h1
    | hand i f _ _ _ _ hair =>
      rw [hair] at h2
      rcases List.mem_append.1 h2 with h | h
      · exact absurd h h1
      · simp at h
    | txEnd _ _ _ _ _ _ _ _ _ hair => rw [hair] at h2; exact absurd h2 h1
    | arrive _ _ _ _ _ _ _ _ _ _ _ hair => rw [hair] at h2; exact absurd h2 h1
    | finish i c n0 t pw x y f0 la' _ _ _ _ _ _ hair hla' =>
      have e : la = la' := List.append_cancel_left (ha.symm.trans hair)
      rw [← e] at hla'
      have h3 := hla'.1 _ hin
      have h4 := hla'.1 _ hm
      injection h3 with a1 a2 a3 a4
      injection h4 with b1 b2 b3 b4
      exact ⟨b4.trans a4.symm, a1⟩
    | tick _ _ _ hair => rw [hair] at h2; exact absurd h2 h1
  have hT := (hsame _ _ _ hin).2
  -- what the MAC logs in the step
  obtain ⟨l, hl1, hl2⟩ := trace_log (c := w.mcfg (w.addr b)) (me := w.addr b) new ((after w opre).mac (w.addr b))
  have e0 : Macro.run (w.mcfg (w.addr b)) (w.addr b) (Macro.init (w.seq0 (w.addr b))) m1 = (after w opre).mac (w.addr b) := t1.eq.symm
  have e1 : (step w (after w opre) o).mac (w.addr b) = Macro.run (w.mcfg (w.addr b)) (w.addr b) ((after w opre).mac (w.addr b)) new := by
    rw [t2.eq]
    unfold Macro.after
    rw [Macro.run_append, e0]
  have hg : rxIn l = rxOf b la := by
    have h3 := (hi'.node b hb).got
    rw [e1, hl1, rxIn_append, ha, rxOf_append, (hi.node b hb).got] at h3
    exact List.append_cancel_left h3
  have hmem : ∃ y ∈ new, ∃ f' g', y = Macro.Op.rxDone f' true g' := by
    have h3 : f ∈ rxIn l := by rw [hg]; exact mem_rxOf.2 ⟨_, _, hin⟩
    obtain ⟨x, hx, hxf⟩ := (hl2 _).1 (mem_rxIn.1 h3)
    obtain ⟨a, y, c', h4, h5⟩ := Macro.mem_trace new _ x hx
    rw [h5] at hxf
    obtain ⟨g, h6⟩ := rx_only hxf
    exact ⟨y, by rw [h4]; simp, f, g, h6⟩
  obtain ⟨x, y, z, h3, ⟨f', g, rfl⟩, h4⟩ := split_first _ new hmem
  have hq' : q = true := by
    cases q with
    | true => rfl
    | false =>
      have := hq (.rxDone f' true g) (by rw [h3]; simp)
      unfold Kind at this
      rw [if_neg (by simp)] at this
      exact absurd rfl (this f' g)
  subst hq'
  have hf : f' = f := by
    have h5 : Macro.Obs.rx f' ∈ l := by
      rw [hl2, h3, Macro.trace_append]
      exact ⟨_, List.mem_append_right _ List.mem_cons_self, rx_logged _ _ _ _ _⟩
    have h6 := mem_rxIn.2 h5
    rw [hg] at h6
    obtain ⟨t', n', h7⟩ := mem_rxOf.1 h6
    exact (hsame _ _ _ h7).1
  subst hf
  obtain ⟨k1, k2, k3⟩ := nav_same (c := w.mcfg (w.addr b)) (me := w.addr b) x (fun o ho => hq o (by rw [h3]; exact List.mem_append_left _ ho))
    (fun o ho f g e => h4 o ho ⟨f, g, e⟩) ((after w opre).mac (w.addr b))
  have e2 : Macro.after (w.mcfg (w.addr b)) (w.addr b) (w.seq0 (w.addr b)) (m1 ++ x) =
      Macro.run (w.mcfg (w.addr b)) (w.addr b) ((after w opre).mac (w.addr b)) x := by
    unfold Macro.after
    rw [Macro.run_append, e0]
  refine ⟨m1 ++ x, g, z ++ rest, ?_, ?_, ?_, ?_⟩
  · rw [h3] at t3
    have : m1 ++ (x ++ .rxDone f' true g :: z) ++ rest = m1 ++ x ++ .rxDone f' true g :: (z ++ rest) := by simp
    rw [← this]
    exact t3
  · rw [e2, k3, (hi.node b hb).mnow, hT]
  · rw [e2, k1]
  · rw [e2, k2]

/-- The first entry of a trace of some kind. -/
theorem trace_first {c : Macro.Cfg} {me : Mac48} (R : ℤ × Macro.Op × List Macro.Obs → Prop) (ops : List Macro.Op) : ∀ (s : Macro.St),
    ∀ x ∈ trace c me s ops, R x → ∃ a o b, ops = a ++ o :: b ∧
      R ((Macro.step c me (Macro.run c me s a) o).now, o, newObs c me (Macro.run c me s a) o) ∧ (∀ y ∈ trace c me s a, ¬ R y) ∧
      (Macro.step c me (Macro.run c me s a) o).now ≤ x.1 := by
  induction ops with
  | nil => intro s x h; cases h
  | cons o ops ih =>
    intro s x h hx
    by_cases hR : R ((Macro.step c me s o).now, o, newObs c me s o)
    · exact ⟨[], o, ops, rfl, hR, (by intro y h; cases h), by
        rcases List.mem_cons.1 h with rfl | h
        · exact le_refl _
        · exact Macro.trace_ge ops _ x h⟩
    · rcases List.mem_cons.1 h with rfl | h
      · exact absurd hx hR
      · obtain ⟨a, o', b, h1, h2, h3, h4⟩ := ih _ x h hx
        refine ⟨o :: a, o', b, by rw [h1]; rfl, h2, fun y hy => ?_, h4⟩
        rcases List.mem_cons.1 hy with rfl | hy
        · exact hR
        · exact h3 y hy

/-- What the PHY announces at a device after `T` has arrived after `T`. -/
theorem heard_later {w : World P} {s : St P} (hi : Inv w s) {j : Nat} (hj : j < w.num) {pre later : List Macro.Op} {f : Frame} {g : UInt16}
    (ht : Traced w j s (pre ++ .rxDone f true g :: later)) {t' : ℤ}
    (h : Heard (trace (w.mcfg (w.addr j)) (w.addr j) (Macro.after (w.mcfg (w.addr j)) (w.addr j) (w.seq0 (w.addr j)) (pre ++ [.rxDone f true g]))
      later) t') : (Macro.after (w.mcfg (w.addr j)) (w.addr j) (w.seq0 (w.addr j)) pre).now ≤ t' ∧
    ∃ t0 n a f', AObs.tx t0 n a f' ∈ s.air ∧ a ≠ j ∧ t' = t0 + w.delay t0 a j := by
  constructor
  · obtain ⟨y, hy, rfl, -⟩ := h
    have h3 := Macro.trace_ge later _ y hy
    have h4 : (Macro.after (w.mcfg (w.addr j)) (w.addr j) (w.seq0 (w.addr j)) pre).now ≤ (Macro.after (w.mcfg (w.addr j)) (w.addr j)
        (w.seq0 (w.addr j)) (pre ++ [.rxDone f true g])).now := by
      unfold Macro.after
      rw [Macro.run_append]
      exact Macro.now_le_run _ _ _ _
    omega
  · have h1 : Heard (trace (w.mcfg (w.addr j)) (w.addr j) (Macro.init (w.seq0 (w.addr j))) (pre ++ .rxDone f true g :: later)) t' := by
      obtain ⟨y, hy, hy1⟩ := h
      refine ⟨y, ?_, hy1⟩
      rw [show pre ++ .rxDone f true g :: later = (pre ++ [.rxDone f true g]) ++ later by simp, Macro.trace_append]
      exact List.mem_append_right _ hy
    obtain ⟨c, n', dur, pw, h3⟩ := ht.heard t' h1
    obtain ⟨t0, a', f', h4, h5, h6⟩ := arrival_sent hi hj h3
    exact ⟨t0, n', a', f', h4, h5, h6⟩

/-- **C106, the part that holds, RTS and CTS.**  Device `a` transmits the RTS of an accepted packet for device `b` at time `t`.  If the exchange
is not disturbed, `b` is not holding back when the RTS arrives, the links are strong in both directions and the two propagation delays
together are shorter than what the sender allows for, then `a` transmits the DATA frame of that packet a picosecond after the CTS has
arrived - unless the packet is already reported as delivered or has been charged five timeouts.  (Both devices are configured with the same
CTS duration; the sender has accepted at most 65536 packets and sent no other RTS with this number within a timeout before `t`.) -/
theorem C106_clean_rts_partial (w : World P) (hw : w.Wf) (ops : List Op) (t : ℤ) (n a b : Nat) (p : Pkt)
    (hb : b < w.num) (hba : b ≠ a)
    (htpn : 0 ≤ (w.mcfg (w.addr a)).tpn) (htpn' : 0 ≤ (w.mcfg (w.addr b)).tpn)
    (hslot : 0 ≤ (w.mcfg (w.addr a)).slot) (hsifs : 0 ≤ (w.mcfg (w.addr a)).sifs)
    (hsame : (w.mcfg (w.addr b)).ctrlDur .cts = (w.mcfg (w.addr a)).ctrlDur .cts)
    (hp : Macro.Obs.accepted p ∈ ((after w ops).mac (w.addr a)).log) (hdst : p.dst = w.addr b)
    (hnum : numAccepted ((after w ops).mac (w.addr a)).log ≤ 65536)
    (hm : AObs.tx t n a (rtsFrame (w.addr a) p) ∈ (after w ops).air)
    (hfirst : ∀ t0 n0 f0, AObs.tx t0 n0 a f0 ∈ (after w ops).air → f0.kind = .rts → f0.seq = p.seq →
      t0 + Macro.ctsTimeoutDur (w.mcfg (w.addr a)) < t ∨ t ≤ t0)
    (hclean : CleanRts w (after w ops).air t n a b p)
    (hhold : NotHolding w ops (arrived w t a b (rtsFrame (w.addr a) p)) n b (rtsFrame (w.addr a) p))
    (hlink : StrongLink w t a b (rtsFrame (w.addr a) p))
    (hlink' : ∀ f, IsCts w a b p f → StrongLink w (ctsTime w t a b p) b a f)
    (hreach : w.delay t a b + w.delay (ctsTime w t a b p) b a + (w.mcfg (w.addr b)).ps 1 <
      2 * (w.mcfg (w.addr a)).tProp + (w.mcfg (w.addr a)).sifs + (w.mcfg (w.addr a)).slot)
    (hnow : dataTime w t a b p < (after w ops).ch.now) :
    (∃ n', AObs.tx (dataTime w t a b p) n' a (dataFrame (w.addr a) p) ∈ (after w ops).air) ∨
    Macro.Obs.done true p ∈ ((after w ops).mac (w.addr a)).log ∨
    ∃ k, Macro.Obs.timedOut p k ∈ ((after w ops).mac (w.addr a)).log ∧ 5 ≤ k := by
  have hi := inv_after hw ops
  have ha : a < w.num := (hi.airTx _ _ _ _ hm).1
  obtain ⟨c1, c2, c3, c4, c5, c6, c7⟩ := hclean
  unfold dataTime at hnow c5 c6 ⊢
  unfold ctsEnd at hnow c5 c6 c7 ⊢
  have hpsa := Macro.Rts.ps_nonneg htpn
  have hpsb := Macro.Rts.ps_nonneg htpn'
  have htp : 0 ≤ (w.mcfg (w.addr a)).tProp := by
    unfold Macro.Cfg.tProp Macro.Cfg.ps
    exact Int.tdiv_nonneg (by omega) (by omega)
  obtain ⟨T1, eT1⟩ : ∃ T, T = arrived w t a b (rtsFrame (w.addr a) p) := ⟨_, rfl⟩
  have hT1 : T1 = t + w.delay t a b + (w.mcfg (w.addr a)).ctrlDur .rts := eT1
  have eC : ctsTime w t a b p = T1 + (w.mcfg (w.addr b)).ps 1 := by rw [eT1]; rfl
  rw [eC] at c2 c3 c4 c5 c6 c7 hlink' hreach hnow ⊢
  rw [← eT1] at c2 c3 hhold
  obtain ⟨T2, hT2⟩ : ∃ T, T = T1 + (w.mcfg (w.addr b)).ps 1 + w.delay (T1 + (w.mcfg (w.addr b)).ps 1) b a +
    (w.mcfg (w.addr b)).ctrlDur .cts := ⟨_, rfl⟩
  rw [← hT2] at c5 c6 c7 hnow ⊢
  have hl1 : 0 < (w.mcfg (w.addr a)).ctrlDur .rts := hlink.long
  have hc0 : 0 ≤ (w.mcfg (w.addr b)).ctrlDur .cts := hw.dur b hb ⟨.cts, w.addr b, w.addr a, p.seq, 0, ⟨0, 0⟩⟩
  have hr0 : 0 ≤ (w.mcfg (w.addr a)).ctrlDur .rts := hl1.le
  have hD : 0 ≤ Macro.ctsTimeoutDur (w.mcfg (w.addr a)) := by
    have h2 : 0 ≤ (w.mcfg (w.addr a)).ctrlDur .cts := by rw [← hsame]; exact hc0
    unfold Macro.ctsTimeoutDur
    omega
  -- the RTS is received
  have hrx := C105_undisturbed_is_received w hw ops t n a b _ hm hb hba hlink.long hlink.loud hlink.sinr c1 (by
    show t + w.delay t a b + (w.mcfg (w.addr a)).ctrlDur .rts < _
    omega)
  have hrx' : AObs.rx T1 n b (rtsFrame (w.addr a) p) ∈ (after w ops).air := by rw [eT1]; exact hrx
  -- and answered
  obtain ⟨opre, o, opost, eo, q1, q2⟩ := first_step (Q := fun s => AObs.rx T1 n b (rtsFrame (w.addr a) p) ∈ s.air) (by simp [init]) ops hrx'
  obtain ⟨hnav1, hnav2⟩ := hhold opre o opost eo q1 q2
  have hans : ∃ n2 f2, AObs.tx (T1 + (w.mcfg (w.addr b)).ps 1) n2 b f2 ∈ (after w ops).air ∧ IsCts w a b p f2 := by
    obtain ⟨pre, g, later, tb, hTn, k1, k2⟩ := rx_split (opost := opost) hw hb q1 q2
    rw [← eo] at tb
    obtain ⟨f2, key, key2⟩ := Macro.Rts.C109_rts_is_answered (w.mcfg (w.addr b)) (w.addr b) (w.seq0 (w.addr b)) pre later
      (rtsFrame (w.addr a) p) g htpn' (hw.dur b hb) tb.time rfl hdst T1 hTn (by rw [k1, k2]; exact ⟨hnav1, hnav2⟩)
      (fun t' ht' => by
        obtain ⟨h1, t0, n', a', f', h2, h3, h4⟩ := heard_later hi hb tb ht'
        rw [← hTn] at h1
        rcases c3 t0 n' a' f' h2 h3 with h5 | h5
        · omega
        · omega)
      (fun f' h1 _ _ => by
        rw [eT1] at h1
        rw [lone hw tb hm c1 h1]
        exact ⟨rfl, rfl⟩)
      (fun t' f' ht' => by
        obtain ⟨n', h1⟩ := (tb.sent _ _).1 ht'
        exact c2 t' n' f' h1)
      (by rw [← tb.eq, (hi.node b hb).mnow]; omega)
    obtain ⟨n2, h1⟩ := (tb.sent _ _).1 key
    exact ⟨n2, f2, h1, key2⟩
  obtain ⟨n2, f2, hm2, hf2⟩ := hans
  have hl2 := hlink' f2 hf2
  have hd2 : (w.mcfg (w.addr b)).frameDur f2 = (w.mcfg (w.addr b)).ctrlDur .cts := by
    unfold Macro.Cfg.frameDur
    rw [hf2.1]
  -- the CTS is received
  have hrx2 := C105_undisturbed_is_received w hw ops _ n2 b a _ hm2 ha (Ne.symm hba) hl2.long hl2.loud hl2.sinr (c4 n2 f2 hm2 hf2)
    (by rw [hd2, ← hT2]; omega)
  rw [hd2, ← hT2] at hrx2
  -- the first CTS since the RTS
  obtain ⟨ma, ta⟩ := traced_after hw ops ha
  obtain ⟨x, hx, hx1, hx2⟩ := ta.got _ _ _ hrx2
  have hR : t ≤ x.1 ∧ ∃ f g, x.2.1 = Macro.Op.rxDone f true g ∧ f.kind = .cts ∧ f.dst = w.addr a ∧ f.seq = p.seq := by
    obtain ⟨pre, o, later, eo, ex⟩ := Macro.mem_trace ma _ x hx
    rw [ex] at hx2
    obtain ⟨g, e⟩ := rx_only hx2
    refine ⟨by omega, f2, g, by rw [ex]; exact e, hf2.1, hf2.2.2.1, hf2.2.2.2⟩
  obtain ⟨pre, o', later, em, ⟨r1, f, g, r2, r3, r4, r5⟩, r6, r7⟩ := trace_first (fun x => t ≤ x.1 ∧ ∃ f g, x.2.1 = Macro.Op.rxDone f true g ∧
    f.kind = .cts ∧ f.dst = w.addr a ∧ f.seq = p.seq) ma _ x hx hR
  dsimp only at r1 r2
  subst r2
  subst em
  have hnow1 : (Macro.step (w.mcfg (w.addr a)) (w.addr a) (Macro.run (w.mcfg (w.addr a)) (w.addr a) (Macro.init (w.seq0 (w.addr a))) pre)
      (.rxDone f true g)).now = (Macro.after (w.mcfg (w.addr a)) (w.addr a) (w.seq0 (w.addr a)) pre).now :=
    Macro.now_step _ _ _ _ (by simp) (by simp)
  rw [hnow1] at r1 r7
  have hTn : T2 = (Macro.after (w.mcfg (w.addr a)) (w.addr a) (w.seq0 (w.addr a)) pre).now := by
    obtain ⟨n', h1⟩ := ta.only ((Macro.step (w.mcfg (w.addr a)) (w.addr a) (Macro.run (w.mcfg (w.addr a)) (w.addr a) (Macro.init (w.seq0 (w.addr a))) pre)
      (.rxDone f true g)).now, .rxDone f true g, newObs (w.mcfg (w.addr a)) (w.addr a) (Macro.run (w.mcfg (w.addr a)) (w.addr a)
        (Macro.init (w.seq0 (w.addr a))) pre) (.rxDone f true g)) (by
        rw [Macro.trace_append]; exact List.mem_append_right _ List.mem_cons_self) f (rx_logged _ _ _ _ _)
    rw [hnow1] at h1
    rcases c7 _ _ _ h1 r3 r4 r5 with h2 | h2
    · omega
    · omega
  have hsent := (ta.sent t (rtsFrame (w.addr a) p)).2 ⟨n, hm⟩
  rw [Macro.trace_append] at hsent
  have hsent' : Sent (trace (w.mcfg (w.addr a)) (w.addr a) (Macro.init (w.seq0 (w.addr a))) pre) t (rtsFrame (w.addr a) p) := by
    obtain ⟨y, hy, hy1, hy2⟩ := hsent
    rcases List.mem_append.1 hy with hy | hy
    · exact ⟨y, hy, hy1, hy2⟩
    · exfalso
      have h1 := Macro.trace_ge _ _ y hy
      have h2 : T2 ≤ y.1 := by rw [hTn]; exact h1
      omega
  have heq := ta.eq
  have main := Macro.Rts.cts_leads_to_data (w.mcfg (w.addr a)) htpn hD (hw.dur a ha) (w.addr a) (w.seq0 (w.addr a)) pre later p
    f g ta.time (by rw [← heq]; exact hnum) (by rw [← heq]; exact hp) t T2 hsent' ⟨r3, r4, r5⟩ hTn ?_ ?_ ?_ ?_ ?_ ?_ ?_
  · rw [← heq] at main
    rcases main with h | h
    · exact .inl ((ta.sent _ _).1 h)
    · exact .inr h
  · unfold Macro.ctsTimeoutDur
    omega
  · intro t0 f0 h1 h2 h3
    have h4 : Sent (trace (w.mcfg (w.addr a)) (w.addr a) (Macro.init (w.seq0 (w.addr a)))
        (pre ++ .rxDone f true g :: later)) t0 f0 := by
      rw [Macro.trace_append]
      exact h1.mono (fun x hx => List.mem_append_left _ hx)
    obtain ⟨n0, h5⟩ := (ta.sent _ _).1 h4
    exact hfirst t0 n0 f0 h5 h2 h3
  · intro y hy f' g' e1 e2 e3 e4
    by_contra hlt
    exact r6 y hy ⟨not_lt.1 hlt, f', g', e1, e2, e3, e4⟩
  · intro t' ht'
    obtain ⟨h1, t0, n', a', f', h2, h3, h4⟩ := heard_later hi ha ta ht'
    rw [← hTn] at h1
    rcases c6 t0 n' a' f' h2 h3 with h5 | h5
    · omega
    · omega
  · intro f' h1 _ _
    rw [hT2, ← hd2] at h1
    rw [lone hw ta hm2 (c4 n2 f2 hm2 hf2) h1]
    exact hf2.2.2.2
  · intro t' f' ht'
    obtain ⟨n', h1⟩ := (ta.sent _ _).1 ht'
    exact c5 t' n' f' h1
  · rw [← heq, (hi.node a ha).mnow]
    exact hnow

/-- **C106, the part that holds, the whole exchange.**  RTS, CTS, DATA and ACK, each undisturbed, at a distance that is not too long: the
sender reports the packet as delivered - unless it had already charged five timeouts to it. -/
theorem C106_clean_handshake_partial (w : World P) (hw : w.Wf) (ops : List Op) (t : ℤ) (n a b : Nat) (p : Pkt)
    (hb : b < w.num) (hba : b ≠ a)
    (htpn : 0 ≤ (w.mcfg (w.addr a)).tpn) (htpn' : 0 ≤ (w.mcfg (w.addr b)).tpn)
    (hslot : 0 ≤ (w.mcfg (w.addr a)).slot) (hsifs : 0 ≤ (w.mcfg (w.addr a)).sifs)
    (hsame : (w.mcfg (w.addr b)).sifs = (w.mcfg (w.addr a)).sifs ∧ ∀ k, (w.mcfg (w.addr b)).ctrlDur k = (w.mcfg (w.addr a)).ctrlDur k)
    (hp : Macro.Obs.accepted p ∈ ((after w ops).mac (w.addr a)).log) (hdst : p.dst = w.addr b)
    (hnum : numAccepted ((after w ops).mac (w.addr a)).log ≤ 65536)
    (hm : AObs.tx t n a (rtsFrame (w.addr a) p) ∈ (after w ops).air)
    (hfirst : ∀ t0 n0 f0, AObs.tx t0 n0 a f0 ∈ (after w ops).air → f0.kind = .rts → f0.seq = p.seq →
      t0 + Macro.ctsTimeoutDur (w.mcfg (w.addr a)) < t ∨ t ≤ t0)
    (hfirst' : ∀ t0 n0 f0, AObs.tx t0 n0 a f0 ∈ (after w ops).air → f0.kind = .data → f0.seq = p.seq →
      t0 + Macro.ackTimeoutDur (w.mcfg (w.addr a)) p < dataTime w t a b p ∨ dataTime w t a b p ≤ t0)
    (hclean : CleanRts w (after w ops).air t n a b p)
    (hclean' : ∀ n', AObs.tx (dataTime w t a b p) n' a (dataFrame (w.addr a) p) ∈ (after w ops).air →
      CleanExchange w (after w ops).air (dataTime w t a b p) n' a b p)
    (hhold : NotHolding w ops (arrived w t a b (rtsFrame (w.addr a) p)) n b (rtsFrame (w.addr a) p))
    (hlong : 0 < (w.mcfg (w.addr a)).frameDur (dataFrame (w.addr a) p) ∧ ∀ k ≠ .data, 0 < (w.mcfg (w.addr a)).ctrlDur k)
    (hloud : ∀ t, (w.pcfg b).loud (w.power t a b) = true ∧ (w.pcfg a).loud (w.power t b a) = true)
    (hsinr : ∀ t, (w.pcfg b).sinr (w.power t a b) [] = true ∧ (w.pcfg a).sinr (w.power t b a) [] = true)
    (hreach : ∀ t t', w.delay t a b + w.delay t' b a + (w.mcfg (w.addr b)).ps 1 < 2 * (w.mcfg (w.addr a)).tProp + (w.mcfg (w.addr a)).slot)
    (hnow : arrived w (arrived w (dataTime w t a b p) a b (dataFrame (w.addr a) p) + (w.mcfg (w.addr b)).sifs) b a
      (ackFrame (w.addr b) (w.addr a) p.seq) + (w.mcfg (w.addr a)).ps 1 < (after w ops).ch.now) :
    Macro.Obs.done true p ∈ ((after w ops).mac (w.addr a)).log ∨
    ∃ k, Macro.Obs.timedOut p k ∈ ((after w ops).mac (w.addr a)).log ∧ 5 ≤ k := by
  have hpsa := Macro.Rts.ps_nonneg htpn
  have hpsb := Macro.Rts.ps_nonneg htpn'
  have hs : 0 ≤ (w.mcfg (w.addr b)).sifs := by rw [hsame.1]; exact hsifs
  have hack : 0 < (w.mcfg (w.addr b)).ctrlDur .ack := by rw [hsame.2]; exact hlong.2 .ack (by decide)
  rcases C106_clean_rts_partial w hw ops t n a b p hb hba htpn htpn' hslot hsifs (hsame.2 .cts) hp hdst hnum hm hfirst hclean hhold
    ⟨hlong.2 .rts (by decide), (hloud _).1, (hsinr _).1⟩ (fun f hf => ⟨by
        have := hlong.2 .cts (by decide)
        rw [← hsame.2] at this
        unfold Macro.Cfg.frameDur
        rw [hf.1]
        exact this, (hloud _).2, (hsinr _).2⟩) (by
      have := hreach t (ctsTime w t a b p)
      omega) (by
      have h1 := hlong.1
      have h2 : 0 < (w.mcfg (w.addr b)).frameDur (ackFrame (w.addr b) (w.addr a) p.seq) := hack
      unfold arrived at hnow
      omega) with ⟨n', h⟩ | h
  · exact C106_clean_exchange_partial w hw ops (dataTime w t a b p) n' a b p hb hba htpn hslot hsifs ⟨hsame.1, hsame.2 .ack⟩ hp hdst hnum h
      hfirst' (hclean' n' h) ⟨hlong.1, (hloud _).1, (hsinr _).1⟩ ⟨hack, (hloud _).2, (hsinr _).2⟩ (by
        have := hreach (dataTime w t a b p) (arrived w (dataTime w t a b p) a b (dataFrame (w.addr a) p) + (w.mcfg (w.addr b)).sifs)
        omega) hnow
  · exact h

/-! ## Examples: the exchange with RTS over 5 m -/

/-- The state after the whole exchange. -/
def exRts : St ℕ := after (exW true 16678) (exOps (exW true 16678) 300)

/-- The RTS and CTS frames. -/
def exRtsF : Frame := ⟨.rts, exA, exB, 1, 0, ⟨0, 0⟩⟩
def exCtsF : Frame := ⟨.cts, exB, exA, 1, 65502, ⟨0, 0⟩⟩

theorem exRts_air : exRts.air = [.tx 810001 0 0 exRtsF, .rx 827760 0 1 exRtsF, .tx 827761 1 1 exCtsF, .rx 845628 1 0 exCtsF,
    .tx 845629 2 0 exData, .rx 1674252 2 1 exData, .tx 1674252 3 1 exAckF, .rx 1692011 3 0 exAckF] ∧ exRts.ch.now = 1730000 := by
  unfold exRts
  rw [exOps_after]
  decide +kernel

/-- The reservations of the device are over in the step in which the frame is received. -/
def navStep (w : World ℕ) (T : ℤ) (n b : Nat) (f : Frame) (s s' : St ℕ) : Bool :=
  decide (AObs.rx T n b f ∈ s.air) || !decide (AObs.rx T n b f ∈ s'.air) ||
    (decide ((s.mac (w.addr b)).nav ≤ T) && decide ((s.mac (w.addr b)).localNav ≤ T))

def navRun (w : World ℕ) (T : ℤ) (n b : Nat) (f : Frame) : Nat → St ℕ → Bool
  | 0, _ => true
  | k + 1, s => match nextOp w s with
    | none => true
    | some o => navStep w T n b f s (step w s o) && navRun w T n b f k (step w s o)

theorem navRun_all {w : World ℕ} {T : ℤ} {n b : Nat} {f : Frame} (k : Nat) : ∀ s : St ℕ, navRun w T n b f k s = true →
    ∀ a o c, auto w k s = a ++ o :: c → navStep w T n b f (a.foldl (step w) s) (step w (a.foldl (step w) s) o) = true := by
  induction k with
  | zero => intro s _ a o c e; simp [auto] at e
  | succ k ih =>
    intro s h a o c e
    unfold navRun at h
    unfold auto at e
    cases hn : nextOp w s with
    | none => rw [hn] at e; simp at e
    | some o' =>
      rw [hn] at h e
      dsimp only at h e
      rw [Bool.and_eq_true] at h
      cases a with
      | nil =>
        injection e with e1 e2
        subst e1
        exact h.1
      | cons o2 a =>
        injection e with e1 e2
        subst e1
        exact ih _ h.2 a o c e2

/-- The receiver is not holding back when the RTS arrives. -/
theorem exRts_free : NotHolding (exW true 16678) (exOps (exW true 16678) 300) 827760 0 1 exRtsF := by
  have h0 : navRun (exW true 16678) 827760 0 1 exRtsF 300 (step (exW true 16678) (init (exW true 16678)) exStart) = true := by
    decide +kernel
  intro opre o opost e h1 h2
  cases opre with
  | nil => exact ⟨by decide +kernel, by decide +kernel⟩
  | cons o1 opre =>
    injection e with e1 e2
    subst e1
    have := navRun_all 300 _ h0 opre o opost e2
    have e3 : opre.foldl (step (exW true 16678)) (step (exW true 16678) (init (exW true 16678)) exStart) =
        after (exW true 16678) (exStart :: opre) := rfl
    have e4 : after (exW true 16678) (exStart :: opre ++ [o]) = step (exW true 16678) (after (exW true 16678) (exStart :: opre)) o := by
      rw [after_append]; rfl
    rw [e3, ← e4] at this
    unfold navStep at this
    simp only [Bool.or_eq_true, Bool.and_eq_true, decide_eq_true_eq, Bool.not_eq_true', decide_eq_false_iff_not] at this
    rcases this with (h | h) | h
    · exact absurd h h1
    · exact absurd h2 h
    · exact h

/-- The log of the air of the exchange, and the transmissions in it. -/
abbrev exAir : List AObs := [.tx 810001 0 0 exRtsF, .rx 827760 0 1 exRtsF, .tx 827761 1 1 exCtsF, .rx 845628 1 0 exCtsF,
    .tx 845629 2 0 exData, .rx 1674252 2 1 exData, .tx 1674252 3 1 exAckF, .rx 1692011 3 0 exAckF]

abbrev exTxs : List (ℤ × Nat × Nat × Frame) :=
  [(810001, 0, 0, exRtsF), (827761, 1, 1, exCtsF), (845629, 2, 0, exData), (1674252, 3, 1, exAckF)]

theorem exTxs_mem {t : ℤ} {n a : Nat} {f : Frame} (h : AObs.tx t n a f ∈ exAir) : (t, n, a, f) ∈ exTxs := by
  simpa using h

/-- Whether a transmission is undisturbed can be read off the log. -/
theorem und_of {w : World ℕ} {t : ℤ} {n a : Nat} {f : Frame} {j : Nat}
    (h1 : ∀ k < 8, ∀ y ∈ exTxs, exAir[k]? = some (.tx y.1 y.2.1 y.2.2.1 y.2.2.2) → y.2.2.1 = j →
      y.1 + (w.mcfg (w.addr j)).frameDur y.2.2.2 < t + w.delay t a j ∨ t + w.delay t a j + (w.mcfg (w.addr a)).frameDur f < y.1 ∨
      (y.1 = t + w.delay t a j + (w.mcfg (w.addr a)).frameDur f ∧ AObs.rx y.1 n j f ∈ exAir.take k))
    (h2 : ∀ y ∈ exTxs, y.2.2.1 ≠ j → y.2.1 ≠ n → y.1 + w.delay y.1 y.2.2.1 j + (w.mcfg (w.addr y.2.2.1)).frameDur y.2.2.2 < t + w.delay t a j ∨
      t + w.delay t a j + (w.mcfg (w.addr a)).frameDur f < y.1 + w.delay y.1 y.2.2.1 j) : Undisturbed w exAir t n a f j where
  quiet := by
    intro x z t' n' f' e
    have hlen : x.length < 8 := by
      have := congrArg List.length e
      simp at this
      omega
    have hm : AObs.tx t' n' j f' ∈ exAir := by rw [e]; simp
    have h3 := h1 x.length hlen _ (exTxs_mem hm) (by rw [e]; simp) rfl
    have e2 : exAir.take x.length = x := by rw [e]; simp
    rw [e2] at h3
    exact h3
  alone := fun t' n' a' f' hm h3 h4 => h2 _ (exTxs_mem hm) h3 h4

/-- The exchange of RTS and CTS over 5 m is clean, -/
theorem exRts_clean : CleanRts (exW true 16678) exAir 810001 0 0 1 exPkt where
  rts := und_of (by decide +kernel) (by decide +kernel)
  freeB := by
    have : ∀ y ∈ exTxs, y.2.2.1 = 1 → y.1 + ((exW true 16678).mcfg ((exW true 16678).addr 1)).frameDur y.2.2.2 < 827760 ∨ 827761 < y.1 ∨
      (y.1 = 827761 ∧ y.2.2.2.kind = .cts) := by decide +kernel
    exact fun t' n' f' h => this _ (exTxs_mem h) rfl
  calmB := by
    have : ∀ y ∈ exTxs, y.2.2.1 ≠ 1 → y.1 + 16678 < 827760 ∨ 827761 < y.1 + 16678 := by decide +kernel
    exact fun t' n' a' f' h h1 => this _ (exTxs_mem h) h1
  cts := by
    have : ∀ y ∈ exTxs, y.1 = 827761 → y.2.1 = 1 ∧ y.2.2.2 = exCtsF := by decide +kernel
    intro n' f' h _
    have e : ctsTime (exW true 16678) 810001 0 1 exPkt = 827761 := by decide +kernel
    rw [e] at h ⊢
    obtain ⟨h1, h2⟩ := this _ (exTxs_mem h) rfl
    dsimp only at h1 h2
    rw [h1, h2]
    exact und_of (by decide +kernel) (by decide +kernel)
  freeA := by
    have : ∀ y ∈ exTxs, y.2.2.1 = 0 → y.1 + ((exW true 16678).mcfg ((exW true 16678).addr 0)).frameDur y.2.2.2 < 845628 ∨ 845629 < y.1 ∨
      (y.1 = 845629 ∧ y.2.2.2.kind = .data ∧ y.2.2.2.dst ≠ bcast) := by decide +kernel
    exact fun t' n' f' h => this _ (exTxs_mem h) rfl
  calmA := by
    have : ∀ y ∈ exTxs, y.2.2.1 ≠ 0 → y.1 + 16678 < 845628 ∨ 845629 < y.1 + 16678 := by decide +kernel
    exact fun t' n' a' f' h h1 => this _ (exTxs_mem h) h1
  first := by
    intro t' n' f' h h1 h2 h3
    simp only [List.mem_cons, List.not_mem_nil, or_false, reduceCtorEq, false_or, AObs.rx.injEq] at h
    rcases h with h | h | h | h
    · exact absurd h.2.2.1 (by decide)
    · exact .inr (by rw [h.1]; decide +kernel)
    · exact absurd h.2.2.1 (by decide)
    · exact .inr (by rw [h.1]; decide +kernel)

/-- and so is that of DATA and ACK. -/
theorem exRts_clean' {n' : Nat} (h : AObs.tx 845629 n' 0 exData ∈ exAir) : CleanExchange (exW true 16678) exAir 845629 n' 0 1 exPkt := by
  have hn : ∀ y ∈ exTxs, y.1 = 845629 → y.2.1 = 2 := by decide +kernel
  have hn' := hn _ (exTxs_mem h) rfl
  dsimp only at hn'
  subst hn'
  exact {
    data := und_of (by decide +kernel) (by decide +kernel)
    free := by
      have : ∀ y ∈ exTxs, y.2.2.1 = 1 → y.1 + ((exW true 16678).mcfg ((exW true 16678).addr 1)).frameDur y.2.2.2 < 1674252 ∨ 1674252 < y.1 ∨
        (y.1 = 1674252 ∧ y.2.2.2.kind = .ack) := by decide +kernel
      exact fun t' n' f' h => this _ (exTxs_mem h) rfl
    calm := by
      have : ∀ y ∈ exTxs, y.2.2.1 ≠ 1 → y.2.1 ≠ 2 → y.1 + 16678 < 1674252 ∨ 1674252 < y.1 + 16678 := by decide +kernel
      exact fun t' n' a' f' h h1 h2 => this _ (exTxs_mem h) h1 h2
    ack := by
      have : ∀ y ∈ exTxs, y.1 = 1674252 → y.2.1 = 3 := by decide +kernel
      intro n' h
      have e : arrived (exW true 16678) 845629 0 1 (dataFrame ((exW true 16678).addr 0) exPkt) +
          ((exW true 16678).mcfg ((exW true 16678).addr 1)).sifs = 1674252 := by decide +kernel
      rw [e] at h ⊢
      have h1 := this _ (exTxs_mem h) rfl
      dsimp only at h1
      subst h1
      exact und_of (by decide +kernel) (by decide +kernel) }

-- the exchange over 5 m meets all conditions of the theorems
example : Macro.Obs.done true exPkt ∈ (exRts.mac exA).log ∨ ∃ k, Macro.Obs.timedOut exPkt k ∈ (exRts.mac exA).log ∧ 5 ≤ k := by
  have hlog : Macro.Obs.accepted exPkt ∈ (exRts.mac exA).log ∧ numAccepted (exRts.mac exA).log ≤ 65536 := by
    unfold exRts
    rw [exOps_after]
    decide +kernel
  have main : ∀ ops : List Op, (after (exW true 16678) ops).air = exAir → (after (exW true 16678) ops).ch.now = 1730000 →
      NotHolding (exW true 16678) ops 827760 0 1 exRtsF →
      Macro.Obs.accepted exPkt ∈ ((after (exW true 16678) ops).mac exA).log →
      numAccepted ((after (exW true 16678) ops).mac exA).log ≤ 65536 →
      Macro.Obs.done true exPkt ∈ ((after (exW true 16678) ops).mac exA).log ∨
        ∃ k, Macro.Obs.timedOut exPkt k ∈ ((after (exW true 16678) ops).mac exA).log ∧ 5 ≤ k := by
    intro ops h1 h2 h0 h3 h4
    have e : dataTime (exW true 16678) 810001 0 1 exPkt = 845629 := by decide +kernel
    refine C106_clean_handshake_partial (exW true 16678) (exW_wf _ _) ops 810001 0 0 1 exPkt
      ?_ ?_ ?_ ?_ ?_ ?_ ?_ h3 ?_ h4 ?_ ?_ ?_ (by rw [h1]; exact exRts_clean) ?_ h0 ?_ ?_ ?_ ?_ ?_
    · decide +kernel
    · decide
    · decide +kernel
    · decide +kernel
    · decide +kernel
    · decide +kernel
    · exact ⟨rfl, fun _ => rfl⟩
    · decide +kernel
    · rw [h1]; exact List.mem_cons_self
    · rw [h1]
      have : ∀ y ∈ exTxs, y.2.2.1 = 0 → y.2.2.2.kind = .rts → y.1 = 810001 := by decide +kernel
      intro t0 n0 f0 h h5 _
      exact .inr (this _ (exTxs_mem h) rfl h5).ge
    · rw [h1, e]
      have : ∀ y ∈ exTxs, y.2.2.1 = 0 → y.2.2.2.kind = .data → y.1 = 845629 := by decide +kernel
      intro t0 n0 f0 h h5 _
      exact .inr (this _ (exTxs_mem h) rfl h5).ge
    · rw [h1, e]
      exact fun n' h => exRts_clean' h
    · refine ⟨by decide +kernel, fun k _ => ?_⟩
      cases k <;> decide +kernel
    · have : PhyMacro.exCfg.loud 1000 = true := by decide +kernel
      exact fun _ => ⟨this, this⟩
    · have : PhyMacro.exCfg.sinr 1000 [] = true := by decide +kernel
      exact fun _ => ⟨this, this⟩
    · intro t t'
      have : (16678 : ℤ) + 16678 + ((exW true 16678).mcfg ((exW true 16678).addr 1)).ps 1 <
        2 * ((exW true 16678).mcfg ((exW true 16678).addr 0)).tProp + ((exW true 16678).mcfg ((exW true 16678).addr 0)).slot := by
        decide +kernel
      exact this
    · rw [h2]; decide +kernel
  have e : after (exW true 16678) (exOps (exW true 16678) 300) = exRts := by unfold exRts; rfl
  have := main (exOps (exW true 16678) 300)
  rw [e] at this
  exact this exRts_air.1 exRts_air.2 exRts_free hlog.1 hlog.2

end Thz.Stack
