import Verif.Ap
import Mathlib.Algebra.Order.Floor.Ring
import Mathlib.Algebra.Order.Archimedean.Basic
import Mathlib.Tactic.Linarith
import Mathlib.Tactic.Ring
import Mathlib.Tactic.FieldSimp
import Mathlib.Tactic.Positivity
import Mathlib.Data.List.Induction

/-!
# The sweep of the access point: invariants
-/

namespace Thz.Ap

open Thz Thz.Central
open Thz.Nano (Body Kind bcast)

/-- The angles the antenna was turned to, in order. -/
def turnsOf (l : List Obs) : List ℚ :=
  l.filterMap (fun o => match o with | .turned a => some a | _ => none)

/-- The number of full turns counted. -/
def cyclesOf (l : List Obs) : Nat := l.countP (fun o => match o with | .cycle => true | _ => false)

/-- What the sweep consists of. -/
def sw (s : St) : ℚ × UInt16 × List ℚ × Nat := (s.angle, s.cycles, turnsOf s.log, cyclesOf s.log)

/-- Nothing about the sweep changed. -/
abbrev Same (s s' : St) : Prop := sw s' = sw s

theorem Same.refl (s : St) : Same s s := rfl

theorem Same.trans {s s' s'' : St} (h : Same s s') (h' : Same s' s'') : Same s s'' := Eq.trans h' h

theorem Same.angle {s s' : St} (h : Same s s') : s'.angle = s.angle := congrArg (fun x => x.1) h
theorem Same.cycles {s s' : St} (h : Same s s') : s'.cycles = s.cycles := congrArg (fun x => x.2.1) h
theorem Same.turns {s s' : St} (h : Same s s') : turnsOf s'.log = turnsOf s.log := congrArg (fun x => x.2.2.1) h
theorem Same.count {s s' : St} (h : Same s s') : cyclesOf s'.log = cyclesOf s.log := congrArg (fun x => x.2.2.2) h

theorem Same.mk {s s' : St} (h1 : s'.angle = s.angle) (h2 : s'.cycles = s.cycles)
    (h3 : turnsOf s'.log = turnsOf s.log) (h4 : cyclesOf s'.log = cyclesOf s.log) : Same s s' := by
  show (_, _, _, _) = (_, _, _, _); rw [h1, h2, h3, h4]

/-- Obs that are not about the sweep. -/
def Obs.plain : Obs → Bool
  | .turned _ => false
  | .cycle => false
  | _ => true

theorem same_emit (s : St) (o : Obs) (h : o.plain = true) : Same s (s.emit o) := by
  refine Same.mk rfl rfl ?_ ?_
  · show turnsOf (s.log ++ [o]) = _
    unfold turnsOf
    rw [List.filterMap_append]
    cases o <;> simp_all [Obs.plain]
  · show cyclesOf (s.log ++ [o]) = _
    unfold cyclesOf
    rw [List.countP_append]
    cases o <;> simp_all [Obs.plain]

theorem same_sendPacket (c : Cfg) (f : Frame) (s : St) : Same s (sendPacket c f s) := by
  unfold sendPacket
  split
  · split
    · exact same_emit s (.handed s.now f) rfl
    · exact same_emit s (.refused f) rfl
  · exact same_emit s _ (by rfl)

theorem same_sendCta1 (c : Cfg) (me : Mac48) (s : St) : Same s (sendCta1 c me s) := by
  unfold sendCta1
  exact Same.trans (by rfl) (same_sendPacket c _ _)

theorem same_sendCta3 (c : Cfg) (me : Mac48) (s : St) : Same s (sendCta3 c me s) := by
  unfold sendCta3
  exact Same.trans (by rfl) (same_sendPacket c _ _)

theorem same_sendCts (c : Cfg) (me d : Mac48) (q : UInt16) (t : ℤ) (g : Nat) (s : St) :
    Same s (sendCts c me d q t g s) :=
  Same.trans (by rfl) (same_sendPacket c _ { s with nextId := s.nextId + 1 })

theorem same_feedback (c : Cfg) (me : Mac48) (a : ℚ) (d : Mac48) (s : St) : Same s (feedback c me a d s) :=
  Same.trans (by rfl) (same_sendPacket c _ { s with nextId := s.nextId + 1 })

theorem same_sendAck (c : Cfg) (s : St) : Same s (sendAck c s) := by
  unfold sendAck
  split
  · exact (by rfl)
  · exact Same.trans (same_sendPacket c _ s) (by rfl)

theorem same_cancel (s : St) (t : Option Nat) : Same s (s.cancel t) := by
  cases t <;> exact (by rfl)

theorem same_answer (c : Cfg) (i : Nat) (w : ℤ) (l : List (Frame × ℚ)) (s : St) : Same s (answer c i w l s) := by
  induction l generalizing i w s with
  | nil => exact Same.refl s
  | cons r rest ih => exact Same.trans (by rfl) (ih _ _ (s.sched _ _))

theorem same_assign (c : Cfg) (i : Nat) (l : List (Mac48 × List (ℚ × ℚ))) (s : St) : Same s (assign c i l s) := by
  induction l generalizing i s with
  | nil => exact Same.refl s
  | cons e rest ih =>
    unfold assign
    dsimp only
    refine Same.trans ?_ (ih _ _)
    exact same_emit s (.listed e.1 (bestSector e.2)) rfl

theorem same_initNodeMap (c : Cfg) (s : St) : Same s (initNodeMap c s) := by
  unfold initNodeMap
  dsimp only
  exact same_assign c 0 _ { s with nodeMap := byNode s.sectorMap s.nodeMap }

theorem same_sendPacketDone (c : Cfg) (f : Frame) (s : St) : Same s (sendPacketDone c f s) := by
  unfold sendPacketDone
  dsimp only
  have h : Same s (s.emit (.txEnd f)) := same_emit s (.txEnd f) rfl
  split
  · exact h
  · split
    · split
      · exact h
      · exact h
    · exact h

theorem same_receivePacket (s : St) : Same s (receivePacket s) := by
  unfold receivePacket
  dsimp only
  have h := same_cancel s s.dataEv
  split
  · exact h
  · exact h
  · exact h

theorem same_forward (f : Frame) (s : St) : Same s (forwardIfNew f s) := by
  unfold forwardIfNew
  dsimp only
  split
  · exact same_emit s (.up f.body f.src f.dst f.seq) rfl
  · rfl

theorem same_receiveData (c : Cfg) (me : Mac48) (f : Frame) (s : St) : Same s (receiveData c me f s) := by
  unfold receiveData
  dsimp only
  refine Same.trans ?_ (same_forward f _)
  split
  · refine Same.trans ?_ (same_sendAck c _)
    show sw (St.cancel _ _) = _
    exact same_cancel _ _
  · rfl

theorem same_receivePacketDone (c : Cfg) (me : Mac48) (f : Frame) (ok : Bool) (p : ℚ) (s : St) :
    Same s (receivePacketDone c me f ok p s) := by
  unfold receivePacketDone
  dsimp only
  split
  · exact (by rfl)
  · have h : Same s (({ s with state := .idle } : St).emit (.rx f p)) :=
      same_emit s (.rx f p) rfl
    split
    · exact h
    · exact h.trans (same_receiveData c me f _)
    · exact h

/-! ## Turning -/

/-- Full turns completed after `k` steps of a beam width. -/
def fullTurns (bw : ℚ) (k : Nat) : Nat := ⌈(k * bw) / 360⌉.toNat - 1

/-- The angle after `k` steps. -/
def angleAt (bw : ℚ) (k : Nat) : ℚ := k * bw - 360 * fullTurns bw k

theorem wrapUp_pos (n : Nat) (a : ℚ) (h : -360 < a) : wrapUp n a = a := by
  cases n with
  | zero => rfl
  | succ n => unfold wrapUp; rw [if_neg (not_le.2 h)]

theorem wrapUp_done (n : Nat) (a : ℚ) (h : ⌈|a| / 360⌉.toNat ≤ n) :
    -360 < wrapUp (n + 1) a ∧ (a ≤ 360 → wrapUp (n + 1) a ≤ 360) ∧ (-360 < a → wrapUp (n + 1) a = a) := by
  induction n generalizing a with
  | zero =>
    have h1 : ⌈|a| / 360⌉ ≤ 0 := by omega
    have h2 : |a| / 360 ≤ 0 := by exact_mod_cast Int.ceil_le.1 h1
    have h3 : |a| ≤ 0 := by linarith
    have h4 : a = 0 := by simpa using h3
    subst h4
    unfold wrapUp
    rw [if_neg (by norm_num)]
    norm_num
  | succ n ih =>
    unfold wrapUp
    split
    · rename_i hle
      have h5 : |a + 360| = |a| - 360 := by
        rw [abs_of_nonpos (by linarith), abs_of_nonpos (by linarith)]; ring
      have := ih (a + 360) (by
        rw [h5, sub_div, div_self (by norm_num : (360 : ℚ) ≠ 0)]
        rw [Int.ceil_sub_one]
        omega)
      refine ⟨this.1, fun _ => this.2.1 (by linarith), fun h => absurd hle (not_le.2 h)⟩
    · rename_i hgt
      exact ⟨not_le.1 hgt, fun h => h, fun _ => rfl⟩

/-- The second loop: it runs `⌈a/360⌉ - 1` times. -/
theorem wrapDown_spec (n : Nat) (s : St) (h : ⌈s.angle / 360⌉.toNat ≤ n + 1) :
    (wrapDown n s).angle = s.angle - 360 * (⌈s.angle / 360⌉.toNat - 1 : ℕ) ∧
      (wrapDown n s).cycles = s.cycles + UInt16.ofNat (⌈s.angle / 360⌉.toNat - 1) ∧
      turnsOf (wrapDown n s).log = turnsOf s.log ∧
      cyclesOf (wrapDown n s).log = cyclesOf s.log + (⌈s.angle / 360⌉.toNat - 1) := by
  induction n generalizing s with
  | zero =>
    have h0 : ⌈s.angle / 360⌉.toNat - 1 = 0 := by omega
    rw [h0]
    simp [wrapDown]
  | succ n ih =>
    unfold wrapDown
    split
    · rename_i hgt
      set s' : St := ({ s with cycles := s.cycles + 1, angle := s.angle - 360 } : St).emit .cycle with hs'
      have ha : s'.angle = s.angle - 360 := rfl
      have hc : ⌈s'.angle / 360⌉ = ⌈s.angle / 360⌉ - 1 := by
        rw [ha, sub_div, div_self (by norm_num : (360 : ℚ) ≠ 0), Int.ceil_sub_one]
      have h2 : 2 ≤ ⌈s.angle / 360⌉ := by
        have : (1 : ℤ) < ⌈s.angle / 360⌉ := by
          rw [Int.lt_ceil]; push_cast; rw [lt_div_iff₀ (by norm_num)]; linarith
        omega
      have hn : ⌈s'.angle / 360⌉.toNat = ⌈s.angle / 360⌉.toNat - 1 := by rw [hc]; omega
      obtain ⟨e1, e2, e3, e4⟩ := ih s' (by rw [hn]; omega)
      rw [hn] at e1 e2 e4
      obtain ⟨m, hm⟩ : ∃ m, ⌈s.angle / 360⌉.toNat = m + 2 := ⟨⌈s.angle / 360⌉.toNat - 2, by omega⟩
      rw [hm] at e1 e2 e4 ⊢
      have k1 : m + 2 - 1 - 1 = m := by omega
      have k2 : m + 2 - 1 = m + 1 := by omega
      rw [k1] at e1 e2 e4
      rw [k2]
      refine ⟨?_, ?_, ?_, ?_⟩
      · rw [e1, ha]; push_cast; ring
      · rw [e2]
        show s.cycles + 1 + _ = _
        rw [UInt16.ofNat_add, UInt16.add_assoc]
        congr 1
        exact UInt16.add_comm _ _
      · rw [e3]
        show turnsOf (s.log ++ [.cycle]) = _
        simp [turnsOf]
      · rw [e4]
        show cyclesOf (s.log ++ [.cycle]) + m = _
        simp only [cyclesOf, List.countP_append, List.countP_cons, List.countP_nil]
        simp
        omega
    · rename_i hle
      have h1 : ⌈s.angle / 360⌉ ≤ 1 := by
        rw [Int.ceil_le]; push_cast; rw [div_le_iff₀ (by norm_num)]; linarith
      have h0 : ⌈s.angle / 360⌉.toNat - 1 = 0 := by omega
      rw [h0]
      simp

/-- `TurnRxAntenna` and the sweep. -/
theorem turn_spec (c : Cfg) (me : Mac48) (s : St) :
    ∃ a m, a = wrapUp (rounds (s.angle + c.beamwidth)) (s.angle + c.beamwidth) ∧
      m = ⌈a / 360⌉.toNat - 1 ∧
      (turn c me s).angle = a - 360 * (m : ℕ) ∧
      (turn c me s).cycles = s.cycles + UInt16.ofNat m ∧
      turnsOf (turn c me s).log = turnsOf s.log ++ [a - 360 * (m : ℕ)] ∧
      cyclesOf (turn c me s).log = cyclesOf s.log + m := by
  refine ⟨_, _, rfl, rfl, ?_⟩
  set a := wrapUp (rounds (s.angle + c.beamwidth)) (s.angle + c.beamwidth) with ha
  have hr : ⌈({ s with angle := a } : St).angle / 360⌉.toNat ≤ rounds a + 1 := by
    show ⌈a / 360⌉.toNat ≤ _
    unfold rounds
    have : ⌈a / 360⌉ ≤ ⌈|a| / 360⌉ := by
      apply Int.ceil_le_ceil
      have := le_abs_self a
      linarith
    omega
  have h := wrapDown_spec (rounds a) { s with angle := a } hr
  set s1 := wrapDown (rounds a) { s with angle := a } with hs1
  have key : Same (s1.emit (.turned s1.angle)) (turn c me s) := by
    unfold turn
    dsimp only
    rw [← ha, ← hs1]
    split
    · exact same_sendCta3 c me _
    · exact Same.trans (by rfl) (same_sendCta1 c me _)
  refine ⟨?_, ?_, ?_, ?_⟩
  · rw [key.angle]; exact h.1
  · rw [key.cycles]; exact h.2.1
  · rw [key.turns]
    show turnsOf (s1.log ++ [.turned s1.angle]) = _
    rw [← h.1]
    rw [← (show turnsOf s1.log = turnsOf s.log from h.2.2.1)]
    simp [turnsOf, hs1]
  · rw [key.count]
    show cyclesOf (s1.log ++ [.turned s1.angle]) = _
    rw [show cyclesOf (s1.log ++ [.turned s1.angle]) = cyclesOf s1.log by simp [cyclesOf]]
    exact h.2.2.2

/-- A transition either leaves the sweep alone or is one turn, possibly with other things before. -/
inductive Sweep (c : Cfg) (me : Mac48) (s s' : St) : Prop
  | same (h : Same s s')
  | turned (s0 : St) (h : Same s s0) (e : s' = turn c me s0)

theorem sweep_step (c : Cfg) (me : Mac48) (s : St) (op : Op) : Sweep c me s (step c me s op) := by
  cases op with
  | rxStart => exact .same (same_receivePacket s)
  | rxDone f ok p => exact .same (same_receivePacketDone c me f ok p s)
  | advance d => exact .same (by rfl)
  | fire tid =>
    show Sweep c me s (fire c me tid s)
    unfold fire
    split
    · exact .same (Same.refl s)
    · rename_i t due e hf
      dsimp only
      set s1 : St := { s with pend := s.pend.filter (fun e => e.1 ≠ tid), now := max s.now due } with hs1
      have h1 : Same s s1 := (by rfl)
      cases e with
      | turn => exact .turned s1 h1 rfl
      | dataTimeout => exact .turned _ (h1.trans (same_cancel s1 s1.sectorEv)) rfl
      | waitTime =>
        show Sweep c me s (waitTimeExpired c me s1)
        unfold waitTimeExpired
        dsimp only
        have h2 : Same s (s1.emit .closed) := h1.trans (same_emit s1 .closed (by rfl))
        split
        · exact .turned _ h2 rfl
        · split
          · split
            · exact .same (h2.trans (Same.trans (by rfl) (same_initNodeMap c _)))
            · exact .turned _ (h2.trans (by rfl)) rfl
          · exact .same (h2.trans (Same.trans (same_answer c 0 _ _ _) (by rfl)))
      | sectorTimeout =>
        show Sweep c me s (sectorTimeout c me s1)
        unfold sectorTimeout
        split
        · exact .same (h1.trans (same_sendAck c s1))
        · exact .turned _ h1 rfl
      | sendCts d q t g => exact .same (h1.trans (same_sendCts c me d q t g s1))
      | sendAck => exact .same (h1.trans (same_sendAck c s1))
      | feedback a d => exact .same (h1.trans (same_feedback c me a d s1))
      | phyDone f => exact .same (h1.trans (same_sendPacketDone c f s1))

theorem after_snoc (c : Cfg) (me : Mac48) (ops : List Op) (o : Op) :
    after c me (ops ++ [o]) = step c me (after c me ops) o := by
  unfold after run; rw [List.foldl_append]; rfl

/-- Invariant of the sweep for a positive beam width. -/
structure SwInv (bw : ℚ) (s : St) : Prop where
  angle : s.angle = angleAt bw (turnsOf s.log).length
  turns : turnsOf s.log = (List.range (turnsOf s.log).length).map (fun i => angleAt bw (i + 1))
  count : cyclesOf s.log = fullTurns bw (turnsOf s.log).length
  cycles : s.cycles = UInt16.ofNat (cyclesOf s.log)

theorem SwInv.same {bw : ℚ} {s s' : St} (h : SwInv bw s) (k : Same s s') : SwInv bw s' := by
  refine ⟨?_, ?_, ?_, ?_⟩
  · rw [k.angle, k.turns]; exact h.angle
  · rw [k.turns]; exact h.turns
  · rw [k.turns, k.count]; exact h.count
  · rw [k.cycles, k.count]; exact h.cycles

/-- One more step of the sweep. -/
theorem angleAt_succ (bw : ℚ) (hb : 0 < bw) (k : Nat) :
    fullTurns bw (k + 1) = fullTurns bw k + (⌈(angleAt bw k + bw) / 360⌉.toNat - 1) := by
  unfold angleAt
  have e : (k * bw - 360 * (fullTurns bw k : ℚ) + bw) / 360 = ((k + 1 : ℕ) * bw) / 360 - (fullTurns bw k : ℤ) := by
    push_cast; field_simp; ring
  rw [e, Int.ceil_sub_intCast]
  have hm : ⌈(k * bw) / 360⌉ ≤ ⌈((k + 1 : ℕ) * bw) / 360⌉ := by
    apply Int.ceil_le_ceil
    push_cast
    have : (k : ℚ) * bw ≤ (k + 1) * bw := by nlinarith
    linarith
  have hp : 1 ≤ ⌈((k + 1 : ℕ) * bw) / 360⌉ := by
    have : 0 < ⌈((k + 1 : ℕ) * bw) / 360⌉ := by
      rw [Int.ceil_pos]
      positivity
    omega
  have hk0 : 0 ≤ ⌈(k * bw) / 360⌉ := by
    apply Int.ceil_nonneg
    positivity
  show ⌈((k + 1 : ℕ) * bw) / 360⌉.toNat - 1 = _
  have hf : (fullTurns bw k : ℤ) = (⌈(k * bw) / 360⌉.toNat - 1 : ℕ) := rfl
  rw [hf]
  show _ = ⌈(k * bw) / 360⌉.toNat - 1 + _
  omega

theorem angleAt_pos (bw : ℚ) (hb : 0 < bw) (k : Nat) : 0 ≤ angleAt bw k ∧ angleAt bw k ≤ 360 ∧
    (0 < k → 0 < angleAt bw k) := by
  unfold angleAt fullTurns
  have h0 : (0 : ℚ) ≤ k * bw / 360 := by positivity
  have hk0 : 0 ≤ ⌈(k * bw) / 360⌉ := Int.ceil_nonneg h0
  have h1 := Int.ceil_lt_add_one ((k : ℚ) * bw / 360)
  have h2 := Int.le_ceil ((k : ℚ) * bw / 360)
  rcases Nat.eq_zero_or_pos k with rfl | hk
  · simp
  · have hp : 1 ≤ ⌈(k * bw) / 360⌉ := by
      have : 0 < ⌈(k * bw) / 360⌉ := by
        rw [Int.ceil_pos]
        have : (0 : ℚ) < k := by exact_mod_cast hk
        positivity
      omega
    have e : ((⌈(k * bw) / 360⌉.toNat - 1 : ℕ) : ℚ) = (⌈(k * bw) / 360⌉ : ℚ) - 1 := by
      rw [Nat.cast_sub (by omega)]
      have : ((⌈(k * bw) / 360⌉.toNat : ℕ) : ℤ) = ⌈(k * bw) / 360⌉ := Int.toNat_of_nonneg (by omega)
      push_cast
      congr 1
      exact_mod_cast this
    rw [e]
    rw [lt_iff_not_ge] at h1
    have h1' : (⌈(k * bw) / 360⌉ : ℚ) < k * bw / 360 + 1 := not_le.1 h1
    have e2 : k * bw = 360 * (k * bw / 360) := by field_simp
    refine ⟨?_, ?_, fun _ => ?_⟩
    · linarith
    · linarith
    · linarith

theorem SwInv.turn {c : Cfg} {me : Mac48} {s : St} (hb : 0 < c.beamwidth) (h : SwInv c.beamwidth s) :
    SwInv c.beamwidth (turn c me s) := by
  obtain ⟨a, m, ha, hm, h1, h2, h3, h4⟩ := turn_spec c me s
  set k := (turnsOf s.log).length with hk
  have hpos := angleAt_pos c.beamwidth hb k
  have ha' : a = angleAt c.beamwidth k + c.beamwidth := by
    rw [ha, h.angle]
    rw [wrapUp_pos]
    linarith [hpos.1]
  have hl : (turnsOf (Ap.turn c me s).log).length = k + 1 := by rw [h3]; simp [hk]
  have hf := angleAt_succ c.beamwidth hb k
  rw [← ha', ← hm] at hf
  have han : a - 360 * (m : ℕ) = angleAt c.beamwidth (k + 1) := by
    show _ = ((k + 1 : ℕ) : ℚ) * c.beamwidth - 360 * (fullTurns c.beamwidth (k + 1) : ℚ)
    rw [hf, ha']
    show _ = _
    have : angleAt c.beamwidth k = k * c.beamwidth - 360 * fullTurns c.beamwidth k := rfl
    rw [this]; push_cast; ring
  refine ⟨?_, ?_, ?_, ?_⟩
  · rw [hl, h1, han]
  · rw [hl, h3, List.range_succ, List.map_append, ← h.turns, han]
    rfl
  · rw [hl, h4, h.count, hf]
  · rw [h2, h4, h.cycles, UInt16.ofNat_add]

theorem SwInv.after {c : Cfg} (hb : 0 < c.beamwidth) (me : Mac48) (ops : List Op) :
    SwInv c.beamwidth (after c me ops) := by
  induction ops using List.reverseRecOn with
  | nil =>
    refine ⟨?_, rfl, ?_, rfl⟩
    · show (0 : ℚ) = angleAt c.beamwidth 0
      simp [angleAt, fullTurns]
    · show 0 = fullTurns c.beamwidth 0
      simp [fullTurns]
  | append_singleton ops o ih =>
    rw [after_snoc]
    cases sweep_step c me (Ap.after c me ops) o with
    | same h => exact ih.same h
    | turned s0 h e => rw [e]; exact (ih.same h).turn hb

end Thz.Ap
