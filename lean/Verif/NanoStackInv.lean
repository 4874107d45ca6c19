import Verif.NanoStack

/-!
# Complete nano devices: the invariant
-/

set_option linter.unusedSectionVars false

namespace Thz.NStack

open Thz
open Thz.Nano (Body bcast Frame Pkt Kind)

variable {P : Type} [AddCommMonoid P]

/-! ## Steps of the PHY -/

omit [AddCommMonoid P] in
theorem find_tid {E : Type} {l : List (Nat × ℤ × E)} (hn : (l.map (·.1)).Nodup) {t : Nat} {d : ℤ} {e : E} (h : (t, d, e) ∈ l) :
    l.find? (fun x => x.1 = t) = some (t, d, e) := by
  cases hf : l.find? (fun x => decide (x.1 = t)) with
  | none => exact absurd (List.find?_eq_none.1 hf _ h) (by simp)
  | some y =>
    have h1 : y.1 = t := by simpa using List.find?_some hf
    have h2 := List.inj_on_of_nodup_map hn (List.mem_of_find?_eq_some hf) h h1
    rw [h2]

/-- What `SendPacket` does. -/
theorem phy_send {c : PhyNano.Cfg P} (hp : 0 < c.p) (hts : 0 < c.ts) {p : PhyNano.St P} (hi : PhyNano.Inv c p) (dur : Nat) :
    (∃ start, PhyNano.step c p (.send dur) = PhyNano.accept start dur p ∧
      ((p.tx = [] ∧ p.rx = [] ∧ start = p.now) ∨ (p.now + c.p ≤ start ∧ start + c.p ≤ p.now + c.ts))) ∨
    (PhyNano.step c p (.send dur) = p.emit (.refused p.now) ∧
      ∀ u, p.now + c.p ≤ u → u + c.p ≤ p.now + c.ts →
        ∃ a ∈ PhyNano.starts p, ∃ k : ℤ, u - c.p < a + k * c.ts ∧ a + k * c.ts < u + c.p) := by
  have hs := PhyNano.mem_starts_lt hts hi
  show (∃ start, PhyNano.sendPacket c dur p = _ ∧ _) ∨ (PhyNano.sendPacket c dur p = _ ∧ _)
  unfold PhyNano.sendPacket
  split
  · split
    · rename_i x hx
      obtain ⟨h1, h2, -⟩ := PhyNano.gap_spec hp hts hs hx
      exact .inl ⟨_, rfl, .inr ⟨by omega, by omega⟩⟩
    · rename_i hx
      refine .inr ⟨rfl, ?_⟩
      intro u h1 h2
      obtain ⟨a, ha, h3, h4⟩ := PhyNano.full_spec hx hp u h1 h2
      obtain ⟨⟨k, -, hk⟩, -⟩ := PhyNano.image_spec (c := c) hp hts (hs a ha)
      rw [hk] at h3 h4
      exact ⟨a, ha, k, h3, h4⟩
    · rename_i hx
      exact absurd hx (PhyNano.wild_spec hp hts hs)
  · rename_i h
    exact .inl ⟨_, rfl, .inl ⟨by_contra fun h1 => h (.inl h1), by_contra fun h1 => h (.inr h1), rfl⟩⟩

/-- What an event of the PHY that is due does. -/
theorem phy_fire {c : PhyNano.Cfg P} {p : PhyNano.St P} (hi : PhyNano.Inv c p) (hin : p.inside = none) {tid : Nat} {due : ℤ} {e : PhyNano.Ev P}
    (he : (tid, due, e) ∈ p.pend) (hd : due ≤ p.now) :
    ∃ a b, p.pend = a ++ (tid, due, e) :: b ∧
    match e with
    | .launch id dur => PhyNano.step c p (.fire tid) = { p with
        log := p.log ++ [.onAir p.now id], pend := a ++ b ++ [(p.nextTid, p.now + dur, .txDone id)], nextTid := p.nextTid + 1 }
    | .erase start dur => (∃ u v r, p.tx = u ++ r :: v ∧ r.start = start ∧ r.dur = dur ∧
        PhyNano.step c p (.fire tid) = { p with pend := a ++ b, tx := u ++ v, log := p.log ++ [.forgotten p.now r.id] }) ∨
        ((∀ r ∈ p.tx, ¬ (r.start = start ∧ r.dur = dur)) ∧ PhyNano.step c p (.fire tid) = { p with pend := a ++ b })
    | .txDone id => PhyNano.step c p (.fire tid) = { p with pend := a ++ b, log := p.log ++ [.sent p.now id] }
    | .rxDone id => (∃ r ∈ p.rx, r.id = id ∧ PhyNano.step c p (.fire tid) =
        { p with pend := a ++ b, inside := some id, log := p.log ++ [.notice p.now id (!r.coll)] }) ∨
        ((∀ r ∈ p.rx, r.id ≠ id) ∧ PhyNano.step c p (.fire tid) = { p with pend := a ++ b, log := p.log ++ [.over p.now id] }) := by
  have hf := find_tid hi.tid he
  obtain ⟨-, a, b, hl, hb⟩ := PhyNano.take_pend hi.tid hf
  refine ⟨a, b, hl, ?_⟩
  have hmax : max p.now due = p.now := by omega
  have key : PhyNano.step c p (.fire tid) = PhyNano.runEv e { p with pend := a ++ b } := by
    simp only [PhyNano.step]
    rw [if_pos hin]
    unfold PhyNano.fire
    rw [hf]
    dsimp only
    rw [hb, hmax]
  cases e with
  | launch id dur => exact key
  | txDone id => exact key
  | erase start dur =>
    dsimp only
    rw [key]
    show _ ∨ (_ ∧ PhyNano.deleteOngoingTx start dur _ = _)
    unfold PhyNano.runEv PhyNano.deleteOngoingTx
    dsimp only
    split
    · rename_i h
      refine .inr ⟨?_, rfl⟩
      intro r hr
      have := List.find?_eq_none.1 h r hr
      simpa using this
    · rename_i r h
      have hr := List.find?_some h
      simp only [decide_eq_true_eq] at hr
      obtain ⟨_, u, v, h1, h2⟩ := List.find?_eq_some_iff_append.1 h
      have e : p.tx.eraseP (fun r => decide (r.start = start ∧ r.dur = dur)) = u ++ v := by
        rw [h1, List.eraseP_append_right]
        · rw [List.eraseP_cons_of_pos (by simpa using hr)]
        · intro x hx
          have := h2 x hx
          simp only [Bool.not_eq_eq_eq_not, Bool.not_true] at this
          exact ne_true_of_eq_false this
      refine .inl ⟨u, v, r, h1, hr.1, hr.2, ?_⟩
      rw [e]; rfl
  | rxDone id =>
    dsimp only
    rw [key]
    unfold PhyNano.runEv PhyNano.receivePacketDone
    dsimp only
    split
    · rename_i h
      refine .inr ⟨?_, rfl⟩
      intro r hr
      have := List.find?_eq_none.1 h r hr
      simpa using this
    · rename_i r h
      exact .inl ⟨r, List.mem_of_find?_eq_some h, by simpa using List.find?_some h, rfl⟩

/-- What an arrival at the PHY does. -/
theorem phy_arrive (c : PhyNano.Cfg P) {p : PhyNano.St P} (hin : p.inside = none) (dur : Nat) (pw junk : P) :
    ((∃ r ∈ p.tx, PhyNano.meets c p.now r.start = true) ∧ PhyNano.step c p (.arrive dur pw junk) = { p with
      log := p.log ++ [.ignored p.now p.nextRx dur pw]
      pend := p.pend ++ [(p.nextTid, p.now + dur, .rxDone p.nextRx)], nextTid := p.nextTid + 1, nextRx := p.nextRx + 1 }) ∨
    ((∀ r ∈ p.tx, PhyNano.meets c p.now r.start = false) ∧ PhyNano.step c p (.arrive dur pw junk) = { p with
      log := p.log ++ [.arrived p.now p.nextRx dur pw junk]
      rx := PhyNano.disturb c p.now pw p.rx ++ [⟨p.nextRx, p.now, dur, pw, c.bad pw (PhyNano.interference c p.now junk p.rx)⟩]
      pend := p.pend ++ [(p.nextTid, p.now + dur, .rxDone p.nextRx)], nextTid := p.nextTid + 1, nextRx := p.nextRx + 1 }) := by
  simp only [PhyNano.step]
  rw [if_pos hin]
  unfold PhyNano.receivePacket
  split
  · rename_i h
    exact .inl ⟨by simpa using h, rfl⟩
  · rename_i h
    refine .inr ⟨?_, rfl⟩
    intro r hr
    by_contra hc
    exact h (List.any_eq_true.2 ⟨r, hr, by simpa using hc⟩)

/-- One more step of the PHY. -/
theorem phy_snoc (c : PhyNano.Cfg P) (ops : List (PhyNano.Op P)) (o : PhyNano.Op P) :
    PhyNano.step c (PhyNano.after c ops) o = PhyNano.after c (ops ++ [o]) := by
  unfold PhyNano.after
  rw [List.foldl_append]; rfl

/-! ## The invariant -/

/-- The number of a transmission. -/
def txNo : AObs → Option Nat
  | .tx _ n _ _ => some n
  | _ => none

/-- A reception of transmission `n` by device `j`. -/
def isRx (n j : Nat) : AObs → Bool
  | .rx _ n' j' _ => decide (n' = n ∧ j' = j)
  | _ => false

/-- A signal of transmission `n` on its way to device `j`. -/
def isSig (n j : Nat) (x : Sig P) : Bool := decide (x.n = n ∧ x.dst = j)

structure Inv (w : World P) (s : St P) : Prop where
  reach : Nano.Reach w.mcfg w.e0 s.mac
  phyR : ∀ i, ∃ ops, s.phy i = PhyNano.after (w.pcfg i) ops
  pnow : ∀ i, (s.phy i).now = s.now
  accLen : ∀ i, (s.acc i).length = (s.phy i).nextTx
  heardLen : ∀ i, (s.heard i).length = (s.phy i).nextRx
  /-- what goes to the PHY is what the MAC handed over. -/
  handed : ∀ t i f, AObs.handed t i f ∈ s.air → Nano.Obs.tx f ∈ (s.mac (w.addr i)).log ∧ t ≤ s.now ∧ i < w.num
  accHand : ∀ t i f st, AObs.accepted t i f st ∈ s.air → AObs.handed t i f ∈ s.air ∧
    (st = t ∨ (t + (w.pcfg i).p ≤ st ∧ st + (w.pcfg i).p ≤ t + (w.pcfg i).ts))
  txAir : ∀ t n i f, AObs.tx t n i f ∈ s.air → s.frames[n]? = some f ∧ i < w.num ∧ t ≤ s.now ∧ ∃ t0, AObs.accepted t0 i f t ∈ s.air
  txNos : s.air.filterMap txNo = List.range s.frames.length
  launchP : ∀ i tid due id dur, (tid, due, PhyNano.Ev.launch id dur) ∈ (s.phy i).pend →
    ∃ f t0, (s.acc i)[id]? = some f ∧ dur = w.airtime i f.size ∧ AObs.accepted t0 i f due ∈ s.air ∧ i < w.num
  txRec : ∀ i, ∀ r ∈ (s.phy i).tx, ∃ f t0, r.dur = w.airtime i f.size ∧ AObs.accepted t0 i f r.start ∈ s.air ∧ i < w.num
  pendDue : ∀ i, ∀ e ∈ (s.phy i).pend, s.now ≤ e.2.1
  far : ∀ i, ∀ e ∈ (s.phy i).pend, i < w.num
  eraseP : ∀ i tid due st d, (tid, due, PhyNano.Ev.erase st d) ∈ (s.phy i).pend → due = st + d
  /-- signals on their way. -/
  sig : ∀ x ∈ s.flight, s.now ≤ x.due ∧ ∃ t i f, AObs.tx t x.n i f ∈ s.air ∧ i ≠ x.dst ∧ x.dst < w.num ∧
    x.due = t + w.delay t i x.dst ∧ x.dur = w.airtime i f.size ∧ x.pw = w.power t i x.dst
  oneWay : ∀ n j, s.flight.countP (isSig n j) + (s.heard j).count n ≤ 1
  either : ∀ t n i f, AObs.tx t n i f ∈ s.air → ∀ j < w.num, j ≠ i → s.flight.countP (isSig n j) + (s.heard j).count n = 1
  heardLt : ∀ j, ∀ n ∈ s.heard j, n < s.frames.length
  rxRec : ∀ j, ∀ r ∈ (s.phy j).rx, ∃ n t a f, (s.heard j)[r.id]? = some n ∧ AObs.tx t n a f ∈ s.air ∧ a ≠ j ∧ j < w.num ∧
    r.start = t + w.delay t a j ∧ r.dur = w.airtime a f.size ∧ r.pw = w.power t a j
  rxAir : ∀ t n j f, AObs.rx t n j f ∈ s.air → t ≤ s.now ∧ ∃ t0 a, AObs.tx t0 n a f ∈ s.air ∧ a ≠ j ∧ j < w.num ∧
    t = t0 + w.delay t0 a j + w.airtime a f.size ∧
    ∃ id : Nat, (s.heard j)[id]? = some n ∧ ∀ r ∈ (s.phy j).rx, r.id = id → (s.phy j).inside = some id
  rxOnce : ∀ n j, s.air.countP (isRx n j) ≤ 1

/-- No MAC is being told of a reception. -/
def Idle (s : St P) : Prop := ∀ i, (s.phy i).inside = none

theorem Inv.phyI {w : World P} (hw : w.Wf) {s : St P} (h : Inv w s) (i : Nat) : PhyNano.Inv (w.pcfg i) (s.phy i) := by
  obtain ⟨ops, e⟩ := h.phyR i
  rw [e]
  exact PhyNano.inv_after (hw.pulse i) (hw.symbol i) ops

theorem Inv.init (w : World P) : Inv w (init w) where
  reach := .init
  phyR := fun i => ⟨[], rfl⟩
  pnow := fun _ => rfl
  accLen := fun _ => rfl
  heardLen := fun _ => rfl
  handed := by simp [NStack.init]
  accHand := by simp [NStack.init]
  txAir := by simp [NStack.init]
  txNos := rfl
  launchP := by simp [NStack.init, PhyNano.init]
  txRec := by simp [NStack.init, PhyNano.init]
  pendDue := by simp [NStack.init, PhyNano.init]
  far := by simp [NStack.init, PhyNano.init]
  eraseP := by simp [NStack.init, PhyNano.init]
  sig := by simp [NStack.init]
  oneWay := by simp [NStack.init]
  either := by simp [NStack.init]
  heardLt := by simp [NStack.init]
  rxRec := by simp [NStack.init, PhyNano.init]
  rxAir := by simp [NStack.init]
  rxOnce := by simp [NStack.init]

/-- A step of PHY `i` after which there is no more than before. -/
structure Quieter (p p' : PhyNano.St P) : Prop where
  now : p'.now = p.now
  ntx : p'.nextTx = p.nextTx
  nrx : p'.nextRx = p.nextRx
  tx : ∀ r ∈ p'.tx, r ∈ p.tx
  rx : ∀ r ∈ p'.rx, r ∈ p.rx
  pend : ∀ e ∈ p'.pend, e ∈ p.pend
  told : ∀ id, (∀ r ∈ p.rx, r.id = id → p.inside = some id) → ∀ r ∈ p'.rx, r.id = id → p'.inside = some id

theorem Inv.quiet {w : World P} {s : St P} (h : Inv w s) (i : Nat) (o : PhyNano.Op P)
    (hq : Quieter (s.phy i) (PhyNano.step (w.pcfg i) (s.phy i) o)) :
    Inv w { s with phy := Function.update s.phy i (PhyNano.step (w.pcfg i) (s.phy i) o) } := by
  have hcase : ∀ {Q : Nat → PhyNano.St P → Prop}, (∀ j, Q j (s.phy j)) → Q i (PhyNano.step (w.pcfg i) (s.phy i) o) →
      ∀ j, Q j (Function.update s.phy i (PhyNano.step (w.pcfg i) (s.phy i) o) j) := by
    intro Q h1 h2 j
    by_cases hj : j = i
    · subst hj; rw [Function.update_self]; exact h2
    · rw [Function.update_of_ne hj]; exact h1 j
  exact {
    reach := h.reach
    phyR := hcase (Q := fun j p => ∃ ops, p = PhyNano.after (w.pcfg j) ops) h.phyR (by
      obtain ⟨ops, e⟩ := h.phyR i
      exact ⟨ops ++ [o], by rw [e, phy_snoc]⟩)
    pnow := hcase (Q := fun j p => p.now = s.now) h.pnow (by rw [hq.now]; exact h.pnow i)
    accLen := hcase (Q := fun j p => (s.acc j).length = p.nextTx) h.accLen (by rw [hq.ntx]; exact h.accLen i)
    heardLen := hcase (Q := fun j p => (s.heard j).length = p.nextRx) h.heardLen (by rw [hq.nrx]; exact h.heardLen i)
    handed := h.handed
    accHand := h.accHand
    txAir := h.txAir
    txNos := h.txNos
    launchP := hcase (Q := fun j p => ∀ tid due id dur, (tid, due, PhyNano.Ev.launch id dur) ∈ p.pend →
      ∃ f t0, (s.acc j)[id]? = some f ∧ dur = w.airtime j f.size ∧ AObs.accepted t0 j f due ∈ s.air ∧ j < w.num) h.launchP
      (fun tid due id dur hm => h.launchP i tid due id dur (hq.pend _ hm))
    txRec := hcase (Q := fun j p => ∀ r ∈ p.tx, ∃ f t0, r.dur = w.airtime j f.size ∧ AObs.accepted t0 j f r.start ∈ s.air ∧ j < w.num) h.txRec
      (fun r hr => h.txRec i r (hq.tx r hr))
    pendDue := hcase (Q := fun _ p => ∀ e ∈ p.pend, s.now ≤ e.2.1) h.pendDue (fun e he => h.pendDue i e (hq.pend e he))
    far := hcase (Q := fun j p => ∀ e ∈ p.pend, j < w.num) h.far (fun e he => h.far i e (hq.pend e he))
    eraseP := hcase (Q := fun j p => ∀ tid due st d, (tid, due, PhyNano.Ev.erase st d) ∈ p.pend → due = st + d) h.eraseP
      (fun tid due st d hm => h.eraseP i tid due st d (hq.pend _ hm))
    sig := h.sig
    oneWay := h.oneWay
    either := h.either
    heardLt := h.heardLt
    rxRec := hcase (Q := fun j p => ∀ r ∈ p.rx, ∃ n t a f, (s.heard j)[r.id]? = some n ∧ AObs.tx t n a f ∈ s.air ∧ a ≠ j ∧ j < w.num ∧
      r.start = t + w.delay t a j ∧ r.dur = w.airtime a f.size ∧ r.pw = w.power t a j) h.rxRec (fun r hr => h.rxRec i r (hq.rx r hr))
    rxAir := by
      intro t n j f hm
      obtain ⟨h1, t0, a, h2, h3, h4, h5, id, h6, h7⟩ := h.rxAir t n j f hm
      refine ⟨h1, t0, a, h2, h3, h4, h5, id, h6, ?_⟩
      dsimp only
      by_cases hj : j = i
      · subst hj
        rw [Function.update_self]
        exact hq.told id h7
      · rw [Function.update_of_ne hj]
        exact h7
    rxOnce := h.rxOnce }

theorem Quieter.refl (p : PhyNano.St P) : Quieter p p := ⟨rfl, rfl, rfl, fun _ h => h, fun _ h => h, fun _ h => h, fun _ h => h⟩

/-- `SendPacket` refused. -/
theorem quiet_refused (p : PhyNano.St P) : Quieter p (p.emit (.refused p.now)) :=
  ⟨rfl, rfl, rfl, fun _ h => h, fun _ h => h, fun _ h => h, fun _ h => h⟩

/-- The MAC has returned. -/
theorem quiet_ret {c : PhyNano.Cfg P} {p : PhyNano.St P} (hi : PhyNano.Inv c p) : Quieter p (PhyNano.step c p .ret) := by
  show Quieter p (PhyNano.ret p)
  unfold PhyNano.ret
  cases hin : p.inside with
  | none => exact Quieter.refl p
  | some id0 =>
    refine ⟨rfl, rfl, rfl, fun _ h => h, fun _ h => List.eraseP_subset h, fun _ h => h, ?_⟩
    intro id h r hr hid
    exfalso
    have h1 := h r (List.eraseP_subset hr) hid
    rw [hin] at h1
    have h2 : id0 = id := by simpa using h1
    subst h2
    have hnd := hi.rxIds
    have : (p.rx.map (·.id)).Nodup → ∀ l : List (PhyNano.Rx P), (l.map (·.id)).Nodup →
        r ∈ l.eraseP (fun r => decide (r.id = id0)) → r.id ≠ id0 := by
      intro _ l
      induction l with
      | nil => simp
      | cons y ys ih =>
        intro hn hm
        rw [List.map_cons, List.nodup_cons] at hn
        by_cases hy : y.id = id0
        · rw [List.eraseP_cons_of_pos (by simpa using hy)] at hm
          intro hr
          exact hn.1 (by rw [hy, ← hr]; exact List.mem_map_of_mem hm)
        · rw [List.eraseP_cons_of_neg (by simpa using hy)] at hm
          rcases List.mem_cons.1 hm with rfl | hm
          · exact hy
          · exact ih hn.2 hm
    exact this hnd p.rx hnd hr hid

/-- An operation of the MAC of device `i`, before what it hands over goes to the PHY. -/
theorem Inv.macUpd {w : World P} (hw : w.Wf) {s : St P} (h : Inv w s) {i : Nat} (hi : i < w.num) (op : Nano.Op) (ha : Nano.Allowed s.mac op)
    (due : Nat → Nat → ℤ) :
    Inv w { s with mac := Function.update s.mac (w.addr i) (Nano.step (w.mcfg (w.addr i)) (w.addr i) (s.mac (w.addr i)) op), due := due } where
  reach := .step (w.addr i) op h.reach (hw.uni i hi) ha
  phyR := h.phyR
  pnow := h.pnow
  accLen := h.accLen
  heardLen := h.heardLen
  handed := by
    intro t j f hm
    obtain ⟨h1, h2, h3⟩ := h.handed t j f hm
    refine ⟨?_, h2, h3⟩
    show _ ∈ (Function.update s.mac (w.addr i) _ (w.addr j)).log
    by_cases hj : w.addr j = w.addr i
    · rw [hj, Function.update_self]
      rw [hj] at h1
      exact (Nano.step_adds _ _ _ _).sub h1
    · rw [Function.update_of_ne hj]; exact h1
  accHand := h.accHand
  txAir := h.txAir
  txNos := h.txNos
  launchP := h.launchP
  txRec := h.txRec
  pendDue := h.pendDue
  far := h.far
  eraseP := h.eraseP
  sig := h.sig
  oneWay := h.oneWay
  either := h.either
  heardLt := h.heardLt
  rxRec := h.rxRec
  rxAir := h.rxAir
  rxOnce := h.rxOnce

/-- More is written that is neither a transmission nor a reception. -/
theorem Inv.say {w : World P} {s : St P} (h : Inv w s) {l : List AObs} (htx : ∀ o ∈ l, txNo o = none) (hrx : ∀ o ∈ l, ∀ n j, isRx n j o = false)
    (hh : ∀ t i f, AObs.handed t i f ∈ l → Nano.Obs.tx f ∈ (s.mac (w.addr i)).log ∧ t ≤ s.now ∧ i < w.num)
    (ha : ∀ t i f st, AObs.accepted t i f st ∈ l → AObs.handed t i f ∈ s.air ++ l ∧
      (st = t ∨ (t + (w.pcfg i).p ≤ st ∧ st + (w.pcfg i).p ≤ t + (w.pcfg i).ts))) :
    Inv w { s with air := s.air ++ l } := by
  have hold : ∀ {o}, o ∈ s.air → o ∈ s.air ++ l := fun h => List.mem_append_left _ h
  have htx' : ∀ {t n i f}, AObs.tx t n i f ∈ s.air ++ l → AObs.tx t n i f ∈ s.air := by
    intro t n i f hm
    rcases List.mem_append.1 hm with hm | hm
    · exact hm
    · exact absurd (htx _ hm) (by simp [txNo])
  have hrx' : ∀ {t n i f}, AObs.rx t n i f ∈ s.air ++ l → AObs.rx t n i f ∈ s.air := by
    intro t n i f hm
    rcases List.mem_append.1 hm with hm | hm
    · exact hm
    · exact absurd (hrx _ hm n i) (by simp [isRx])
  exact {
    reach := h.reach
    phyR := h.phyR
    pnow := h.pnow
    accLen := h.accLen
    heardLen := h.heardLen
    handed := by
      intro t i f hm
      rcases List.mem_append.1 hm with hm | hm
      · exact h.handed t i f hm
      · exact hh t i f hm
    accHand := by
      intro t i f st hm
      rcases List.mem_append.1 hm with hm | hm
      · obtain ⟨h1, h2⟩ := h.accHand t i f st hm
        exact ⟨hold h1, h2⟩
      · exact ha t i f st hm
    txAir := by
      intro t n i f hm
      obtain ⟨h1, h2, h3, t0, h4⟩ := h.txAir t n i f (htx' hm)
      exact ⟨h1, h2, h3, t0, hold h4⟩
    txNos := by
      show (s.air ++ l).filterMap txNo = _
      rw [List.filterMap_append, h.txNos, List.filterMap_eq_nil_iff.2 htx, List.append_nil]
    launchP := by
      intro i tid due id dur hm
      obtain ⟨f, t0, h1, h2, h3, h4⟩ := h.launchP i tid due id dur hm
      exact ⟨f, t0, h1, h2, hold h3, h4⟩
    txRec := by
      intro i r hr
      obtain ⟨f, t0, h1, h2, h3⟩ := h.txRec i r hr
      exact ⟨f, t0, h1, hold h2, h3⟩
    pendDue := h.pendDue
    far := h.far
    eraseP := h.eraseP
    sig := by
      intro x hx
      obtain ⟨h0, t, i, f, h1, h2⟩ := h.sig x hx
      exact ⟨h0, t, i, f, hold h1, h2⟩
    oneWay := h.oneWay
    either := fun t n i f hm => h.either t n i f (htx' hm)
    heardLt := h.heardLt
    rxRec := by
      intro j r hr
      obtain ⟨n, t, a, f, h1, h2, h3⟩ := h.rxRec j r hr
      exact ⟨n, t, a, f, h1, hold h2, h3⟩
    rxAir := by
      intro t n j f hm
      obtain ⟨h1, t0, a, h2, h3⟩ := h.rxAir t n j f (hrx' hm)
      exact ⟨h1, t0, a, hold h2, h3⟩
    rxOnce := by
      intro n j
      show (s.air ++ l).countP _ ≤ 1
      rw [List.countP_append, List.countP_eq_zero (l := l) |>.2 (fun o ho => by rw [hrx o ho n j]; simp)]
      exact h.rxOnce n j }

/-- What `transmit` does. -/
theorem transmit_cases {w : World P} (hw : w.Wf) {s : St P} (h : Inv w s) (i : Nat) (f : Frame) :
    (∃ start, transmit w i s f = { s with
        phy := Function.update s.phy i (PhyNano.accept start (w.airtime i f.size) (s.phy i)), acc := Function.update s.acc i (s.acc i ++ [f])
        air := s.air ++ [.handed s.now i f, .accepted s.now i f start] } ∧
      PhyNano.step (w.pcfg i) (s.phy i) (.send (w.airtime i f.size)) = PhyNano.accept start (w.airtime i f.size) (s.phy i) ∧
      (((s.phy i).tx = [] ∧ (s.phy i).rx = [] ∧ start = s.now) ∨ (s.now + (w.pcfg i).p ≤ start ∧ start + (w.pcfg i).p ≤ s.now + (w.pcfg i).ts))) ∨
    (transmit w i s f = { s with
        phy := Function.update s.phy i ((s.phy i).emit (.refused s.now)), air := s.air ++ [.handed s.now i f] } ∧
      PhyNano.step (w.pcfg i) (s.phy i) (.send (w.airtime i f.size)) = (s.phy i).emit (.refused s.now) ∧
      ∀ u, s.now + (w.pcfg i).p ≤ u → u + (w.pcfg i).p ≤ s.now + (w.pcfg i).ts →
        ∃ a ∈ PhyNano.starts (s.phy i), ∃ k : ℤ, u - (w.pcfg i).p < a + k * (w.pcfg i).ts ∧ a + k * (w.pcfg i).ts < u + (w.pcfg i).p) := by
  have hn := h.pnow i
  rcases phy_send (hw.pulse i) (hw.symbol i) (h.phyI hw i) (w.airtime i f.size) with ⟨start, e, h1⟩ | ⟨e, h1⟩
  · refine .inl ⟨start, ?_, e, by rw [hn] at h1; exact h1⟩
    unfold transmit
    rw [e]
    dsimp only
    have : (PhyNano.accept start (w.airtime i f.size) (s.phy i)).log.getLast? =
        some (.accepted (s.phy i).now (s.phy i).nextTx start (w.airtime i f.size)) := by
      show ((s.phy i).log ++ [_]).getLast? = _
      rw [List.getLast?_concat]
    rw [this]
  · refine .inr ⟨?_, by rw [e, hn], by rw [hn] at h1; exact h1⟩
    unfold transmit
    rw [e]
    dsimp only
    have : ((s.phy i).emit (.refused (s.phy i).now)).log.getLast? = some (.refused (s.phy i).now) := by
      show ((s.phy i).log ++ [_]).getLast? = _
      rw [List.getLast?_concat]
    rw [this, hn]

/-- A frame is accepted. -/
theorem Inv.accept {w : World P} {s : St P} (h : Inv w s) {i : Nat} (hi : i < w.num) {f : Frame} {start : ℤ}
    (e : PhyNano.step (w.pcfg i) (s.phy i) (.send (w.airtime i f.size)) = PhyNano.accept start (w.airtime i f.size) (s.phy i))
    (ht : Nano.Obs.tx f ∈ (s.mac (w.addr i)).log) (hge : s.now ≤ start)
    (hst : start = s.now ∨ (s.now + (w.pcfg i).p ≤ start ∧ start + (w.pcfg i).p ≤ s.now + (w.pcfg i).ts)) :
    Inv w { s with
        phy := Function.update s.phy i (PhyNano.accept start (w.airtime i f.size) (s.phy i)), acc := Function.update s.acc i (s.acc i ++ [f])
        air := s.air ++ [.handed s.now i f, .accepted s.now i f start] } := by
  have h' := h.say (l := [.handed s.now i f, .accepted s.now i f start]) (by simp [txNo]) (by simp [isRx])
    (by
      intro t j g hm
      simp only [List.mem_cons, AObs.handed.injEq, reduceCtorEq, List.not_mem_nil, or_false] at hm
      obtain ⟨rfl, rfl, rfl⟩ := hm
      exact ⟨ht, le_refl _, hi⟩)
    (by
      intro t j g st hm
      simp only [List.mem_cons, AObs.accepted.injEq, reduceCtorEq, List.not_mem_nil, or_false, false_or] at hm
      obtain ⟨rfl, rfl, rfl, rfl⟩ := hm
      exact ⟨by simp, hst⟩)
  have hnew : AObs.accepted s.now i f start ∈ s.air ++ [.handed s.now i f, .accepted s.now i f start] := by simp
  have hcase : ∀ {Q : Nat → PhyNano.St P → List Frame → Prop}, (∀ j, Q j (s.phy j) (s.acc j)) →
      Q i (PhyNano.accept start (w.airtime i f.size) (s.phy i)) (s.acc i ++ [f]) →
      ∀ j, Q j (Function.update s.phy i (PhyNano.accept start (w.airtime i f.size) (s.phy i)) j)
        (Function.update s.acc i (s.acc i ++ [f]) j) := by
    intro Q h1 h2 j
    by_cases hj : j = i
    · subst hj; rw [Function.update_self, Function.update_self]; exact h2
    · rw [Function.update_of_ne hj, Function.update_of_ne hj]; exact h1 j
  exact {
    reach := h'.reach
    phyR := hcase (Q := fun j p _ => ∃ ops, p = PhyNano.after (w.pcfg j) ops) h'.phyR (by
      obtain ⟨ops, e1⟩ := h.phyR i
      exact ⟨ops ++ [.send (w.airtime i f.size)], by rw [← e, ← phy_snoc, ← e1]⟩)
    pnow := hcase (Q := fun _ p _ => p.now = s.now) h'.pnow (h'.pnow i)
    accLen := hcase (Q := fun _ p l => l.length = p.nextTx) h'.accLen (by
      rw [List.length_append]
      show (s.acc i).length + 1 = (s.phy i).nextTx + 1
      rw [h.accLen i])
    heardLen := hcase (Q := fun j p _ => (s.heard j).length = p.nextRx) h'.heardLen (h'.heardLen i)
    handed := h'.handed
    accHand := h'.accHand
    txAir := h'.txAir
    txNos := h'.txNos
    launchP := hcase (Q := fun j p l => ∀ tid due id dur, (tid, due, PhyNano.Ev.launch id dur) ∈ p.pend →
      ∃ g t0, l[id]? = some g ∧ dur = w.airtime j g.size ∧
        AObs.accepted t0 j g due ∈ s.air ++ [.handed s.now i f, .accepted s.now i f start] ∧ j < w.num) h'.launchP (by
      intro tid due id dur hm
      rcases List.mem_append.1 hm with hm | hm
      · obtain ⟨g, t0, h1, h2⟩ := h'.launchP i tid due id dur hm
        refine ⟨g, t0, ?_, h2⟩
        have hlt : id < (s.acc i).length := by
          by_contra hc
          have h1' : (s.acc i)[id]? = some g := h1
          rw [List.getElem?_eq_none (by omega)] at h1'
          cases h1'
        rw [List.getElem?_append_left hlt]; exact h1
      · simp only [List.mem_cons, Prod.mk.injEq, PhyNano.Ev.launch.injEq, reduceCtorEq, and_false, List.not_mem_nil, or_false] at hm
        obtain ⟨-, rfl, rfl, rfl⟩ := hm
        refine ⟨f, s.now, ?_, rfl, hnew, hi⟩
        rw [← h.accLen i, List.getElem?_append_right (le_refl _), Nat.sub_self]; rfl)
    txRec := hcase (Q := fun j p _ => ∀ r ∈ p.tx, ∃ g t0, r.dur = w.airtime j g.size ∧
        AObs.accepted t0 j g r.start ∈ s.air ++ [.handed s.now i f, .accepted s.now i f start] ∧ j < w.num) h'.txRec (by
      intro r hr
      rcases List.mem_append.1 hr with hr | hr
      · exact h'.txRec i r hr
      · rw [List.mem_singleton.1 hr]
        exact ⟨f, s.now, rfl, hnew, hi⟩)
    pendDue := hcase (Q := fun _ p _ => ∀ e ∈ p.pend, s.now ≤ e.2.1) h'.pendDue (by
      intro e he
      rcases List.mem_append.1 he with he | he
      · exact h'.pendDue i e he
      · simp only [List.mem_cons, List.not_mem_nil, or_false] at he
        rcases he with rfl | rfl
        · exact hge
        · show s.now ≤ start + (w.airtime i f.size : ℤ)
          omega)
    far := hcase (Q := fun j p _ => ∀ e ∈ p.pend, j < w.num) h'.far (fun _ _ => hi)
    eraseP := hcase (Q := fun j p _ => ∀ tid due st d, (tid, due, PhyNano.Ev.erase st d) ∈ p.pend → due = st + d) h'.eraseP (by
      intro tid due st d hm
      rcases List.mem_append.1 hm with hm | hm
      · exact h'.eraseP i tid due st d hm
      · simp only [List.mem_cons, Prod.mk.injEq, PhyNano.Ev.erase.injEq, reduceCtorEq, and_false, false_or, List.not_mem_nil, or_false] at hm
        obtain ⟨-, rfl, rfl, rfl⟩ := hm
        rfl)
    sig := h'.sig
    oneWay := h'.oneWay
    either := h'.either
    heardLt := h'.heardLt
    rxRec := hcase (Q := fun j p _ => ∀ r ∈ p.rx, ∃ n t a g, (s.heard j)[r.id]? = some n ∧
      AObs.tx t n a g ∈ s.air ++ [.handed s.now i f, .accepted s.now i f start] ∧ a ≠ j ∧ j < w.num ∧
      r.start = t + w.delay t a j ∧ r.dur = w.airtime a g.size ∧ r.pw = w.power t a j) h'.rxRec (fun r hr => h'.rxRec i r hr)
    rxAir := by
      intro t n j g hm
      obtain ⟨h1, t0, a, h2, h3, h4, h5, id, h6, h7⟩ := h'.rxAir t n j g hm
      refine ⟨h1, t0, a, h2, h3, h4, h5, id, h6, ?_⟩
      dsimp only
      by_cases hj : j = i
      · subst hj
        rw [Function.update_self]
        exact h7
      · rw [Function.update_of_ne hj]
        exact h7
    rxOnce := h'.rxOnce }

theorem Inv.sent {w : World P} (hw : w.Wf) {s : St P} (h : Inv w s) {i : Nat} (hi : i < w.num) {f : Frame}
    (ht : Nano.Obs.tx f ∈ (s.mac (w.addr i)).log) : Inv w (transmit w i s f) ∧ (transmit w i s f).mac = s.mac := by
  rcases transmit_cases hw h i f with ⟨start, e, e1, h1⟩ | ⟨e, e1, -⟩
  · rw [e]
    have hp := hw.pulse i
    exact ⟨h.accept hi e1 ht (by omega) (by rcases h1 with ⟨-, -, h1⟩ | h1; exacts [.inl h1, .inr h1]), rfl⟩
  · rw [e]
    refine ⟨?_, rfl⟩
    have hq := h.quiet i (.send (w.airtime i f.size)) (by rw [e1, ← h.pnow i]; exact quiet_refused _)
    rw [e1] at hq
    exact hq.say (l := [.handed s.now i f]) (by simp [txNo]) (by simp [isRx])
      (by
        intro t j g hm
        simp only [List.mem_cons, AObs.handed.injEq, List.not_mem_nil, or_false] at hm
        obtain ⟨rfl, rfl, rfl⟩ := hm
        exact ⟨ht, le_refl _, hi⟩)
      (by simp)

theorem Inv.sents {w : World P} (hw : w.Wf) {i : Nat} (hi : i < w.num) : ∀ (l : List Frame) {s : St P}, Inv w s →
    (∀ f ∈ l, Nano.Obs.tx f ∈ (s.mac (w.addr i)).log) → Inv w (l.foldl (transmit w i) s)
  | [], _, h, _ => h
  | f :: l, s, h, ht => by
    obtain ⟨h1, h2⟩ := h.sent hw hi (ht f (List.mem_cons_self))
    refine Inv.sents hw hi l h1 ?_
    intro g hg
    rw [h2]
    exact ht g (List.mem_cons_of_mem _ hg)

omit [AddCommMonoid P] in
theorem mem_framesIn {l : List Nano.Obs} {f : Frame} : f ∈ framesIn l ↔ Nano.Obs.tx f ∈ l := by
  unfold framesIn
  rw [List.mem_filterMap]
  constructor
  · rintro ⟨o, ho, h⟩
    cases o <;> simp only [reduceCtorEq, Option.some.injEq] at h
    subst h
    exact List.mem_reverse.1 ho
  · intro h
    exact ⟨_, List.mem_reverse.2 h, rfl⟩

theorem Inv.macStep {w : World P} (hw : w.Wf) {s : St P} (h : Inv w s) {i : Nat} (hi : i < w.num) (g : Nat) (op : Nano.Op)
    (ha : Nano.Allowed s.mac op) : Inv w (macStep w i g op s) := by
  unfold NStack.macStep
  refine Inv.sents hw hi _ (h.macUpd hw hi op ha _) ?_
  intro f hf
  show _ ∈ (Function.update s.mac (w.addr i) _ (w.addr i)).log
  rw [Function.update_self]
  exact List.mem_of_mem_take (mem_framesIn.1 hf)

/-- What does not change in an operation of the MAC. -/
theorem transmit_keeps (w : World P) (i : Nat) (f : Frame) (s : St P) :
    (transmit w i s f).now = s.now ∧ (transmit w i s f).heard = s.heard ∧ (transmit w i s f).frames = s.frames ∧
    (transmit w i s f).flight = s.flight ∧ (∀ j, ((transmit w i s f).phy j).inside = (s.phy j).inside) ∧
    (transmit w i s f).mac = s.mac ∧ (transmit w i s f).due = s.due ∧ (∃ l, (transmit w i s f).air = s.air ++ l ∧
      (∀ o ∈ l, txNo o = none) ∧ ∀ o ∈ l, ∀ n j, isRx n j o = false) ∧ ∀ j, ((transmit w i s f).phy j).rx = (s.phy j).rx := by
  have hin : (PhyNano.step (w.pcfg i) (s.phy i) (.send (w.airtime i f.size))).inside = (s.phy i).inside ∧
      (PhyNano.step (w.pcfg i) (s.phy i) (.send (w.airtime i f.size))).rx = (s.phy i).rx := by
    show (PhyNano.sendPacket _ _ _).inside = _ ∧ (PhyNano.sendPacket _ _ _).rx = _
    unfold PhyNano.sendPacket
    split
    · split <;> exact ⟨rfl, rfl⟩
    · exact ⟨rfl, rfl⟩
  have hup : ∀ j, (Function.update s.phy i (PhyNano.step (w.pcfg i) (s.phy i) (.send (w.airtime i f.size))) j).inside = (s.phy j).inside ∧
      (Function.update s.phy i (PhyNano.step (w.pcfg i) (s.phy i) (.send (w.airtime i f.size))) j).rx = (s.phy j).rx := by
    intro j
    by_cases hj : j = i
    · subst hj; rw [Function.update_self]; exact hin
    · rw [Function.update_of_ne hj]; exact ⟨rfl, rfl⟩
  unfold transmit
  dsimp only
  split
  · exact ⟨rfl, rfl, rfl, rfl, fun j => (hup j).1, rfl, rfl, ⟨_, rfl, by simp [txNo], by simp [isRx]⟩, fun j => (hup j).2⟩
  · exact ⟨rfl, rfl, rfl, rfl, fun j => (hup j).1, rfl, rfl, ⟨_, rfl, by simp [txNo], by simp [isRx]⟩, fun j => (hup j).2⟩

theorem transmits_keep (w : World P) (i : Nat) : ∀ (l : List Frame) (s : St P),
    (l.foldl (transmit w i) s).now = s.now ∧ (l.foldl (transmit w i) s).heard = s.heard ∧ (l.foldl (transmit w i) s).frames = s.frames ∧
    (l.foldl (transmit w i) s).flight = s.flight ∧ (∀ j, ((l.foldl (transmit w i) s).phy j).inside = (s.phy j).inside) ∧
    (l.foldl (transmit w i) s).mac = s.mac ∧ (l.foldl (transmit w i) s).due = s.due ∧ (∃ k, (l.foldl (transmit w i) s).air = s.air ++ k ∧
      (∀ o ∈ k, txNo o = none) ∧ ∀ o ∈ k, ∀ n j, isRx n j o = false) ∧ ∀ j, ((l.foldl (transmit w i) s).phy j).rx = (s.phy j).rx
  | [], s => ⟨rfl, rfl, rfl, rfl, fun _ => rfl, rfl, rfl, ⟨[], by simp, by simp, by simp⟩, fun _ => rfl⟩
  | f :: l, s => by
    obtain ⟨a1, a2, a3, a4, a5, a6, a7, ⟨k, a8, a9, a10⟩, a11⟩ := transmit_keeps w i f s
    obtain ⟨b1, b2, b3, b4, b5, b6, b7, ⟨k', b8, b9, b10⟩, b11⟩ := transmits_keep w i l (transmit w i s f)
    rw [List.foldl_cons]
    refine ⟨b1.trans a1, b2.trans a2, b3.trans a3, b4.trans a4, fun j => (b5 j).trans (a5 j), b6.trans a6, b7.trans a7, ⟨k ++ k', ?_, ?_, ?_⟩,
      fun j => (b11 j).trans (a11 j)⟩
    · rw [b8, a8, List.append_assoc]
    · intro o ho
      rcases List.mem_append.1 ho with ho | ho
      exacts [a9 o ho, b9 o ho]
    · intro o ho
      rcases List.mem_append.1 ho with ho | ho
      exacts [a10 o ho, b10 o ho]

theorem macStep_keeps (w : World P) (i g : Nat) (op : Nano.Op) (s : St P) :
    (macStep w i g op s).now = s.now ∧ (macStep w i g op s).heard = s.heard ∧ (macStep w i g op s).frames = s.frames ∧
    (macStep w i g op s).flight = s.flight ∧ (∀ j, ((macStep w i g op s).phy j).inside = (s.phy j).inside) ∧
    (macStep w i g op s).mac = Function.update s.mac (w.addr i) (Nano.step (w.mcfg (w.addr i)) (w.addr i) (s.mac (w.addr i)) op) ∧
    (∃ k, (macStep w i g op s).air = s.air ++ k ∧ (∀ o ∈ k, txNo o = none) ∧ ∀ o ∈ k, ∀ n j, isRx n j o = false) ∧
    ∀ j, ((macStep w i g op s).phy j).rx = (s.phy j).rx := by
  unfold macStep
  obtain ⟨b1, b2, b3, b4, b5, b6, -, b8, b9⟩ := transmits_keep w i (framesIn _) _
  exact ⟨b1, b2, b3, b4, b5, b6, b8, b9⟩

theorem tx_unique {w : World P} {s : St P} (h : Inv w s) {t t' : ℤ} {n i i' : Nat} {f f' : Frame} (h1 : AObs.tx t n i f ∈ s.air)
    (h2 : AObs.tx t' n i' f' ∈ s.air) : t = t' ∧ i = i' ∧ f = f' := by
  have hnd : (s.air.filterMap txNo).Nodup := by rw [h.txNos]; exact List.nodup_range
  have key : ∀ l : List AObs, (l.filterMap txNo).Nodup → AObs.tx t n i f ∈ l → AObs.tx t' n i' f' ∈ l → t = t' ∧ i = i' ∧ f = f' := by
    intro l
    induction l with
    | nil => simp
    | cons o l ih =>
      intro hn ha hb
      have hno : ∀ {t i f}, AObs.tx t n i f ∈ l → n ∈ l.filterMap txNo := fun hm => List.mem_filterMap.2 ⟨_, hm, rfl⟩
      rcases List.mem_cons.1 ha with rfl | ha
      · rcases List.mem_cons.1 hb with hb | hb
        · simp only [AObs.tx.injEq] at hb
          exact ⟨hb.1.symm, hb.2.2.1.symm, hb.2.2.2.symm⟩
        · rw [List.filterMap_cons] at hn
          exact absurd (hno hb) (List.nodup_cons.1 hn).1
      · rcases List.mem_cons.1 hb with hb | hb
        · rw [List.filterMap_cons, ← hb] at hn
          exact absurd (hno ha) (List.nodup_cons.1 hn).1
        · refine ih ?_ ha hb
          rw [List.filterMap_cons] at hn
          split at hn
          · exact hn
          · exact (List.nodup_cons.1 hn).2
  exact key _ hnd h1 h2

theorem tx_lt {w : World P} {s : St P} (h : Inv w s) {t : ℤ} {n i : Nat} {f : Frame} (h1 : AObs.tx t n i f ∈ s.air) : n < s.frames.length := by
  have := (h.txAir t n i f h1).1
  by_contra hc
  rw [List.getElem?_eq_none (by omega)] at this
  cases this

theorem heard_unique {w : World P} {s : St P} (h : Inv w s) {j n id id' : Nat} (h1 : (s.heard j)[id]? = some n)
    (h2 : (s.heard j)[id']? = some n) : id = id' := by
  have hnd : (s.heard j).Nodup := by
    rw [List.nodup_iff_count_le_one]
    intro m
    have := h.oneWay m j
    omega
  obtain ⟨l1, e1⟩ := List.getElem?_eq_some_iff.1 h1
  obtain ⟨l2, e2⟩ := List.getElem?_eq_some_iff.1 h2
  exact (List.Nodup.getElem_inj_iff hnd).1 (e1.trans e2.symm)

/-- A frame goes on the air. -/
theorem Inv.launch {w : World P} {s : St P} (h : Inv w s) {i : Nat} {tid : Nat} {due : ℤ} {id : Nat} {dur : ℤ} {f : Frame} {t0 : ℤ}
    {a b : List (Nat × ℤ × PhyNano.Ev P)} (hin : (s.phy i).inside = none)
    (hp : (s.phy i).pend = a ++ (tid, due, .launch id dur) :: b) (hi : i < w.num) (hdue : due = s.now)
    (hacc : AObs.accepted t0 i f s.now ∈ s.air) (hdur : dur = w.airtime i f.size)
    (e : PhyNano.step (w.pcfg i) (s.phy i) (.fire tid) = { s.phy i with
        log := (s.phy i).log ++ [.onAir (s.phy i).now id], pend := a ++ b ++ [((s.phy i).nextTid, (s.phy i).now + dur, .txDone id)]
        nextTid := (s.phy i).nextTid + 1 }) :
    Inv w { s with
      phy := Function.update s.phy i (PhyNano.step (w.pcfg i) (s.phy i) (.fire tid))
      frames := s.frames ++ [f]
      flight := s.flight ++ ((List.range w.num).filter (fun j => j ≠ i)).map
        (fun j => ⟨s.now + w.delay s.now i j, s.frames.length, j, dur.toNat, w.power s.now i j⟩)
      air := s.air ++ [.tx s.now s.frames.length i f] } := by
  have hold : ∀ {o}, o ∈ s.air → o ∈ s.air ++ [AObs.tx s.now s.frames.length i f] := fun h => List.mem_append_left _ h
  have hcase : ∀ {Q : Nat → PhyNano.St P → Prop}, (∀ j, Q j (s.phy j)) → Q i (PhyNano.step (w.pcfg i) (s.phy i) (.fire tid)) →
      ∀ j, Q j (Function.update s.phy i (PhyNano.step (w.pcfg i) (s.phy i) (.fire tid)) j) := by
    intro Q h1 h2 j
    by_cases hj : j = i
    · subst hj; rw [Function.update_self]; exact h2
    · rw [Function.update_of_ne hj]; exact h1 j
  have hpend : ∀ x ∈ (PhyNano.step (w.pcfg i) (s.phy i) (.fire tid)).pend, x ∈ (s.phy i).pend ∨
      x = ((s.phy i).nextTid, (s.phy i).now + dur, PhyNano.Ev.txDone id) := by
    intro x hx
    rw [e] at hx
    rcases List.mem_append.1 hx with hx | hx
    · left
      rw [hp]
      rcases List.mem_append.1 hx with hx | hx
      · exact List.mem_append_left _ hx
      · exact List.mem_append_right _ (List.mem_cons_of_mem _ hx)
    · exact .inr (List.mem_singleton.1 hx)
  have hmem : ∀ {t n k g}, AObs.tx t n k g ∈ s.air ++ [AObs.tx s.now s.frames.length i f] → AObs.tx t n k g ∈ s.air ∨
      (t = s.now ∧ n = s.frames.length ∧ k = i ∧ g = f) := by
    intro t n k g hm
    rcases List.mem_append.1 hm with hm | hm
    · exact .inl hm
    · simp only [List.mem_singleton, AObs.tx.injEq] at hm
      exact .inr hm
  have hcount : ∀ n j, (((List.range w.num).filter (fun j => decide (j ≠ i))).map
      (fun j => (⟨s.now + w.delay s.now i j, s.frames.length, j, dur.toNat, w.power s.now i j⟩ : Sig P))).countP (isSig n j) =
      if n = s.frames.length ∧ j < w.num ∧ j ≠ i then 1 else 0 := by
    intro n j
    rw [List.countP_map]
    by_cases hn : n = s.frames.length
    · have : (isSig n j ∘ fun j => (⟨s.now + w.delay s.now i j, s.frames.length, j, dur.toNat, w.power s.now i j⟩ : Sig P)) = fun k => k == j := by
        funext k
        show decide (_ ∧ _) = _
        simp only [hn, true_and]
        rw [Bool.eq_iff_iff]
        simp
      rw [this]
      show List.count j _ = _
      have hnd : ((List.range w.num).filter (fun j => decide (j ≠ i))).Nodup := List.nodup_range.filter _
      split
      · rename_i hc
        exact List.count_eq_one_of_mem hnd (List.mem_filter.2 ⟨List.mem_range.2 hc.2.1, by simpa using hc.2.2⟩)
      · rename_i hc
        refine List.count_eq_zero_of_not_mem ?_
        intro hm
        obtain ⟨h1, h2⟩ := List.mem_filter.1 hm
        exact hc ⟨hn, List.mem_range.1 h1, by simpa using h2⟩
    · rw [if_neg (fun hc => hn hc.1), List.countP_eq_zero]
      intro k _ hk
      simp only [Function.comp, isSig, decide_eq_true_eq] at hk
      exact hn hk.1.symm
  have hzero : ∀ j, s.flight.countP (isSig s.frames.length j) + (s.heard j).count s.frames.length = 0 := by
    intro j
    have h1 : s.flight.countP (isSig s.frames.length j) = 0 := by
      rw [List.countP_eq_zero]
      intro x hx hk
      simp only [isSig, decide_eq_true_eq] at hk
      obtain ⟨-, t, k, g, hm, -⟩ := h.sig x hx
      have := tx_lt h hm
      omega
    have h2 : (s.heard j).count s.frames.length = 0 := by
      refine List.count_eq_zero_of_not_mem ?_
      intro hm
      have := h.heardLt j _ hm
      omega
    omega
  exact {
    reach := h.reach
    phyR := hcase (Q := fun j p => ∃ ops, p = PhyNano.after (w.pcfg j) ops) h.phyR (by
      obtain ⟨ops, e1⟩ := h.phyR i
      exact ⟨ops ++ [.fire tid], by rw [e1, phy_snoc]⟩)
    pnow := hcase (Q := fun _ p => p.now = s.now) h.pnow (by rw [e]; exact h.pnow i)
    accLen := hcase (Q := fun j p => (s.acc j).length = p.nextTx) h.accLen (by rw [e]; exact h.accLen i)
    heardLen := hcase (Q := fun j p => (s.heard j).length = p.nextRx) h.heardLen (by rw [e]; exact h.heardLen i)
    handed := by
      intro t j g hm
      rcases List.mem_append.1 hm with hm | hm
      · exact h.handed t j g hm
      · simp at hm
    accHand := by
      intro t j g st hm
      rcases List.mem_append.1 hm with hm | hm
      · obtain ⟨h1, h2⟩ := h.accHand t j g st hm
        exact ⟨hold h1, h2⟩
      · simp at hm
    txAir := by
      intro t n k g hm
      rcases hmem hm with hm | ⟨rfl, rfl, rfl, rfl⟩
      · obtain ⟨h1, h2, h3, t1, h4⟩ := h.txAir t n k g hm
        refine ⟨?_, h2, h3, t1, hold h4⟩
        show (s.frames ++ [f])[n]? = _
        rw [List.getElem?_append_left (tx_lt h hm)]; exact h1
      · refine ⟨?_, hi, le_refl _, t0, hold hacc⟩
        show (s.frames ++ [g])[s.frames.length]? = _
        rw [List.getElem?_append_right (le_refl _), Nat.sub_self]; rfl
    txNos := by
      show (s.air ++ [_]).filterMap txNo = List.range (s.frames ++ [f]).length
      rw [List.filterMap_append, h.txNos, List.length_append, List.length_singleton, List.range_succ]
      rfl
    launchP := hcase (Q := fun j p => ∀ tid due id dur, (tid, due, PhyNano.Ev.launch id dur) ∈ p.pend →
      ∃ g t0, (s.acc j)[id]? = some g ∧ dur = w.airtime j g.size ∧ AObs.accepted t0 j g due ∈ s.air ++ [AObs.tx s.now s.frames.length i f] ∧
        j < w.num) (by
          intro j tid due id dur hm
          obtain ⟨g, t1, h1, h2, h3, h4⟩ := h.launchP j tid due id dur hm
          exact ⟨g, t1, h1, h2, hold h3, h4⟩) (by
      intro tid due id dur hm
      rcases hpend _ hm with hm | hm
      · obtain ⟨g, t1, h1, h2, h3, h4⟩ := h.launchP i tid due id dur hm
        exact ⟨g, t1, h1, h2, hold h3, h4⟩
      · simp at hm)
    txRec := hcase (Q := fun j p => ∀ r ∈ p.tx, ∃ g t0, r.dur = w.airtime j g.size ∧
        AObs.accepted t0 j g r.start ∈ s.air ++ [AObs.tx s.now s.frames.length i f] ∧ j < w.num) (by
          intro j r hr
          obtain ⟨g, t1, h1, h2, h3⟩ := h.txRec j r hr
          exact ⟨g, t1, h1, hold h2, h3⟩) (by
      intro r hr
      rw [e] at hr
      obtain ⟨g, t1, h1, h2, h3⟩ := h.txRec i r hr
      exact ⟨g, t1, h1, hold h2, h3⟩)
    pendDue := hcase (Q := fun _ p => ∀ x ∈ p.pend, s.now ≤ x.2.1) h.pendDue (by
      intro x hx
      rcases hpend x hx with hx | rfl
      · exact h.pendDue i x hx
      · show s.now ≤ (s.phy i).now + dur
        rw [h.pnow i, hdur]
        omega)
    far := hcase (Q := fun j p => ∀ x ∈ p.pend, j < w.num) h.far (fun _ _ => hi)
    eraseP := hcase (Q := fun j p => ∀ tid due st d, (tid, due, PhyNano.Ev.erase st d) ∈ p.pend → due = st + d) h.eraseP (by
      intro tid due st d hm
      rcases hpend _ hm with hm | hm
      · exact h.eraseP i tid due st d hm
      · simp at hm)
    sig := by
      intro x hx
      rcases List.mem_append.1 hx with hx | hx
      · obtain ⟨h0, t, k, g, h1, h2⟩ := h.sig x hx
        exact ⟨h0, t, k, g, hold h1, h2⟩
      · obtain ⟨j, hj, rfl⟩ := List.mem_map.1 hx
        obtain ⟨h1, h2⟩ := List.mem_filter.1 hj
        refine ⟨?_, s.now, i, f, by simp, ?_, List.mem_range.1 h1, rfl, ?_, rfl⟩
        · show s.now ≤ s.now + (w.delay s.now i j : ℤ)
          omega
        · intro hc
          rw [decide_eq_true_eq] at h2
          exact h2 hc.symm
        · show dur.toNat = _
          rw [hdur]; exact Int.toNat_natCast _
    oneWay := by
      intro n j
      dsimp only
      rw [List.countP_append, hcount]
      have := h.oneWay n j
      split
      · rename_i hc
        have := hzero j
        rw [← hc.1] at this
        omega
      · omega
    either := by
      intro t n k g hm j hj hne
      dsimp only
      rw [List.countP_append, hcount]
      rcases hmem hm with hm | ⟨rfl, rfl, rfl, rfl⟩
      · have h1 := tx_lt h hm
        rw [if_neg (by omega)]
        have := h.either t n k g hm j hj hne
        omega
      · rw [if_pos ⟨rfl, hj, hne⟩]
        have := hzero j
        omega
    heardLt := by
      intro j n hn
      show n < (s.frames ++ [f]).length
      rw [List.length_append]
      have := h.heardLt j n hn
      omega
    rxRec := hcase (Q := fun j p => ∀ r ∈ p.rx, ∃ n t a g, (s.heard j)[r.id]? = some n ∧
      AObs.tx t n a g ∈ s.air ++ [AObs.tx s.now s.frames.length i f] ∧ a ≠ j ∧ j < w.num ∧
      r.start = t + w.delay t a j ∧ r.dur = w.airtime a g.size ∧ r.pw = w.power t a j) (by
          intro j r hr
          obtain ⟨n, t, a, g, h1, h2, h3⟩ := h.rxRec j r hr
          exact ⟨n, t, a, g, h1, hold h2, h3⟩) (by
      intro r hr
      rw [e] at hr
      obtain ⟨n, t, a, g, h1, h2, h3⟩ := h.rxRec i r hr
      exact ⟨n, t, a, g, h1, hold h2, h3⟩)
    rxAir := by
      intro t n j g hm
      have hm' : AObs.rx t n j g ∈ s.air := by
        rcases List.mem_append.1 hm with hm | hm
        · exact hm
        · simp at hm
      obtain ⟨h1, t1, a, h2, h3, h4, h5, id, h6, h7⟩ := h.rxAir t n j g hm'
      refine ⟨h1, t1, a, hold h2, h3, h4, h5, id, h6, ?_⟩
      dsimp only
      by_cases hj : j = i
      · subst hj
        rw [Function.update_self, e]
        exact h7
      · rw [Function.update_of_ne hj]
        exact h7
    rxOnce := by
      intro n j
      show (s.air ++ [_]).countP _ ≤ 1
      rw [List.countP_append]
      have := h.rxOnce n j
      simpa [isRx] using this }

/-- The records touched by an arrival keep their data. -/
theorem mem_disturb {c : PhyNano.Cfg P} {now : ℤ} {pw : P} {l : List (PhyNano.Rx P)} {r : PhyNano.Rx P} (h : r ∈ PhyNano.disturb c now pw l) :
    ∃ r0 ∈ l, r0.id = r.id ∧ r0.start = r.start ∧ r0.dur = r.dur ∧ r0.pw = r.pw := by
  unfold PhyNano.disturb at h
  obtain ⟨r0, h0, rfl⟩ := List.mem_map.1 h
  refine ⟨r0, h0, ?_⟩
  split
  · split <;> exact ⟨rfl, rfl, rfl, rfl⟩
  · exact ⟨rfl, rfl, rfl, rfl⟩

/-- A signal arrives. -/
theorem Inv.land {w : World P} {s : St P} (h : Inv w s) (hidle : Idle s) {n j : Nat} {x : Sig P} (junk : P)
    (hx : s.flight.find? (fun x => x.n = n ∧ x.dst = j) = some x) (hdue : x.due ≤ s.now) :
    Inv w { s with
      flight := s.flight.filter (fun x => ¬ (x.n = n ∧ x.dst = j))
      heard := Function.update s.heard j (s.heard j ++ [n])
      phy := Function.update s.phy j (PhyNano.step (w.pcfg j) (s.phy j) (.arrive x.dur x.pw junk)) } := by
  have hxm := List.mem_of_find?_eq_some hx
  have hxp : x.n = n ∧ x.dst = j := by simpa using List.find?_some hx
  obtain ⟨hge, t, i, f, htx, hne, hlt, hd, hdur, hpw⟩ := h.sig x hxm
  obtain ⟨rfl, rfl⟩ := hxp
  have hnow : x.due = s.now := by omega
  have hone : s.flight.countP (isSig x.n x.dst) = 1 ∧ (s.heard x.dst).count x.n = 0 := by
    have h1 := h.oneWay x.n x.dst
    have h2 : 0 < s.flight.countP (isSig x.n x.dst) := List.countP_pos_iff.2 ⟨x, hxm, by simp [isSig]⟩
    omega
  have hfc : ∀ n j, (s.flight.filter (fun y => decide (¬ (y.n = x.n ∧ y.dst = x.dst)))).countP (isSig n j) =
      if n = x.n ∧ j = x.dst then 0 else s.flight.countP (isSig n j) := by
    intro n j
    rw [List.countP_filter]
    split
    · rename_i hc
      obtain ⟨rfl, rfl⟩ := hc
      rw [List.countP_eq_zero]
      intro y _ hy
      simp only [isSig, Bool.and_eq_true, decide_eq_true_eq] at hy
      exact hy.2 hy.1
    · rename_i hc
      apply List.countP_congr
      intro y _
      simp only [isSig, Bool.and_eq_true, decide_eq_true_eq]
      constructor
      · exact fun h => h.1
      · rintro ⟨rfl, rfl⟩
        exact ⟨⟨rfl, rfl⟩, fun hc' => hc hc'⟩
  have hhc : ∀ n j, (Function.update s.heard x.dst (s.heard x.dst ++ [x.n]) j).count n =
      (s.heard j).count n + if n = x.n ∧ j = x.dst then 1 else 0 := by
    intro n j
    by_cases hj : j = x.dst
    · subst hj
      rw [Function.update_self, List.count_append]
      by_cases hn : n = x.n
      · subst hn
        simp
      · rw [if_neg (fun hc => hn hc.1), List.count_singleton]
        simp [Ne.symm hn]
    · rw [Function.update_of_ne hj, if_neg (fun hc => hj hc.2)]; rfl
  have hget : ∀ {k id m : Nat}, (s.heard k)[id]? = some m → (Function.update s.heard x.dst (s.heard x.dst ++ [x.n]) k)[id]? = some m := by
    intro k id m hk
    by_cases hj : k = x.dst
    · subst hj
      rw [Function.update_self]
      obtain ⟨l1, -⟩ := List.getElem?_eq_some_iff.1 hk
      rw [List.getElem?_append_left l1]; exact hk
    · rw [Function.update_of_ne hj]; exact hk
  have hphy : ∀ p', p' = PhyNano.step (w.pcfg x.dst) (s.phy x.dst) (.arrive x.dur x.pw junk) →
      p'.now = (s.phy x.dst).now ∧ p'.nextTx = (s.phy x.dst).nextTx ∧ p'.nextRx = (s.phy x.dst).nextRx + 1 ∧ p'.tx = (s.phy x.dst).tx ∧
      p'.pend = (s.phy x.dst).pend ++ [((s.phy x.dst).nextTid, (s.phy x.dst).now + x.dur, .rxDone (s.phy x.dst).nextRx)] ∧
      p'.inside = (s.phy x.dst).inside ∧
      ∀ r ∈ p'.rx, (∃ r0 ∈ (s.phy x.dst).rx, r0.id = r.id ∧ r0.start = r.start ∧ r0.dur = r.dur ∧ r0.pw = r.pw) ∨
        (r.id = (s.phy x.dst).nextRx ∧ r.start = (s.phy x.dst).now ∧ r.dur = x.dur ∧ r.pw = x.pw) := by
    intro p' hp'
    rcases phy_arrive (w.pcfg x.dst) (hidle x.dst) x.dur x.pw junk with ⟨-, e⟩ | ⟨-, e⟩
    · rw [e] at hp'
      subst hp'
      exact ⟨rfl, rfl, rfl, rfl, rfl, rfl, fun r hr => .inl ⟨r, hr, rfl, rfl, rfl, rfl⟩⟩
    · rw [e] at hp'
      subst hp'
      refine ⟨rfl, rfl, rfl, rfl, rfl, rfl, fun r hr => ?_⟩
      rcases List.mem_append.1 hr with hr | hr
      · exact .inl (mem_disturb hr)
      · rw [List.mem_singleton.1 hr]
        exact .inr ⟨rfl, rfl, rfl, rfl⟩
  obtain ⟨q1, q2, q3, q4, q5, q6, q7⟩ := hphy _ rfl
  have hcase : ∀ {Q : Nat → PhyNano.St P → List Nat → Prop}, (∀ k, k ≠ x.dst → Q k (s.phy k) (s.heard k)) →
      Q x.dst (PhyNano.step (w.pcfg x.dst) (s.phy x.dst) (.arrive x.dur x.pw junk)) (s.heard x.dst ++ [x.n]) →
      ∀ k, Q k (Function.update s.phy x.dst (PhyNano.step (w.pcfg x.dst) (s.phy x.dst) (.arrive x.dur x.pw junk)) k)
        (Function.update s.heard x.dst (s.heard x.dst ++ [x.n]) k) := by
    intro Q h1 h2 k
    by_cases hk : k = x.dst
    · subst hk; rw [Function.update_self, Function.update_self]; exact h2
    · rw [Function.update_of_ne hk, Function.update_of_ne hk]; exact h1 k hk
  exact {
    reach := h.reach
    phyR := hcase (Q := fun k p _ => ∃ ops, p = PhyNano.after (w.pcfg k) ops) (fun k _ => h.phyR k) (by
      obtain ⟨ops, e1⟩ := h.phyR x.dst
      exact ⟨ops ++ [.arrive x.dur x.pw junk], by rw [e1, phy_snoc]⟩)
    pnow := hcase (Q := fun _ p _ => p.now = s.now) (fun k _ => h.pnow k) (by rw [q1]; exact h.pnow x.dst)
    accLen := hcase (Q := fun k p _ => (s.acc k).length = p.nextTx) (fun k _ => h.accLen k) (by rw [q2]; exact h.accLen x.dst)
    heardLen := hcase (Q := fun _ p l => l.length = p.nextRx) (fun k _ => h.heardLen k) (by
      rw [q3, List.length_append, h.heardLen]; rfl)
    handed := h.handed
    accHand := h.accHand
    txAir := h.txAir
    txNos := h.txNos
    launchP := hcase (Q := fun k p _ => ∀ tid due id dur, (tid, due, PhyNano.Ev.launch id dur) ∈ p.pend →
      ∃ g t0, (s.acc k)[id]? = some g ∧ dur = w.airtime k g.size ∧ AObs.accepted t0 k g due ∈ s.air ∧ k < w.num)
      (fun k _ => h.launchP k) (by
      intro tid due id dur hm
      rw [q5] at hm
      rcases List.mem_append.1 hm with hm | hm
      · exact h.launchP x.dst tid due id dur hm
      · simp at hm)
    txRec := hcase (Q := fun k p _ => ∀ r ∈ p.tx, ∃ g t0, r.dur = w.airtime k g.size ∧
        AObs.accepted t0 k g r.start ∈ s.air ∧ k < w.num) (fun k _ => h.txRec k) (by
      intro r hr
      rw [q4] at hr
      exact h.txRec x.dst r hr)
    pendDue := hcase (Q := fun _ p _ => ∀ x ∈ p.pend, s.now ≤ x.2.1) (fun k _ => h.pendDue k) (by
      intro e he
      rw [q5] at he
      rcases List.mem_append.1 he with he | he
      · exact h.pendDue x.dst e he
      · rw [List.mem_singleton.1 he]
        show s.now ≤ (s.phy x.dst).now + (x.dur : ℤ)
        rw [h.pnow]
        omega)
    far := hcase (Q := fun k p _ => ∀ x ∈ p.pend, k < w.num) (fun k _ => h.far k) (fun _ _ => hlt)
    eraseP := hcase (Q := fun k p _ => ∀ tid due st d, (tid, due, PhyNano.Ev.erase st d) ∈ p.pend → due = st + d) (fun k _ => h.eraseP k) (by
      intro tid due st d hm
      rw [q5] at hm
      rcases List.mem_append.1 hm with hm | hm
      · exact h.eraseP x.dst tid due st d hm
      · simp at hm)
    sig := fun y hy => h.sig y (List.mem_filter.1 hy).1
    oneWay := by
      intro n j
      dsimp only
      rw [hfc, hhc]
      have := h.oneWay n j
      by_cases hc : n = x.n ∧ j = x.dst
      · rw [if_pos hc, if_pos hc, hc.1, hc.2]
        omega
      · rw [if_neg hc, if_neg hc]
        omega
    either := by
      intro t' n i' f' hm j hj hji
      dsimp only
      rw [hfc, hhc]
      have := h.either t' n i' f' hm j hj hji
      by_cases hc : n = x.n ∧ j = x.dst
      · rw [if_pos hc, if_pos hc, hc.1, hc.2]
        omega
      · rw [if_neg hc, if_neg hc]
        omega
    heardLt := hcase (Q := fun _ _ l => ∀ n ∈ l, n < s.frames.length) (fun k _ => h.heardLt k) (by
      intro n hn
      rcases List.mem_append.1 hn with hn | hn
      · exact h.heardLt _ n hn
      · rw [List.mem_singleton.1 hn]
        exact tx_lt h htx)
    rxRec := hcase (Q := fun k p l => ∀ r ∈ p.rx, ∃ n t a g, l[r.id]? = some n ∧
      AObs.tx t n a g ∈ s.air ∧ a ≠ k ∧ k < w.num ∧
      r.start = t + w.delay t a k ∧ r.dur = w.airtime a g.size ∧ r.pw = w.power t a k) (fun k _ => h.rxRec k) (by
      intro r hr
      rcases q7 r hr with ⟨r0, h0, e1, e2, e3, e4⟩ | ⟨e1, e2, e3, e4⟩
      · obtain ⟨n, t, a, g, h1, h2⟩ := h.rxRec x.dst r0 h0
        refine ⟨n, t, a, g, ?_, by rw [← e2, ← e3, ← e4]; exact h2⟩
        rw [e1] at h1
        obtain ⟨l1, -⟩ := List.getElem?_eq_some_iff.1 h1
        rw [List.getElem?_append_left l1]; exact h1
      · refine ⟨x.n, t, i, f, ?_, htx, hne, hlt, ?_, ?_, ?_⟩
        · rw [e1, ← h.heardLen, List.getElem?_append_right (le_refl _), Nat.sub_self]; rfl
        · rw [e2, h.pnow, ← hnow, hd]
        · rw [e3, hdur]
        · rw [e4, hpw])
    rxAir := by
      intro t' n k g hm
      obtain ⟨h1, t1, a, h2, h3, h4, h5, id, h6, h7⟩ := h.rxAir t' n k g hm
      refine ⟨h1, t1, a, h2, h3, h4, h5, id, hget h6, ?_⟩
      dsimp only
      by_cases hj : k = x.dst
      · subst hj
        rw [Function.update_self]
        intro r hr hid
        rw [q6]
        rcases q7 r hr with ⟨r0, h0, e1, -⟩ | ⟨e1, -⟩
        · exact h7 r0 h0 (e1.trans hid)
        · exfalso
          obtain ⟨l1, -⟩ := List.getElem?_eq_some_iff.1 h6
          rw [h.heardLen] at l1
          omega
      · rw [Function.update_of_ne hj]
        exact h7
    rxOnce := h.rxOnce }

/-- Time passes. -/
theorem Inv.tick {w : World P} {s : St P} (h : Inv w s) (hidle : Idle s) {d : Nat} (ha : allowed w s (.tick d) = true) :
    Inv w (NStack.tick w d s) := by
  simp only [allowed, Bool.and_eq_true, List.all_eq_true, decide_eq_true_eq, List.mem_range] at ha
  have e : ∀ i, PhyNano.step (w.pcfg i) (s.phy i) (.advance d) = { s.phy i with now := (s.phy i).now + d } := by
    intro i
    simp only [PhyNano.step]
    rw [if_pos (hidle i)]
  have hs : NStack.tick w d s = { s with now := s.now + d, phy := fun i => { s.phy i with now := (s.phy i).now + d } } := by
    unfold NStack.tick
    congr 1
    funext i
    exact e i
  rw [hs]
  exact {
    reach := h.reach
    phyR := by
      intro i
      obtain ⟨ops, e1⟩ := h.phyR i
      refine ⟨ops ++ [.advance d], ?_⟩
      rw [← phy_snoc, ← e1, e i]
    pnow := by
      intro i
      show (s.phy i).now + (d : ℤ) = s.now + d
      rw [h.pnow]
    accLen := h.accLen
    heardLen := h.heardLen
    handed := by
      intro t i f hm
      obtain ⟨h1, h2, h3⟩ := h.handed t i f hm
      refine ⟨h1, ?_, h3⟩
      show t ≤ s.now + (d : ℤ)
      omega
    accHand := h.accHand
    txAir := by
      intro t n i f hm
      obtain ⟨h1, h2, h3, h4⟩ := h.txAir t n i f hm
      refine ⟨h1, h2, ?_, h4⟩
      show t ≤ s.now + (d : ℤ)
      omega
    txNos := h.txNos
    launchP := h.launchP
    txRec := h.txRec
    pendDue := fun i x hx => (ha.2 i (h.far i x hx)).1 x hx
    far := h.far
    eraseP := h.eraseP
    sig := fun x hx => ⟨ha.1 x hx, (h.sig x hx).2⟩
    oneWay := h.oneWay
    either := h.either
    heardLt := h.heardLt
    rxRec := h.rxRec
    rxAir := by
      intro t n j f hm
      obtain ⟨h1, h2⟩ := h.rxAir t n j f hm
      refine ⟨?_, h2⟩
      show t ≤ s.now + (d : ℤ)
      omega
    rxOnce := h.rxOnce }

/-- A reception is reported. -/
theorem Inv.rxLog {w : World P} {s : St P} (h : Inv w s) {t0 : ℤ} {n a j : Nat} {f : Frame} {id : Nat} (htx : AObs.tx t0 n a f ∈ s.air)
    (hne : a ≠ j) (hj : j < w.num) (ht : s.now = t0 + w.delay t0 a j + w.airtime a f.size) (hid : (s.heard j)[id]? = some n)
    (hin : ∀ r ∈ (s.phy j).rx, r.id = id → (s.phy j).inside = some id) (hno : ∀ t f, AObs.rx t n j f ∉ s.air) :
    Inv w { s with air := s.air ++ [.rx s.now n j f] } := by
  have hold : ∀ {o}, o ∈ s.air → o ∈ s.air ++ [AObs.rx s.now n j f] := fun h => List.mem_append_left _ h
  have htx' : ∀ {t n' i g}, AObs.tx t n' i g ∈ s.air ++ [AObs.rx s.now n j f] → AObs.tx t n' i g ∈ s.air := by
    intro t n' i g hm
    rcases List.mem_append.1 hm with hm | hm
    · exact hm
    · simp at hm
  exact {
    reach := h.reach
    phyR := h.phyR
    pnow := h.pnow
    accLen := h.accLen
    heardLen := h.heardLen
    handed := by
      intro t i g hm
      rcases List.mem_append.1 hm with hm | hm
      · exact h.handed t i g hm
      · simp at hm
    accHand := by
      intro t i g st hm
      rcases List.mem_append.1 hm with hm | hm
      · obtain ⟨h1, h2⟩ := h.accHand t i g st hm
        exact ⟨hold h1, h2⟩
      · simp at hm
    txAir := by
      intro t n' i g hm
      obtain ⟨h1, h2, h3, t1, h4⟩ := h.txAir t n' i g (htx' hm)
      exact ⟨h1, h2, h3, t1, hold h4⟩
    txNos := by
      show (s.air ++ [_]).filterMap txNo = _
      rw [List.filterMap_append, h.txNos]
      exact List.append_nil _
    launchP := by
      intro i tid due id dur hm
      obtain ⟨g, t1, h1, h2, h3, h4⟩ := h.launchP i tid due id dur hm
      exact ⟨g, t1, h1, h2, hold h3, h4⟩
    txRec := by
      intro i r hr
      obtain ⟨g, t1, h1, h2, h3⟩ := h.txRec i r hr
      exact ⟨g, t1, h1, hold h2, h3⟩
    pendDue := h.pendDue
    far := h.far
    eraseP := h.eraseP
    sig := by
      intro x hx
      obtain ⟨h0, t, i, g, h1, h2⟩ := h.sig x hx
      exact ⟨h0, t, i, g, hold h1, h2⟩
    oneWay := h.oneWay
    either := fun t n' i g hm => h.either t n' i g (htx' hm)
    heardLt := h.heardLt
    rxRec := by
      intro k r hr
      obtain ⟨n', t, b, g, h1, h2, h3⟩ := h.rxRec k r hr
      exact ⟨n', t, b, g, h1, hold h2, h3⟩
    rxAir := by
      intro t n' k g hm
      rcases List.mem_append.1 hm with hm | hm
      · obtain ⟨h1, t1, b, h2, h3⟩ := h.rxAir t n' k g hm
        exact ⟨h1, t1, b, hold h2, h3⟩
      · simp only [List.mem_singleton, AObs.rx.injEq] at hm
        obtain ⟨rfl, rfl, rfl, rfl⟩ := hm
        exact ⟨le_refl _, t0, a, hold htx, hne, hj, ht, id, hid, hin⟩
    rxOnce := by
      intro n' k
      show (s.air ++ [_]).countP _ ≤ 1
      rw [List.countP_append]
      by_cases hc : n' = n ∧ k = j
      · obtain ⟨rfl, rfl⟩ := hc
        have : s.air.countP (isRx n' k) = 0 := by
          rw [List.countP_eq_zero]
          intro o ho hk
          cases o <;> simp only [isRx, decide_eq_true_eq, Bool.false_eq_true] at hk
          obtain ⟨rfl, rfl⟩ := hk
          exact hno _ _ ho
        rw [this]
        exact Nat.zero_add _ ▸ List.countP_le_length
      · have h1 := h.rxOnce n' k
        have h2 : ([AObs.rx s.now n j f]).countP (isRx n' k) = 0 := by
          rw [List.countP_eq_zero]
          intro o ho hk
          rw [List.mem_singleton.1 ho] at hk
          simp only [isRx, decide_eq_true_eq] at hk
          exact hc ⟨hk.1.symm, hk.2.symm⟩
        omega }

/-! ## Operations -/

/-- What an event of PHY `i` does. -/
inductive PMove (w : World P) (s : St P) (i : Nat) : St P → Prop
  | none : PMove w s i s
  | launch {tid id : Nat} {f : Frame} {t0 : ℤ} {p' : PhyNano.St P} {a b : List (Nat × ℤ × PhyNano.Ev P)}
      (hp : (s.phy i).pend = a ++ (tid, s.now, .launch id (w.airtime i f.size)) :: b)
      (hacc : AObs.accepted t0 i f s.now ∈ s.air)
      (e : p' = { s.phy i with
        now := s.now, log := (s.phy i).log ++ [.onAir s.now id], pend := a ++ b ++ [((s.phy i).nextTid, s.now + (w.airtime i f.size : ℤ), .txDone id)]
        nextTid := (s.phy i).nextTid + 1 })
      (hs : p' = PhyNano.step (w.pcfg i) (s.phy i) (.fire tid)) (hf : (s.acc i)[id]? = some f) :
      PMove w s i { s with
        phy := Function.update s.phy i p'
        frames := s.frames ++ [f]
        flight := s.flight ++ ((List.range w.num).filter (fun j => j ≠ i)).map
          (fun j => ⟨s.now + w.delay s.now i j, s.frames.length, j, w.airtime i f.size, w.power s.now i j⟩)
        air := s.air ++ [.tx s.now s.frames.length i f] }
  | erase {tid : Nat} {a b : List (Nat × ℤ × PhyNano.Ev P)} {u v : List PhyNano.Tx} {r : PhyNano.Tx} {p' : PhyNano.St P}
      (hp : (s.phy i).pend = a ++ (tid, s.now, .erase r.start r.dur) :: b) (htx : (s.phy i).tx = u ++ r :: v) (hend : r.start + r.dur = s.now)
      (e : p' = { s.phy i with now := s.now, pend := a ++ b, tx := u ++ v, log := (s.phy i).log ++ [.forgotten s.now r.id] })
      (hs : p' = PhyNano.step (w.pcfg i) (s.phy i) (.fire tid)) :
      PMove w s i { s with phy := Function.update s.phy i p' }
  | quiet {tid : Nat} {a b : List (Nat × ℤ × PhyNano.Ev P)} {ev : PhyNano.Ev P} {p' : PhyNano.St P} {l : List (PhyNano.Obs P)}
      (hp : (s.phy i).pend = a ++ (tid, s.now, ev) :: b) (hev : ∀ id, ev = .rxDone id → ∀ r ∈ (s.phy i).rx, r.id ≠ id)
      (e : p' = { s.phy i with now := s.now, pend := a ++ b, log := (s.phy i).log ++ l })
      (hs : p' = PhyNano.step (w.pcfg i) (s.phy i) (.fire tid)) (hnl : ∀ id dur, ev ≠ .launch id dur) :
      PMove w s i { s with phy := Function.update s.phy i p' }
  | notice {tid : Nat} {a b : List (Nat × ℤ × PhyNano.Ev P)} {r : PhyNano.Rx P} {p' : PhyNano.St P} {n src : Nat} {t0 : ℤ} {f : Frame}
      (hp : (s.phy i).pend = a ++ (tid, s.now, .rxDone r.id) :: b) (hr : r ∈ (s.phy i).rx) (hend : r.start + r.dur = s.now)
      (hn : (s.heard i)[r.id]? = some n) (htx : AObs.tx t0 n src f ∈ s.air) (hne : src ≠ i)
      (hst : r.start = t0 + w.delay t0 src i) (hdur : r.dur = w.airtime src f.size)
      (hno : ∀ t f, AObs.rx t n i f ∉ s.air)
      (e : p' = { s.phy i with now := s.now, pend := a ++ b, inside := some r.id, log := (s.phy i).log ++ [.notice s.now r.id (!r.coll)] })
      (hs : p' = PhyNano.step (w.pcfg i) (s.phy i) (.fire tid)) :
      PMove w s i (phyRet w i (macStep w i 0 (.recv f (!r.coll))
        { s with phy := Function.update s.phy i p', air := s.air ++ if r.coll = true then [] else [.rx s.now n i f] }))

omit [AddCommMonoid P] in
theorem mem_pend {a b : List (Nat × ℤ × PhyNano.Ev P)} {x : Nat × ℤ × PhyNano.Ev P} {l : List (Nat × ℤ × PhyNano.Ev P)} (h : l = a ++ x :: b) :
    x ∈ l := by rw [h]; simp

theorem phyStep_move {w : World P} (hw : w.Wf) {s : St P} (h : Inv w s) (hidle : Idle s) {i tid : Nat} (hi : i < w.num)
    (ha : ∀ e ∈ (s.phy i).pend, e.1 = tid → e.2.1 ≤ s.now) : PMove w s i (phyStep w i tid s) := by
  unfold phyStep
  cases hf : (s.phy i).pend.find? (fun e => decide (e.1 = tid)) with
  | none => exact .none
  | some x =>
    obtain ⟨t, due, e⟩ := x
    have ht : t = tid := by simpa using List.find?_some hf
    subst ht
    have hm := List.mem_of_find?_eq_some hf
    have hle : due ≤ s.now := ha _ hm rfl
    have hge : s.now ≤ due := h.pendDue i _ hm
    have hdue : due = s.now := by omega
    subst hdue
    have hin := hidle i
    have hiv := h.phyI hw i
    have hnow := h.pnow i
    obtain ⟨a, b, hl, hc⟩ := phy_fire hiv hin hm (by rw [hnow])
    dsimp only
    cases e with
    | launch id dur =>
      dsimp only at hc ⊢
      obtain ⟨f, t0, h1, h2, h3, h4⟩ := h.launchP i _ _ _ _ hm
      subst h2
      rw [hnow] at hc
      have := PMove.launch (w := w) (p' := PhyNano.step (w.pcfg i) (s.phy i) (.fire t)) hl h3 hc rfl h1
      convert this using 1
      unfold launched
      dsimp only
      rw [h1]
      dsimp only
      rw [Int.toNat_natCast]
    | erase start dur =>
      dsimp only at hc ⊢
      rw [hnow] at hc
      rcases hc with ⟨u, v, r, h1, rfl, rfl, h4⟩ | ⟨h1, h2⟩
      · refine .erase hl h1 ?_ h4 rfl
        exact (h.eraseP i _ _ _ _ hm).symm
      · exact .quiet (l := []) hl (by simp) (by rw [List.append_nil]; exact h2) rfl (by simp)
    | txDone id =>
      dsimp only at hc ⊢
      rw [hnow] at hc
      exact .quiet hl (by simp) hc rfl (by simp)
    | rxDone id =>
      dsimp only at hc ⊢
      rcases hc with ⟨r, hr, rfl, h2⟩ | ⟨h1, h2⟩
      · obtain ⟨n, t0, src, f, g1, g2, g3, g4, g5, g6, g7⟩ := h.rxRec i r hr
        have hend : r.start + r.dur = s.now := by
          rcases hiv.rxPend r hr with h' | ⟨tid', h'⟩
          · rw [hin] at h'; cases h'
          · have := hiv.ends _ hm _ h' r.id rfl rfl
            simp only [Prod.mk.injEq] at this
            exact this.2.1.symm
        have hno : ∀ t f, AObs.rx t n i f ∉ s.air := by
          intro t' f' hc
          obtain ⟨-, -, -, -, -, -, -, id', k1, k2⟩ := h.rxAir t' n i f' hc
          have := k2 r hr (heard_unique h g1 k1)
          rw [hin] at this
          cases this
        rw [hnow] at h2
        have key := PMove.notice (w := w) (p' := PhyNano.step (w.pcfg i) (s.phy i) (.fire t)) hl hr hend g1 g2 g3 g5 g6 hno h2 rfl
        have hlast : (PhyNano.step (w.pcfg i) (s.phy i) (.fire t)).log.getLast? = some (.notice s.now r.id (!r.coll)) := by
          rw [h2]
          show ((s.phy i).log ++ [_]).getLast? = _
          rw [List.getLast?_concat]
        rw [hlast]
        dsimp only
        convert key using 2
        unfold report
        dsimp only
        rw [g1]
        dsimp only
        rw [(h.txAir _ _ _ _ g2).1]
        dsimp only
        congr 1
        cases r.coll <;> simp
      · have hlast : (PhyNano.step (w.pcfg i) (s.phy i) (.fire t)).log.getLast? = some (.over (s.phy i).now id) := by
          rw [h2]
          show ((s.phy i).log ++ [_]).getLast? = _
          rw [List.getLast?_concat]
        rw [hlast]
        rw [hnow] at h2
        exact .quiet hl (by rintro id' hid; cases hid; exact h1) h2 rfl (by simp)

theorem idle_update {s : St P} (h : Idle s) {i : Nat} {p : PhyNano.St P} (hp : p.inside = none) :
    Idle { s with phy := Function.update s.phy i p } := by
  intro j
  show (Function.update s.phy i p j).inside = _
  by_cases hj : j = i
  · subst hj; rw [Function.update_self]; exact hp
  · rw [Function.update_of_ne hj]; exact h j

/-- A frame that was transmitted was handed over by a MAC. -/
theorem Inv.tx_mac {w : World P} {s : St P} (h : Inv w s) {t : ℤ} {n i : Nat} {f : Frame} (h1 : AObs.tx t n i f ∈ s.air) :
    Nano.Obs.tx f ∈ (s.mac (w.addr i)).log := by
  obtain ⟨-, -, -, t0, h2⟩ := h.txAir t n i f h1
  exact (h.handed _ _ _ (h.accHand _ _ _ _ h2).1).1

/-- The state in which the MAC is told of a reception. -/
theorem Inv.noticed {w : World P} {s : St P} (h : Inv w s) (hidle : Idle s) {i : Nat} (hi : i < w.num) {tid : Nat}
    {a b : List (Nat × ℤ × PhyNano.Ev P)} {r : PhyNano.Rx P} {p' : PhyNano.St P} {n src : Nat} {t0 : ℤ} {f : Frame}
    (hp : (s.phy i).pend = a ++ (tid, s.now, .rxDone r.id) :: b) (hend : r.start + r.dur = s.now)
    (hn : (s.heard i)[r.id]? = some n) (htx : AObs.tx t0 n src f ∈ s.air) (hne : src ≠ i)
    (hst : r.start = t0 + w.delay t0 src i) (hdur : r.dur = w.airtime src f.size)
    (hno : ∀ t f, AObs.rx t n i f ∉ s.air)
    (e : p' = { s.phy i with now := s.now, pend := a ++ b, inside := some r.id, log := (s.phy i).log ++ [.notice s.now r.id (!r.coll)] })
    (hs : p' = PhyNano.step (w.pcfg i) (s.phy i) (.fire tid)) :
    Inv w { s with phy := Function.update s.phy i p', air := s.air ++ if r.coll = true then [] else [.rx s.now n i f] } := by
  have hq : Quieter (s.phy i) p' := by
    rw [e]
    refine ⟨(h.pnow i).symm, rfl, rfl, fun _ h => h, fun _ h => h, ?_, ?_⟩
    · intro x hx
      rw [hp]
      rcases List.mem_append.1 hx with hx | hx
      · exact List.mem_append_left _ hx
      · exact List.mem_append_right _ (List.mem_cons_of_mem _ hx)
    · intro id h1 r' hr' hid
      have := h1 r' hr' hid
      rw [hidle i] at this
      cases this
  rw [hs] at hq
  have h1 := h.quiet i (.fire tid) hq
  rw [← hs] at h1
  by_cases hc : r.coll = true
  · rw [if_pos hc, List.append_nil]
    exact h1
  · rw [if_neg hc]
    refine h1.rxLog (id := r.id) htx hne hi ?_ hn ?_ hno
    · show s.now = _
      omega
    · intro r' hr' hid
      show (Function.update s.phy i p' i).inside = _
      rw [Function.update_self, e]

theorem Inv.pmove {w : World P} (hw : w.Wf) {s s' : St P} (h : Inv w s) (hidle : Idle s) {i : Nat} (hi : i < w.num) (m : PMove w s i s') :
    Inv w s' ∧ Idle s' := by
  cases m with
  | none => exact ⟨h, hidle⟩
  | @launch tid id f t0 p' a b hp hacc e hs hf =>
    have h1 : PhyNano.step (w.pcfg i) (s.phy i) (.fire tid) = { s.phy i with
        log := (s.phy i).log ++ [.onAir (s.phy i).now id]
        pend := a ++ b ++ [((s.phy i).nextTid, (s.phy i).now + (w.airtime i f.size : ℤ), .txDone id)]
        nextTid := (s.phy i).nextTid + 1 } := by
      rw [← hs, e, ← h.pnow i]
    have h2 := h.launch (hidle i) hp hi rfl hacc rfl h1
    rw [← hs, Int.toNat_natCast] at h2
    refine ⟨h2, ?_⟩
    intro j
    show (Function.update s.phy i p' j).inside = _
    exact idle_update hidle (i := i) (p := p') (by rw [e]; exact hidle i) j
  | @erase tid a b u v r p' hp htx hend e hs =>
    have hq : Quieter (s.phy i) p' := by
      rw [e]
      refine ⟨(h.pnow i).symm, rfl, rfl, ?_, fun _ h => h, ?_, fun _ h => h⟩
      · intro x hx
        rw [htx]
        rcases List.mem_append.1 hx with hx | hx
        · exact List.mem_append_left _ hx
        · exact List.mem_append_right _ (List.mem_cons_of_mem _ hx)
      · intro x hx
        rw [hp]
        rcases List.mem_append.1 hx with hx | hx
        · exact List.mem_append_left _ hx
        · exact List.mem_append_right _ (List.mem_cons_of_mem _ hx)
    rw [hs] at hq
    have h1 := h.quiet i (.fire tid) hq
    rw [← hs] at h1
    exact ⟨h1, idle_update hidle (by rw [e]; exact hidle i)⟩
  | @quiet tid a b ev p' l hp hev e hs hnl =>
    have hq : Quieter (s.phy i) p' := by
      rw [e]
      refine ⟨(h.pnow i).symm, rfl, rfl, fun _ h => h, fun _ h => h, ?_, fun _ h => h⟩
      intro x hx
      rw [hp]
      rcases List.mem_append.1 hx with hx | hx
      · exact List.mem_append_left _ hx
      · exact List.mem_append_right _ (List.mem_cons_of_mem _ hx)
    rw [hs] at hq
    have h1 := h.quiet i (.fire tid) hq
    rw [← hs] at h1
    exact ⟨h1, idle_update hidle (by rw [e]; exact hidle i)⟩
  | @notice tid a b r p' n src t0 f hp hr hend hn htx hne hst hdur hno e hs =>
    have h1 := h.noticed hidle hi hp hend hn htx hne hst hdur hno e hs
    have h2 := h1.macStep hw hi 0 (.recv f (!r.coll)) (by
      cases r.coll
      · exact ⟨w.addr src, h.tx_mac htx⟩
      · trivial)
    refine ⟨h2.quiet i .ret (quiet_ret (h2.phyI hw i)), ?_⟩
    obtain ⟨-, -, -, -, k5, -⟩ := macStep_keeps w i 0 (.recv f (!r.coll))
      { s with phy := Function.update s.phy i p', air := s.air ++ if r.coll = true then [] else [.rx s.now n i f] }
    intro j
    unfold phyRet
    dsimp only
    by_cases hj : j = i
    · subst hj
      rw [Function.update_self]
      show (PhyNano.ret _).inside = _
      unfold PhyNano.ret
      split
      · assumption
      · rfl
    · rw [Function.update_of_ne hj, k5]
      show (Function.update s.phy i p' j).inside = _
      rw [Function.update_of_ne hj]
      exact hidle j

theorem Inv.step {w : World P} (hw : w.Wf) {s : St P} (h : Inv w s) (hidle : Idle s) (o : Op P) :
    Inv w (NStack.step w s o) ∧ Idle (NStack.step w s o) := by
  unfold NStack.step
  by_cases ha : allowed w s o = true
  swap
  · rw [if_neg ha]; exact ⟨h, hidle⟩
  rw [if_pos ha]
  have hmac : ∀ (i g : Nat) (op : Nano.Op), i < w.num → Nano.Allowed s.mac op →
      Inv w (NStack.macStep w i g op s) ∧ Idle (NStack.macStep w i g op s) := by
    intro i g op hi hop
    refine ⟨h.macStep hw hi g op hop, ?_⟩
    intro j
    rw [(macStep_keeps w i g op s).2.2.2.2.1 j]
    exact hidle j
  cases o with
  | enqueue i b dst => exact hmac i 0 _ (by simpa [allowed] using ha) trivial
  | mac i tid g =>
    simp only [allowed, Bool.and_eq_true, decide_eq_true_eq] at ha
    exact hmac i g _ ha.1 trivial
  | harvest i => exact hmac i 0 _ (by simpa [allowed] using ha) trivial
  | einit i => exact hmac i 0 _ (by simpa [allowed] using ha) trivial
  | phy i tid =>
    simp only [allowed, Bool.and_eq_true, decide_eq_true_eq, List.all_eq_true, Bool.or_eq_true] at ha
    refine h.pmove hw hidle ha.1 (phyStep_move hw h hidle ha.1 ?_)
    intro e he ht
    exact (ha.2 e he).resolve_left (fun hc => hc ht)
  | land n j junk =>
    dsimp only
    unfold NStack.land
    cases hf : s.flight.find? (fun x => decide (x.n = n ∧ x.dst = j)) with
    | none => exact ⟨h, hidle⟩
    | some x =>
      have hxp : x.n = n ∧ x.dst = j := by simpa using List.find?_some hf
      simp only [allowed, List.all_eq_true, Bool.or_eq_true, decide_eq_true_eq] at ha
      refine ⟨h.land hidle junk hf ((ha x (List.mem_of_find?_eq_some hf)).resolve_left (fun hc => hc hxp)), ?_⟩
      intro k
      show (Function.update s.phy j _ k).inside = _
      refine idle_update hidle (i := j) ?_ k
      rcases phy_arrive (w.pcfg j) (hidle j) x.dur x.pw junk with ⟨-, e⟩ | ⟨-, e⟩
      · rw [e]; exact hidle j
      · rw [e]; exact hidle j
  | tick d =>
    refine ⟨h.tick hidle ha, ?_⟩
    intro i
    show (PhyNano.step (w.pcfg i) (s.phy i) (.advance d)).inside = _
    simp only [PhyNano.step]
    rw [if_pos (hidle i)]
    exact hidle i

theorem after_snoc (w : World P) (ops : List (Op P)) (o : Op P) : after w (ops ++ [o]) = step w (after w ops) o := by
  unfold after
  rw [List.foldl_append]; rfl

theorem inv_after {w : World P} (hw : w.Wf) (ops : List (Op P)) : Inv w (after w ops) ∧ Idle (after w ops) := by
  induction ops using List.reverseRecOn with
  | nil => exact ⟨Inv.init w, fun _ => rfl⟩
  | append_singleton ops o ih =>
    rw [after_snoc]
    exact ih.1.step hw ih.2 o

end Thz.NStack
