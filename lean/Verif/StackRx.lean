import Verif.StackInv

/-!
# Undisturbed receptions succeed (helper lemmas for C105)

If, while a frame arrives at a device, that device does not transmit and nothing else arrives there, and the frame is strong enough,
then the device receives it.
-/

namespace Thz.Stack

open Thz
open Thz.Macro (Frame)

variable {P : Type}

/-! ## Times in the channel's log -/

theorem ch_times (s : Channel.St P) (h : Channel.Inv s) (o : Channel.Op P) :
    s.now ≤ (Channel.step s o).now ∧ ∀ t k n i p d pw, Channel.Obs.arrival t k n i p d pw ∈ (Channel.step s o).log →
      Channel.Obs.arrival t k n i p d pw ∈ s.log ∨ t ≤ (Channel.step s o).now := by
  have snoc : ∀ (x : Channel.Obs P) (l : List (Channel.Obs P)) (N : ℤ), (∀ t k n i p d pw, x = .arrival t k n i p d pw → t ≤ N) →
      ∀ t k n i p d pw, Channel.Obs.arrival t k n i p d pw ∈ l ++ [x] → Channel.Obs.arrival t k n i p d pw ∈ l ∨ t ≤ N := by
    intro x l N hx t k n i p d pw hm
    rcases List.mem_append.1 hm with hm | hm
    · exact .inl hm
    · exact .inr (hx _ _ _ _ _ _ _ (List.mem_singleton.1 hm).symm)
  cases o with
  | attach phy => exact ⟨le_refl _, snoc _ _ _ (by intros; simp_all)⟩
  | send a dur link =>
    show s.now ≤ (if link.length = s.devs.length then Channel.sendPacket a dur link s else s).now ∧ _
    show _ ∧ ∀ t k n i p d pw, _ ∈ (if link.length = s.devs.length then Channel.sendPacket a dur link s else s).log → _ ∨
      t ≤ (if link.length = s.devs.length then Channel.sendPacket a dur link s else s).now
    split
    · unfold Channel.sendPacket
      split
      · exact ⟨le_refl _, snoc _ _ _ (by intros; simp_all)⟩
      · exact ⟨le_refl _, snoc _ _ _ (by intros; simp_all)⟩
    · exact ⟨le_refl _, fun _ _ _ _ _ _ _ h => .inl h⟩
  | ret =>
    show s.now ≤ (Channel.ret s).now ∧ ∀ t k n i p d pw, _ ∈ (Channel.ret s).log → _ ∨ t ≤ (Channel.ret s).now
    unfold Channel.ret
    split <;> exact ⟨le_refl _, fun _ _ _ _ _ _ _ h => .inl h⟩
  | fire tid =>
    show s.now ≤ (if s.inside = none then Channel.fire tid s else s).now ∧ ∀ t k n i p d pw,
      _ ∈ (if s.inside = none then Channel.fire tid s else s).log → _ ∨ t ≤ (if s.inside = none then Channel.fire tid s else s).now
    split
    · unfold Channel.fire
      split
      · exact ⟨le_refl _, fun _ _ _ _ _ _ _ h => .inl h⟩
      · rename_i t due e hf
        have ha := h.ahead _ (List.mem_of_find?_eq_some hf)
        split
        · cases e with
          | txDone n a => exact ⟨ha, snoc _ _ _ (by intros; simp_all)⟩
          | rx i ne =>
            dsimp only [Channel.runEv]
            unfold Channel.receivePacket
            dsimp only
            split
            · exact ⟨ha, snoc _ _ _ (by intros; simp_all)⟩
            · refine ⟨ha, snoc _ _ _ ?_⟩
              intro t k n i p d pw e
              injection e with q
              exact le_of_eq q.symm
          | rxEnd i ne =>
            dsimp only [Channel.runEv]
            unfold Channel.receivePacketDone
            dsimp only
            split
            · exact ⟨ha, snoc _ _ _ (by intros; simp_all)⟩
            · exact ⟨ha, snoc _ _ _ (by intros; simp_all)⟩
          | del ne => exact ⟨ha, snoc _ _ _ (by intros; simp_all)⟩
        · exact ⟨le_refl _, fun _ _ _ _ _ _ _ h => .inl h⟩
    · exact ⟨le_refl _, fun _ _ _ _ _ _ _ h => .inl h⟩
  | advance d =>
    show s.now ≤ (if s.inside = none ∧ _ then _ else s).now ∧ ∀ t k n i p d' pw, _ ∈ (if s.inside = none ∧ _ then _ else s).log → _ ∨
      t ≤ (if s.inside = none ∧ _ then _ else s).now
    split
    · exact ⟨by dsimp only; omega, fun _ _ _ _ _ _ _ h => .inl h⟩
    · exact ⟨le_refl _, fun _ _ _ _ _ _ _ h => .inl h⟩

theorem ch_past (ops : List (Channel.Op P)) : ∀ t k n i p d pw,
    Channel.Obs.arrival t k n i p d pw ∈ (Channel.after ops).log → t ≤ (Channel.after ops).now := by
  induction ops using List.reverseRecOn with
  | nil => intro t k n i p d pw hm; cases hm
  | append_singleton ops o ih =>
    intro t k n i p d pw hm
    rw [ch_snoc] at hm ⊢
    obtain ⟨h1, h2⟩ := ch_times _ (Channel.inv_after ops) o
    rcases h2 _ _ _ _ _ _ _ hm with h3 | h3
    · exact le_trans (ih _ _ _ _ _ _ _ h3) h1
    · exact h3

/-! ## What an arrival is -/

theorem sent_data {w : World P} {s : St P} (h : Inv w s) {t : ℤ} {n a : Nat} {d : ℤ} {link : List (Nat × P)}
    (hs : Channel.Obs.sent t n a d link ∈ s.ch.log) :
    ∃ f, AObs.tx t n a f ∈ s.air ∧ a < w.num ∧ d = w.airtime a f ∧ link = w.links t a ∧ s.frames[n]? = some f := by
  obtain ⟨f, h1⟩ := h.sentAir _ _ _ _ _ hs
  obtain ⟨h2, h3, h4⟩ := h.airTx _ _ _ _ h1
  obtain ⟨x, z, hx⟩ := List.append_of_mem h4
  have hq := h.chi.sentOnce _ _ _ _ _ _ _ hx t a d link
  rw [hx] at hs
  rcases List.mem_append.1 hs with hs | hs
  · exact absurd hs hq.1
  · rcases List.mem_cons.1 hs with hs | hs
    · injection hs with q1 q2 q3 q4 q5
      exact ⟨f, h1, h2, q4, q5, h3⟩
    · exact absurd hs hq.2

/-- Transmissions are known by their number. -/
theorem tx_unique {w : World P} {s : St P} (h : Inv w s) {t t' : ℤ} {n a a' : Nat} {f f' : Frame}
    (h1 : AObs.tx t n a f ∈ s.air) (h2 : AObs.tx t' n a' f' ∈ s.air) : t = t' ∧ a = a' ∧ f = f' := by
  obtain ⟨-, e1, s1⟩ := h.airTx _ _ _ _ h1
  obtain ⟨-, e2, s2⟩ := h.airTx _ _ _ _ h2
  rw [e1] at e2
  obtain ⟨x, z, hx⟩ := List.append_of_mem s1
  have hs := h.chi.sentOnce _ _ _ _ _ _ _ hx t' a' (w.airtime a' f') (w.links t' a')
  rw [hx] at s2
  rcases List.mem_append.1 s2 with s2 | s2
  · exact absurd s2 hs.1
  · rcases List.mem_cons.1 s2 with s2 | s2
    · injection s2 with q1 q2 q3
      exact ⟨q1.symm, q3.symm, Option.some.inj e2⟩
    · exact absurd s2 hs.2

theorem arr_data {w : World P} {s : St P} (h : Inv w s) {ta : ℤ} {k n j p : Nat} {dur : ℤ} {pw : P}
    (ha : Channel.Obs.arrival ta k n j p dur pw ∈ s.ch.log) (hj : j < w.num) (hp : p = j) :
    ∃ t a f, AObs.tx t n a f ∈ s.air ∧ a < w.num ∧ a ≠ j ∧ ta = t + w.delay t a j ∧ dur = w.airtime a f ∧ pw = w.power t a j ∧
      ta ≤ s.ch.now := by
  obtain ⟨t, a, link, delay, h1, h2, h3, h4⟩ := h.chi.arrWhy ha
  obtain ⟨f, h5, h6, h7, h8, -⟩ := sent_data h h1
  subst h8
  unfold World.links at h2
  rw [List.getElem?_map, List.getElem?_range hj] at h2
  simp only [Option.map_some, Option.some.injEq, Prod.mk.injEq] at h2
  obtain ⟨ops, e⟩ := h.ch
  refine ⟨t, a, f, h5, h6, fun e => h4 (e.trans hp.symm), by rw [h3, ← h2.1], h7, h2.2.symm, ?_⟩
  rw [e] at ha ⊢
  exact ch_past ops _ _ _ _ _ _ _ ha

theorem mem_chRxs {j : Nat} {l : List (Nat × ℤ × Channel.Ev P)} {due : ℤ} {k n : Nat} {pw : P} (h : (due, (k, n), pw) ∈ chRxs j l) :
    ∃ t ne, (t, due, Channel.Ev.rxEnd j ne) ∈ l ∧ ne.k = k ∧ ne.n = n ∧ ne.pw = pw := by
  obtain ⟨⟨t, due', e⟩, hm, he⟩ := List.mem_filterMap.1 h
  cases e with
  | rxEnd i ne =>
    dsimp only at he
    split at he
    · rename_i hij
      subst hij
      have := Option.some.inj he
      simp only [Prod.mk.injEq] at this
      obtain ⟨rfl, ⟨h1, h2⟩, h3⟩ := this
      exact ⟨t, ne, hm, h1, h2, h3⟩
    · cases he
  | _ => cases he

theorem chRx_data {w : World P} {s : St P} (h : Inv w s) {j : Nat} (hj : j < w.num) {due : ℤ} {k n : Nat} {pw : P}
    (hm : (due, (k, n), pw) ∈ chRxs j s.ch.pend) :
    ∃ t a f, AObs.tx t n a f ∈ s.air ∧ a < w.num ∧ a ≠ j ∧ due = t + w.delay t a j + w.airtime a f ∧ pw = w.power t a j ∧
      t + w.delay t a j ≤ s.ch.now ∧ s.ch.now ≤ due := by
  obtain ⟨tid, ne, h1, rfl, rfl, rfl⟩ := mem_chRxs hm
  have hahead : s.ch.now ≤ due := h.chi.ahead _ h1
  obtain ⟨ta, h2, h3⟩ := h.chi.endDue _ h1 j ne rfl
  have hd := h.chi.evDev _ h1 j ne (.inr rfl)
  obtain ⟨t, a, f, k1, k2, k3, k4, k5, k6, k7⟩ := arr_data h h2 hj (dev_eq h hd).1
  refine ⟨t, a, f, k1, k2, k3, ?_, k6, ?_, hahead⟩
  · show due = _
    have h3' : due = ta + ne.dur := h3
    rw [h3', k4, k5]
  · rw [← k4]; exact k7

theorem finish_data {w : World P} {s : St P} (h : Inv w s) {t : ℤ} {k n j p : Nat} {pw : P}
    (hm : Channel.Obs.finish t k n j p pw ∈ s.ch.log) : ∃ t' a f, AObs.tx t' n a f ∈ s.air := by
  obtain ⟨x, z, hx⟩ := List.append_of_mem hm
  obtain ⟨t0, dur, h1, -⟩ := h.chi.why _ _ _ hx
  obtain ⟨t', a, link, delay, h2, -⟩ := h.chi.arrWhy (show _ ∈ s.ch.log by rw [hx]; exact List.mem_append_left _ h1)
  obtain ⟨f, h3⟩ := h.sentAir _ _ _ _ _ h2
  exact ⟨t', a, f, h3⟩

theorem countP_unique {α : Type} {p : α → Bool} {l : List α} (h : l.countP p ≤ 1) {x y : α} (hx : x ∈ l) (hy : y ∈ l) (px : p x = true)
    (py : p y = true) : x = y := by
  obtain ⟨a, b, rfl⟩ := List.append_of_mem hx
  rw [List.countP_append, List.countP_cons, if_pos px] at h
  rcases List.mem_append.1 hy with hy | hy
  · have := List.countP_pos_iff.2 ⟨y, hy, py⟩
    omega
  · rcases List.mem_cons.1 hy with hy | hy
    · exact hy.symm
    · have := List.countP_pos_iff.2 ⟨y, hy, py⟩
      omega

theorem arrived_le {w : World P} {s : St P} (h : Inv w s) (n i : Nat) : (arrivalsAt i s.ch.log).countP (fun x => x.2 = n) ≤ 1 := by
  by_contra hc
  have e : (arrivalsAt i s.ch.log).countP (fun x => x.2 = n) = Channel.arrivals n i s.ch.log := by
    unfold Channel.arrivals arrivalsAt
    generalize s.ch.log = l
    induction l with
    | nil => rfl
    | cons o l ih =>
      rw [List.countP_cons, ← ih, List.filterMap_cons]
      cases o with
      | arrival t k n' j p d pw =>
        by_cases hj : j = i
        · subst hj
          simp [Channel.isArrival, List.countP_cons]
        · simp [Channel.isArrival, hj]
      | _ => simp [Channel.isArrival]
  rw [e] at hc
  have hpos : 0 < Channel.arrivals n i s.ch.log := by omega
  obtain ⟨o, ho, hoi⟩ := List.countP_pos_iff.1 hpos
  cases o with
  | arrival t k n' j p d pw =>
    have h' : n' = n ∧ j = i := by simpa [Channel.isArrival] using hoi
    obtain ⟨rfl, rfl⟩ := h'
    obtain ⟨t0, a, link, delay, h5, -⟩ := h.chi.arrWhy ho
    obtain ⟨x, z, hx⟩ := List.append_of_mem h5
    have := h.chi.count _ _ _ _ _ _ _ hx j
    split at this <;> omega
  | _ => simp [Channel.isArrival] at hoi

theorem chRx_unique {w : World P} {s : St P} (h : Inv w s) {j n : Nat} {x y : ℤ × (Nat × Nat) × P} (hx : x ∈ chRxs j s.ch.pend)
    (hy : y ∈ chRxs j s.ch.pend) (px : x.2.1.2 = n) (py : y.2.1.2 = n) : x = y := by
  refine countP_unique (p := fun x => decide (x.2.1.2 = n)) ?_ hx hy (by simpa using px) (by simpa using py)
  have h1 := h.once n j
  have h2 := arrived_le h n j
  omega

theorem heard_nodup {w : World P} {s : St P} (h : Inv w s) {j : Nat} (hj : j < w.num) : ((s.heard j).map (·.2)).Nodup := by
  rw [List.nodup_iff_count_le_one]
  intro n
  rw [h.heard j hj]
  have := arrived_le h n j
  rw [List.count, List.countP_map]
  refine le_trans (le_of_eq ?_) this
  congr 1

/-! ## Undisturbed arrivals -/

/-- While transmission `n` (of frame `f` by `a`, started at `t`) arrives at device `j`, `j` does not transmit and no other
transmission arrives there.  (`j` may transmit from the moment it has been given the frame.) -/
structure Clean (w : World P) (air : List AObs) (t : ℤ) (n a : Nat) (f : Frame) (j : Nat) : Prop where
  own : ∀ x z t' n' f', air = x ++ AObs.tx t' n' j f' :: z →
    t' + w.airtime j f' < t + w.delay t a j ∨ t + w.delay t a j + w.airtime a f < t' ∨
      (t' = t + w.delay t a j + w.airtime a f ∧ AObs.rx t' n j f ∈ x)
  others : ∀ t' n' a' f', AObs.tx t' n' a' f' ∈ air → a' ≠ j → n' ≠ n →
    t' + w.delay t' a' j + w.airtime a' f' < t + w.delay t a j ∨ t + w.delay t a j + w.airtime a f < t' + w.delay t' a' j

theorem Clean.mono {w : World P} {air air' : List AObs} {t : ℤ} {n a : Nat} {f : Frame} {j : Nat} (h : Clean w air' t n a f j)
    (hs : ∃ more, air' = air ++ more) : Clean w air t n a f j := by
  obtain ⟨more, rfl⟩ := hs
  exact ⟨fun x z t' n' f' hm => h.own x (z ++ more) t' n' f' (by rw [hm]; simp),
    fun _ _ _ _ hm => h.others _ _ _ _ (List.mem_append_left _ hm)⟩

/-- Device `j` can receive this frame if nothing disturbs it. -/
structure Strong (w : World P) (t : ℤ) (a : Nat) (f : Frame) (j : Nat) : Prop where
  long : 0 < w.airtime a f
  loud : (w.pcfg j).loud (w.power t a j) = true
  sinr : (w.pcfg j).sinr (w.power t a j) [] = true

/-- The PHY is receiving copy `k` of transmission `n`. -/
def Locked (p : PhyMacro.St P) (hd : List (Nat × Nat)) (due : ℤ) (k n : Nat) : Prop :=
  ∃ id, hd[id]? = some (k, n) ∧ p.state = .rx ∧ p.pktRx = some id ∧ p.csBusyEnd = due

/-- More facts about every reachable state. -/
structure Und (w : World P) (s : St P) : Prop where
  past : ∀ t n i f, AObs.tx t n i f ∈ s.air → t ≤ s.ch.now
  recs : ∀ i < w.num, ∀ r ∈ (s.phy i).ongoing, r.start ≤ s.ch.now ∧ ∃ t n k a f, AObs.tx t n a f ∈ s.air ∧ a ≠ i ∧
    r.start = t + w.delay t a i ∧ r.dur = w.airtime a f ∧ (s.heard i)[r.id]? = some (k, n)
  lock : ∀ t n a f j, AObs.tx t n a f ∈ s.air → j < w.num → j ≠ a → Strong w t a f j → Clean w s.air t n a f j →
    (∀ due k pw, (due, (k, n), pw) ∈ chRxs j s.ch.pend → Locked (s.phy j) (s.heard j) due k n) ∧
    (∀ t' k p pw, Channel.Obs.finish t' k n j p pw ∈ s.ch.log → ∃ t', AObs.rx t' n j f ∈ s.air)

theorem Und.init (w : World P) : Und w (init w) :=
  ⟨fun _ _ _ _ h => (by cases h), fun _ _ _ h => (by cases h), fun _ _ _ _ _ h => (by cases h)⟩

/-! ### The PHY -/

theorem send_ongoing (n : Nat) (dur : ℤ) (p : PhyMacro.St P) : (PhyMacro.sendPacket n dur p).2.ongoing = p.ongoing := by
  unfold PhyMacro.sendPacket
  split <;> rfl

theorem conclude_ongoing (c : PhyMacro.Cfg P) (id : Nat) (pw : P) (p : PhyMacro.St P) :
    (PhyMacro.conclude c id pw p).ongoing = p.ongoing := by
  unfold PhyMacro.conclude
  dsimp only
  split_ifs <;> rfl

theorem fire_ongoing (c : PhyMacro.Cfg P) (t : Nat) (p : PhyMacro.St P) : (PhyMacro.fire c t p).ongoing = p.ongoing := by
  unfold PhyMacro.fire
  split
  · rfl
  · rename_i e _
    cases e with
    | txDone id => rfl
    | rxDone id pw => exact conclude_ongoing _ _ _ _

theorem arrive_ongoing (c : PhyMacro.Cfg P) (p : PhyMacro.St P) (dur : Nat) (pw : P) :
    (PhyMacro.step c p (.arrive dur pw)).ongoing = p.ongoing ++ [⟨p.nextId, p.now, dur, pw⟩] := by
  show (PhyMacro.receivePacket c dur pw p).ongoing = _
  unfold PhyMacro.receivePacket PhyMacro.sense
  dsimp only
  split_ifs <;> rfl

theorem sense_locks (c : PhyMacro.Cfg P) (id : Nat) (dur : ℤ) (pw : P) (q : PhyMacro.St P) (h1 : q.state ≠ .tx)
    (h2 : q.csBusy = false) (h3 : c.loud pw = true) (h4 : q.csBusyEnd < q.now + dur) :
    (PhyMacro.sense c id dur pw q).state = .rx ∧ (PhyMacro.sense c id dur pw q).pktRx = some id ∧
      (PhyMacro.sense c id dur pw q).csBusyEnd = q.now + dur := by
  unfold PhyMacro.sense
  rw [if_neg h1, if_pos ⟨h3, h4⟩, if_pos h2]
  exact ⟨rfl, rfl, rfl⟩

/-- The PHY locks on to an arriving frame. -/
theorem arrive_locks (c : PhyMacro.Cfg P) (p : PhyMacro.St P) (dur : Nat) (pw : P) (h1 : p.state ≠ .tx) (h2 : p.csBusy = false)
    (h3 : c.loud pw = true) (h4 : p.csBusyEnd < p.now + dur) :
    (PhyMacro.step c p (.arrive dur pw)).state = .rx ∧ (PhyMacro.step c p (.arrive dur pw)).pktRx = some p.nextId ∧
      (PhyMacro.step c p (.arrive dur pw)).csBusyEnd = p.now + dur := by
  exact sense_locks c p.nextId dur pw _ h1 h2 h3 h4

theorem conclude_ok (c : PhyMacro.Cfg P) (id : Nat) (pw : P) (q : PhyMacro.St P) (h1 : q.state = .rx) (h2 : q.pktRx = some id)
    (h4 : c.sinr pw (PhyMacro.interferers id q.now q.ongoing) = true) :
    (PhyMacro.conclude c id pw q).log = q.log ++ [.notice q.now id true] := by
  unfold PhyMacro.conclude
  rw [if_neg (fun h => h h1), if_pos h2.symm, if_pos h4]
  rfl

/-- The PHY that is locked on to a frame reports it when it ends. -/
theorem fire_ok (c : PhyMacro.Cfg P) {p : PhyMacro.St P} (hn : (p.pend.map (·.1)).Nodup) {t : Nat} {id : Nat} {pw : P}
    (hm : (t, p.now, PhyMacro.Ev.rxDone id pw) ∈ p.pend) (h1 : p.state = .rx) (h2 : p.pktRx = some id)
    (h4 : c.sinr pw (PhyMacro.interferers id p.now p.ongoing) = true) :
    noticesIn ((PhyMacro.fire c t p).log.drop p.log.length) = [(id, true)] := by
  have hf := find_tid hn hm
  have e3 : max p.now p.now = p.now := by omega
  unfold PhyMacro.fire
  rw [hf]
  dsimp only
  rw [e3]
  show noticesIn ((PhyMacro.receivePacketDone c id pw _).log.drop _) = _
  unfold PhyMacro.receivePacketDone
  refine (congrArg (fun l => noticesIn (l.drop p.log.length)) (conclude_ok c id pw _ ?_ ?_ ?_)).trans ?_
  · exact h1
  · exact h2
  · exact h4
  show noticesIn ((p.log ++ [_] ++ [_]).drop p.log.length) = _
  rw [List.append_assoc, List.drop_left]
  rfl

theorem conclude_cse (c : PhyMacro.Cfg P) (id : Nat) (pw : P) (p : PhyMacro.St P) :
    (PhyMacro.conclude c id pw p).csBusyEnd = p.csBusyEnd ∧ (PhyMacro.conclude c id pw p).now = p.now := by
  unfold PhyMacro.conclude
  dsimp only
  split_ifs <;> exact ⟨rfl, rfl⟩

/-- The end of carrier sense is the end of an arrival. -/
def CseOk (p : PhyMacro.St P) : Prop :=
  0 ≤ p.now ∧ (p.csBusyEnd = 0 ∨ ∃ r ∈ p.ongoing, p.csBusyEnd = r.start + r.dur)

theorem cse_step (c : PhyMacro.Cfg P) (p : PhyMacro.St P) (o : PhyMacro.Op P) (h : CseOk p) : CseOk (PhyMacro.step c p o) := by
  obtain ⟨h0, h1⟩ := h
  cases o with
  | send id dur =>
    show CseOk (PhyMacro.sendPacket id dur p).2
    unfold PhyMacro.sendPacket
    split <;> exact ⟨h0, h1⟩
  | advance d => exact ⟨by show 0 ≤ p.now + (d : ℤ); omega, h1⟩
  | fire t =>
    show CseOk (PhyMacro.fire c t p)
    unfold PhyMacro.fire
    split
    · exact ⟨h0, h1⟩
    · rename_i t' due e _
      have h2 : 0 ≤ max p.now due := le_max_of_le_left h0
      cases e with
      | txDone id => exact ⟨h2, h1⟩
      | rxDone id pw =>
        show CseOk (PhyMacro.conclude c id pw _)
        refine ⟨?_, ?_⟩
        · rw [(conclude_cse c id pw _).2]; exact h2
        · rw [(conclude_cse c id pw _).1, conclude_ongoing]; exact h1
  | arrive dur pw =>
    have e := arrive_ongoing c p dur pw
    have key : (PhyMacro.step c p (.arrive dur pw)).now = p.now ∧
        ((PhyMacro.step c p (.arrive dur pw)).csBusyEnd = p.csBusyEnd ∨
          (PhyMacro.step c p (.arrive dur pw)).csBusyEnd = p.now + dur) := by
      show (PhyMacro.receivePacket c dur pw p).now = _ ∧ ((PhyMacro.receivePacket c dur pw p).csBusyEnd = _ ∨
        (PhyMacro.receivePacket c dur pw p).csBusyEnd = _)
      unfold PhyMacro.receivePacket PhyMacro.sense
      dsimp only
      split_ifs
      · exact ⟨rfl, .inl rfl⟩
      · exact ⟨rfl, .inr rfl⟩
      · exact ⟨rfl, .inr rfl⟩
      · exact ⟨rfl, .inl rfl⟩
    refine ⟨by rw [key.1]; exact h0, ?_⟩
    rcases key.2 with k | k
    · rcases h1 with h1 | ⟨r, hr, h1⟩
      · exact .inl (k.trans h1)
      · exact .inr ⟨r, by rw [e]; exact List.mem_append_left _ hr, k.trans h1⟩
    · exact .inr ⟨_, by rw [e]; exact List.mem_append_right _ (List.mem_singleton.2 rfl), k⟩

theorem cse_after (c : PhyMacro.Cfg P) (ops : List (PhyMacro.Op P)) : CseOk (PhyMacro.after c ops) := by
  suffices ∀ p, CseOk p → CseOk (ops.foldl (PhyMacro.step c) p) from this _ ⟨le_refl _, .inl rfl⟩
  induction ops with
  | nil => exact fun p h => h
  | cons o ops ih => exact fun p h => ih _ (cse_step c p o h)

/-! ### All operations -/

theorem txs_sub {w : World P} {s s' : St P} (mv : Mv w s s') : ∀ t n a f, AObs.tx t n a f ∈ s.air → AObs.tx t n a f ∈ s'.air := by
  intro t n a f hm
  cases mv with
  | quiet _ _ hair => rw [hair]; exact hm
  | hand i f _ _ _ _ hair => rw [hair]; exact List.mem_append_left _ hm
  | txEnd _ _ _ _ _ _ _ _ _ hair => rw [hair]; exact hm
  | arrive _ _ _ _ _ _ _ _ _ _ _ hair => rw [hair]; exact hm
  | finish _ _ _ _ _ _ _ _ _ _ _ _ _ _ _ hair => rw [hair]; exact List.mem_append_left _ hm
  | tick _ _ _ hair => rw [hair]; exact hm

theorem air_more {w : World P} {s s' : St P} (mv : Mv w s s') : ∃ more, s'.air = s.air ++ more := by
  cases mv with
  | quiet _ _ hair => exact ⟨[], by rw [hair]; simp⟩
  | hand i f _ _ _ _ hair => exact ⟨_, hair⟩
  | txEnd _ _ _ _ _ _ _ _ _ hair => exact ⟨[], by rw [hair]; simp⟩
  | arrive _ _ _ _ _ _ _ _ _ _ _ hair => exact ⟨[], by rw [hair]; simp⟩
  | finish _ _ _ _ _ _ _ _ _ _ _ _ _ _ _ hair => exact ⟨_, hair⟩
  | tick _ _ _ hair => exact ⟨[], by rw [hair]; simp⟩

theorem Und.past' {w : World P} {s s' : St P} (h : Und w s) (mv : Mv w s s') : ∀ t n i f, AObs.tx t n i f ∈ s'.air → t ≤ s'.ch.now := by
  intro t n i f hm
  cases mv with
  | quiet _ _ hair hnow => rw [hair] at hm; rw [hnow]; exact h.past _ _ _ _ hm
  | hand i f _ _ _ _ hair hnow =>
    rw [hair] at hm; rw [hnow]
    rcases List.mem_append.1 hm with hm | hm
    · exact h.past _ _ _ _ hm
    · have := List.mem_singleton.1 hm
      cases this
      exact le_refl _
  | txEnd _ _ _ _ _ _ _ _ _ hair hnow => rw [hair] at hm; rw [hnow]; exact h.past _ _ _ _ hm
  | arrive _ _ _ _ _ _ _ _ _ _ _ hair hnow => rw [hair] at hm; rw [hnow]; exact h.past _ _ _ _ hm
  | finish _ _ _ _ _ _ _ _ _ _ _ _ _ _ _ hair hla hnow =>
    rw [hair] at hm; rw [hnow]
    rcases List.mem_append.1 hm with hm | hm
    · exact h.past _ _ _ _ hm
    · have := hla.1 _ hm
      cases this
  | tick _ _ _ hair hnow => rw [hair] at hm; rw [hnow]; have := h.past _ _ _ _ hm; omega

theorem Und.recs' {w : World P} {s s' : St P} (h : Und w s) (hi : Inv w s) (hi' : Inv w s') (mv : Mv w s s') :
    ∀ i < w.num, ∀ r ∈ (s'.phy i).ongoing, r.start ≤ s'.ch.now ∧ ∃ t n k a f, AObs.tx t n a f ∈ s'.air ∧ a ≠ i ∧
      r.start = t + w.delay t a i ∧ r.dur = w.airtime a f ∧ (s'.heard i)[r.id]? = some (k, n) := by
  have keep : (∀ i < w.num, (s'.phy i).ongoing = (s.phy i).ongoing) → s'.heard = s.heard → s.ch.now ≤ s'.ch.now →
      ∀ i < w.num, ∀ r ∈ (s'.phy i).ongoing, r.start ≤ s'.ch.now ∧ ∃ t n k a f, AObs.tx t n a f ∈ s'.air ∧ a ≠ i ∧
        r.start = t + w.delay t a i ∧ r.dur = w.airtime a f ∧ (s'.heard i)[r.id]? = some (k, n) := by
    intro h1 h2 h3 i hi r hr
    rw [h1 i hi] at hr
    obtain ⟨k1, t, n, k, a, f, k2, k3⟩ := h.recs i hi r hr
    refine ⟨le_trans k1 h3, t, n, k, a, f, txs_sub mv _ _ _ _ k2, ?_⟩
    rw [h2]; exact k3
  cases mv with
  | quiet hphy hheard _ hnow => exact keep (fun i _ => by rw [hphy]) hheard (le_of_eq hnow.symm)
  | hand j f _ _ hphy hheard _ hnow =>
    refine keep (fun i _ => ?_) hheard (le_of_eq hnow.symm)
    rw [hphy]
    by_cases e : i = j
    · subst e; rw [Function.update_self, send_ongoing]
    · rw [Function.update_of_ne e]
  | txEnd j _ _ _ _ _ _ hphy hheard _ hnow =>
    refine keep (fun i _ => ?_) hheard (le_of_eq hnow.symm)
    rw [hphy]
    by_cases e : i = j
    · subst e; rw [Function.update_self, fire_ongoing]
    · rw [Function.update_of_ne e]
  | finish j _ _ _ _ _ _ _ _ _ _ _ _ hphy hheard _ _ hnow =>
    refine keep (fun i _ => ?_) hheard (le_of_eq hnow.symm)
    rw [hphy]
    by_cases e : i = j
    · subst e; rw [Function.update_self, fire_ongoing]
    · rw [Function.update_of_ne e]
  | tick d hphy hheard _ hnow =>
    refine keep (fun i hi => ?_) hheard (by rw [hnow]; omega)
    rw [hphy i hi]; rfl
  | arrive j k n dur pw hj hdur hnew hlog hphy hheard hair hnow hrx hfin =>
    intro i hii r hr
    by_cases e : i = j
    · subst e
      rw [hphy, Function.update_self, arrive_ongoing] at hr
      rw [hheard, Function.update_self, hnow]
      rcases List.mem_append.1 hr with hr | hr
      · obtain ⟨k1, t, n, k, a, f, k2, k3, k4, k5, k6⟩ := h.recs i hii r hr
        exact ⟨k1, t, n, k, a, f, by rw [hair]; exact k2, k3, k4, k5, getElem?_snoc _ k6⟩
      · have hr := List.mem_singleton.1 hr
        obtain ⟨t, a, f, k1, k2, k3, k4, k5, k6, k7⟩ := arr_data hi' (show Channel.Obs.arrival s.ch.now k n i i dur pw ∈ s'.ch.log by
          rw [hlog]; exact List.mem_append_right _ (List.mem_singleton.2 rfl)) hii rfl
        have hp := (hi.node i hii).pnow
        have hl := (hi.node i hii).hlen
        rw [hr]
        refine ⟨le_of_eq hp, t, n, k, a, f, k1, k3, ?_, ?_, ?_⟩
        · show (s.phy i).now = _
          rw [hp, k4]
        · show ((dur.toNat : Nat) : ℤ) = _
          rw [Int.toNat_of_nonneg hdur, k5]
        · show (s.heard i ++ [(k, n)])[(s.phy i).nextId]? = _
          rw [hl]; simp
    · rw [hphy, Function.update_of_ne e] at hr
      rw [hheard, Function.update_of_ne e, hnow, hair]
      exact h.recs i hii r hr

theorem Und.lock' {w : World P} (hw : w.Wf) {s s' : St P} (h : Und w s) (hi : Inv w s) (hi' : Inv w s') (mv : Mv w s s') :
    ∀ t n a f j, AObs.tx t n a f ∈ s'.air → j < w.num → j ≠ a → Strong w t a f j → Clean w s'.air t n a f j →
    (∀ due k pw, (due, (k, n), pw) ∈ chRxs j s'.ch.pend → Locked (s'.phy j) (s'.heard j) due k n) ∧
    (∀ t' k p pw, Channel.Obs.finish t' k n j p pw ∈ s'.ch.log → ∃ t', AObs.rx t' n j f ∈ s'.air) := by
  intro t n a f j htx hj hja hst hcl
  have hcl0 : Clean w s.air t n a f j := hcl.mono (air_more mv)
  -- what is known before the step, if the transmission is not the one that starts now
  have old : AObs.tx t n a f ∈ s.air →
      (∀ due k pw, (due, (k, n), pw) ∈ chRxs j s.ch.pend → Locked (s.phy j) (s.heard j) due k n) ∧
      (∀ t' k p pw, Channel.Obs.finish t' k n j p pw ∈ s.ch.log → ∃ t', AObs.rx t' n j f ∈ s.air) :=
    fun hm => h.lock t n a f j hm hj hja hst hcl0
  -- while it arrives, now lies in its interval
  have win : ∀ {due : ℤ} {k : Nat} {pw : P}, (due, (k, n), pw) ∈ chRxs j s.ch.pend →
      due = t + w.delay t a j + w.airtime a f ∧ t + w.delay t a j ≤ s.ch.now ∧ s.ch.now ≤ due ∧ pw = w.power t a j := by
    intro due k pw hm
    obtain ⟨t1, a1, f1, k1, -, -, k4, k5, k6, k7⟩ := chRx_data hi hj hm
    obtain ⟨rfl, rfl, rfl⟩ := tx_unique hi' (txs_sub mv _ _ _ _ k1) htx
    exact ⟨k4, k6, k7, k5⟩
  -- no other arrival is pending then
  have alone : ∀ {due : ℤ} {k : Nat} {pw : P} {due' : ℤ} {k' n' : Nat} {pw' : P}, (due, (k, n), pw) ∈ chRxs j s.ch.pend →
      (due', (k', n'), pw') ∈ chRxs j s.ch.pend → n' = n := by
    intro due k pw due' k' n' pw' hm hm'
    by_contra hne
    obtain ⟨e1, e2, e3, -⟩ := win hm
    obtain ⟨t1, a1, f1, k1, -, k3, k4, -, k6, k7⟩ := chRx_data hi hj hm'
    rcases hcl0.others _ _ _ _ k1 k3 hne with q | q <;> omega
  cases mv with
  | quiet hphy hheard hair hnow hrx hfin =>
    rw [hphy, hheard, hair, hrx]
    rw [hair] at htx
    exact ⟨(old htx).1, fun t' k p pw hm => (old htx).2 _ _ _ _ (hfin _ _ _ _ _ _ hm)⟩
  | tick d hphy hheard hair hnow hrx hfin =>
    rw [hphy j hj, hheard, hair, hrx]
    rw [hair] at htx
    exact ⟨(old htx).1, fun t' k p pw hm => (old htx).2 _ _ _ _ (hfin _ _ _ _ _ _ hm)⟩
  | hand i g hii hfree hphy hheard hair hnow hrx hfin =>
    rw [hheard, hrx]
    have hin : (∃ due k pw, (due, (k, n), pw) ∈ chRxs j s.ch.pend) ∨ (∃ t' k p pw, Channel.Obs.finish t' k n j p pw ∈ s.ch.log) →
        AObs.tx t n a f ∈ s.air := by
      intro hh
      have : ∃ t1 a1 f1, AObs.tx t1 n a1 f1 ∈ s.air := by
        rcases hh with ⟨due, k, pw, hm⟩ | ⟨t', k, p, pw, hm⟩
        · obtain ⟨t1, a1, f1, k1, -⟩ := chRx_data hi hj hm
          exact ⟨t1, a1, f1, k1⟩
        · exact finish_data hi hm
      obtain ⟨t1, a1, f1, k1⟩ := this
      rw [hair] at htx
      rcases List.mem_append.1 htx with htx | htx
      · exact htx
      · have := List.mem_singleton.1 htx
        injection this with q1 q2
        have := (List.getElem?_eq_some_iff.1 (hi.airTx _ _ _ _ k1).2.1).1
        omega
    refine ⟨fun due k pw hm => ?_, fun t' k p pw hm => ?_⟩
    · have h1 := (old (hin (.inl ⟨_, _, _, hm⟩))).1 due k pw hm
      rw [hphy]
      by_cases e : j = i
      · exfalso
        subst e
        obtain ⟨e1, e2, e3, -⟩ := win hm
        rcases hcl.own s.air [] s.ch.now s.frames.length g hair with q | q | ⟨-, q⟩
        · have : (0 : ℤ) ≤ (w.airtime j g : ℤ) := Int.natCast_nonneg _
          omega
        · omega
        · have q1 := hi.once n j
          have q2 := arrived_le hi n j
          have q3 : 0 < s.air.countP (isRxAir n j) := List.countP_pos_iff.2 ⟨_, q, by simp [isRxAir]⟩
          have q4 : 0 < (chRxs j s.ch.pend).countP (fun z => decide (z.2.1.2 = n)) := List.countP_pos_iff.2 ⟨_, hm, by simp⟩
          omega
      · rw [Function.update_of_ne e]; exact h1
    · have hm := hfin _ _ _ _ _ _ hm
      obtain ⟨t2, h2⟩ := (old (hin (.inr ⟨_, _, _, _, hm⟩))).2 _ _ _ _ hm
      exact ⟨t2, by rw [hair]; exact List.mem_append_left _ h2⟩
  | txEnd i m tid due' hii hmem htid hphy hheard hair hnow hrx hfin =>
    rw [hheard, hair, hrx]
    rw [hair] at htx
    refine ⟨fun due k pw hm => ?_, fun t' k p pw hm => (old htx).2 _ _ _ _ (hfin _ _ _ _ _ _ hm)⟩
    have h1 := (old htx).1 due k pw hm
    rw [hphy]
    by_cases e : j = i
    · exfalso
      subst e
      obtain ⟨id, -, h2, -⟩ := h1
      rcases (hi.node j hj).tx with ⟨-, -, -, -, e⟩ | ⟨f', n', due2, t2, -, -, h3, -⟩
      · rw [e] at hmem; cases hmem
      · rw [h2] at h3; cases h3
    · rw [Function.update_of_ne e]; exact h1
  | arrive i k n' dur pw hii hdur hnew hlog hphy hheard hair hnow hrx hfin =>
    rw [hair] at htx
    refine ⟨fun due k2 pw2 hm => ?_, fun t' k p pw hm => ?_⟩
    · by_cases e : j = i
      · subst e
        have hlast : (s.ch.now + dur, (k, n'), pw) ∈ chRxs j s'.ch.pend := by
          rw [hrx, if_pos rfl]; exact List.mem_append_right _ (List.mem_singleton.2 rfl)
        rw [hphy, hheard, Function.update_self, Function.update_self]
        by_cases en : n' = n
        · subst en
          have heq := chRx_unique hi' (n := n') hm hlast rfl rfl
          simp only [Prod.mk.injEq] at heq
          obtain ⟨rfl, ⟨rfl, -⟩, rfl⟩ := heq
          obtain ⟨t1, a1, f1, k1, -, -, k4, k5, k6, k7⟩ := chRx_data hi' hj hm
          rw [hair] at k1
          obtain ⟨rfl, rfl, rfl⟩ := tx_unique hi k1 htx
          -- it starts now
          have harr := arr_data hi' (show Channel.Obs.arrival s.ch.now k2 n' j j dur pw2 ∈ s'.ch.log by
            rw [hlog]; exact List.mem_append_right _ (List.mem_singleton.2 rfl)) hj rfl
          obtain ⟨t3, a3, f3, m1, -, -, m4, m5, -, -⟩ := harr
          rw [hair] at m1
          obtain ⟨rfl, rfl, rfl⟩ := tx_unique hi m1 htx
          have hN := hi.node j hj
          have hPI := hN.inv (hw.ns j hj)
          have hntx : (s.phy j).state ≠ .tx := by
            intro hstx
            rcases hN.tx with ⟨-, -, h3, -, -⟩ | ⟨f', m, due2, t2, -, -, -, -, h5, -⟩
            · exact h3 hstx
            · have hmem : (due2, m) ∈ chTxs j s.ch.pend := by rw [h5]; exact List.mem_singleton.2 rfl
              obtain ⟨⟨tid, due3, ev⟩, q1, q2⟩ := List.mem_filterMap.1 hmem
              cases ev with
              | txDone m' a' =>
                dsimp only at q2
                split at q2
                · rename_i ha
                  subst ha
                  have := Option.some.inj q2
                  simp only [Prod.mk.injEq] at this
                  obtain ⟨rfl, rfl⟩ := this
                  obtain ⟨t4, d4, l4, r1, r2⟩ := hi.chi.txDue _ q1 m' a' rfl
                  obtain ⟨f4, r3, -, r5, -, -⟩ := sent_data hi r1
                  have r6 := h.past _ _ _ _ r3
                  have r7 := hi.chi.ahead _ q1
                  simp only at r2 r7
                  have : (0 : ℤ) ≤ (w.airtime a3 f3 : ℤ) := Int.natCast_nonneg _
                  have := hst.long
                  have := hw.ns _ hj
                  obtain ⟨x, z, hx⟩ := List.append_of_mem r3
                  rcases hcl0.own x z _ _ _ hx with q | q | ⟨q, -⟩ <;> omega
                · cases q2
              | _ => cases q2
          have hcs : (s.phy j).csBusy = false := by
            by_contra hcs
            have hcs : (s.phy j).csBusy = true := by simpa using hcs
            obtain ⟨⟨tid, due3, ev⟩, q1, id, pw3, q2, -⟩ := hPI.busy hcs
            simp only at q2
            subst q2
            have q3 : (due3, id, pw3) ∈ phyRxs (s.phy j).pend := mem_phyRxs.2 ⟨tid, q1⟩
            have q4 : (due3, (s.heard j).getD id (0, 0), pw3) ∈ chRxs j s.ch.pend := by
              rw [hN.rx]
              exact List.mem_map.2 ⟨_, q3, rfl⟩
            have hlt : id < (s.heard j).length := by
              rw [← hN.hlen]
              refine hPI.rxLt _ ?_
              rw [rxIds_eq]
              exact List.mem_map_of_mem (f := fun z : ℤ × Nat × P => z.2.1) q3
            have q5 : (s.heard j).getD id (0, 0) ∈ s.heard j := by
              rw [List.getD_eq_getElem?_getD, List.getElem?_eq_getElem hlt]
              exact List.getElem_mem hlt
            have q6 := hnew _ q5
            obtain ⟨t4, a4, f4, r1, -, r3, r4, -, r6, r7⟩ := chRx_data hi hj (k := ((s.heard j).getD id (0, 0)).1)
              (n := ((s.heard j).getD id (0, 0)).2) q4
            have : (0 : ℤ) ≤ (w.airtime a3 f3 : ℤ) := Int.natCast_nonneg _
            rcases hcl0.others _ _ _ _ r1 r3 q6 with q | q <;> omega
          have hend : (s.phy j).csBusyEnd < (s.phy j).now + dur.toNat := by
            have h2 := hst.long
            rw [Int.toNat_of_nonneg hdur, m5]
            obtain ⟨pops, ep⟩ := hN.phyR
            have hp := hN.pnow
            obtain ⟨q0, q1⟩ := (show CseOk (s.phy j) by rw [ep]; exact cse_after _ _)
            rcases q1 with q1 | ⟨r, q2, q3⟩
            · omega
            · obtain ⟨u1, t4, n4, k4, a4, f4, u2, u3, u4, u5, u6⟩ := h.recs j hj r q2
              have u7 := hnew _ (List.mem_of_getElem? u6)
              rcases hcl0.others _ _ _ _ u2 u3 u7 with q | q <;> omega
          obtain ⟨l1, l2, l3⟩ := arrive_locks (w.pcfg j) (s.phy j) dur.toNat pw2 hntx hcs (by rw [k5]; exact hst.loud) hend
          refine ⟨(s.phy j).nextId, ?_, l1, l2, ?_⟩
          · rw [hN.hlen]; simp
          · rw [l3, hN.pnow, Int.toNat_of_nonneg hdur]
        · exfalso
          rw [hrx, if_pos rfl] at hm
          rcases List.mem_append.1 hm with hm | hm
          · obtain ⟨e1, e2, e3, -⟩ := win hm
            obtain ⟨t1, a1, f1, k1, -, k3, k4, -, k6, k7⟩ := chRx_data hi' hj hlast
            have harr := arr_data hi' (show Channel.Obs.arrival s.ch.now k n' j j dur pw ∈ s'.ch.log by
              rw [hlog]; exact List.mem_append_right _ (List.mem_singleton.2 rfl)) hj rfl
            obtain ⟨t3, a3, f3, m1, -, -, m4, m5, -, -⟩ := harr
            obtain ⟨rfl, rfl, rfl⟩ := tx_unique hi' m1 k1
            rcases hcl.others _ _ _ _ k1 k3 en with q | q <;> omega
          · have := List.mem_singleton.1 hm
            simp only [Prod.mk.injEq] at this
            exact en this.2.1.2.symm
      · rw [hphy, hheard, Function.update_of_ne e, Function.update_of_ne e]
        rw [hrx, if_neg (fun e' => e e'.symm), List.append_nil] at hm
        exact (old htx).1 due k2 pw2 hm
    · rw [hair]
      exact (old htx).2 _ _ _ _ (hfin _ _ _ _ _ _ hm)
  | finish i k n' tid pw x y g la hii hc htid hf hphy hheard hair hla hnow hrx hfin =>
    have htx0 : AObs.tx t n a f ∈ s.air := by
      rw [hair] at htx
      rcases List.mem_append.1 htx with htx | htx
      · exact htx
      · have := hla.1 _ htx
        cases this
    by_cases e : j = i
    · subst e
      have hme : (s.ch.now, (k, n'), pw) ∈ chRxs j s.ch.pend := by rw [hc]; simp
      by_cases en : n' = n
      · subst en
        -- the end of this arrival
        obtain ⟨w1, w2, -, w4⟩ := win hme
        have hL := (old htx0).1 _ _ _ hme
        obtain ⟨id, l1, l2, l3, l4⟩ := hL
        have hN := hi.node j hj
        have hPI := hN.inv (hw.ns j hj)
        have hmine : (tid, (s.phy j).now, PhyMacro.Ev.rxDone id pw) ∈ (s.phy j).pend := by
          have hidx : (s.heard j).findIdx (fun z => decide (z.1 = k)) = id := by
            obtain ⟨hlt, hg⟩ := List.getElem?_eq_some_iff.1 l1
            rw [List.findIdx_eq hlt]
            refine ⟨by simp [hg], fun m hm => ?_⟩
            have hm' : m < (s.heard j).length := by omega
            simp only [decide_eq_false_iff_not]
            intro hk
            have h1 : ((s.heard j).map (·.1))[m]? = ((s.heard j).map (·.1))[id]? := by
              rw [List.getElem?_map, List.getElem?_map, List.getElem?_eq_getElem hm', List.getElem?_eq_getElem hlt, hg]
              simp [hk]
            have := (List.getElem?_inj (by simpa using hm') hN.hnd).1 h1
            omega
          rw [hidx] at htid
          unfold phyRxTid at htid
          obtain ⟨⟨tid2, due2, ev⟩, q1, q2⟩ := Option.map_eq_some_iff.1 htid
          simp only at q2
          subst q2
          have q3 := List.mem_of_find?_eq_some q1
          have q4 := List.find?_some q1
          cases ev with
          | rxDone id2 pw2 =>
            have : id2 = id := by simpa using q4
            subst this
            have q5 : (due2, id2, pw2) ∈ phyRxs (s.phy j).pend := mem_phyRxs.2 ⟨tid2, q3⟩
            have q6 : (due2, (s.heard j).getD id2 (0, 0), pw2) ∈ chRxs j s.ch.pend := by
              rw [hN.rx]
              exact List.mem_map.2 ⟨_, q5, rfl⟩
            have q7 : (s.heard j).getD id2 (0, 0) = (k, n') := by
              rw [List.getD_eq_getElem?_getD, l1]; rfl
            rw [q7] at q6
            have heq := chRx_unique hi (n := n') q6 hme rfl rfl
            simp only [Prod.mk.injEq] at heq
            rw [← heq.2.2, hN.pnow, ← heq.1]
            exact q3
          | txDone m => simp at q4
        have hno : PhyMacro.interferers id (s.phy j).now (s.phy j).ongoing = [] := by
          unfold PhyMacro.interferers
          rw [List.map_eq_nil_iff, List.filter_eq_nil_iff]
          intro r hr
          simp only [decide_eq_true_eq]
          rintro ⟨r1, r2⟩
          obtain ⟨u1, t4, n4, k4, a4, f4, u2, u3, u4, u5, u6⟩ := h.recs j hj r hr
          have hne : n4 ≠ n' := by
            rintro rfl
            obtain ⟨hlt, -⟩ := List.getElem?_eq_some_iff.1 u6
            have h1 : ((s.heard j).map (·.2))[r.id]? = ((s.heard j).map (·.2))[id]? := by
              rw [List.getElem?_map, List.getElem?_map, u6, l1]; rfl
            exact r1 ((List.getElem?_inj (by simpa using hlt) (heard_nodup hi hj)).1 h1)
          have hp := hN.pnow
          have : (0 : ℤ) ≤ (w.airtime a f : ℤ) := Int.natCast_nonneg _
          rcases hcl0.others _ _ _ _ u2 u3 hne with q | q <;> omega
        have hok := fire_ok (w.pcfg j) hPI.tid hmine l2 l3 (by rw [hno, w4]; exact hst.sinr)
        have hlae := hla.2 id hok
        have hgf : g = f := by
          have := (hi.airTx _ _ _ _ htx0).2.1
          exact Option.some.inj (hf.symm.trans this)
        refine ⟨fun due k2 pw2 hm => ?_, fun _ _ _ _ _ => ⟨s.ch.now, ?_⟩⟩
        · exfalso
          rw [hrx, if_pos rfl] at hm
          have h1 := hi.once n' j
          have h2 := arrived_le hi n' j
          rw [hc, List.countP_append, List.countP_cons] at h1
          have h3 : 0 < (x ++ y).countP (fun z => decide (z.2.1.2 = n')) := List.countP_pos_iff.2 ⟨_, hm, by simp⟩
          rw [List.countP_append] at h3
          simp only [decide_true, if_true] at h1
          omega
        · rw [hair, hlae, hgf]
          exact List.mem_append_right _ (List.mem_singleton.2 rfl)
      · refine ⟨fun due k2 pw2 hm => ?_, fun t' k3 p pw3 hm => ?_⟩
        · exfalso
          rw [hrx, if_pos rfl] at hm
          have hm0 : (due, (k2, n), pw2) ∈ chRxs j s.ch.pend := by
            rw [hc]
            rcases List.mem_append.1 hm with hm | hm
            · exact List.mem_append_left _ hm
            · exact List.mem_append_right _ (List.mem_cons_of_mem _ hm)
          exact en (alone hm0 hme)
        · rcases hfin _ _ _ _ _ _ hm with hm | ⟨hm, -⟩
          · obtain ⟨t2, h2⟩ := (old htx0).2 _ _ _ _ hm
            exact ⟨t2, by rw [hair]; exact List.mem_append_left _ h2⟩
          · exact absurd hm.symm en
    · refine ⟨fun due k2 pw2 hm => ?_, fun t' k3 p pw3 hm => ?_⟩
      · rw [hphy, hheard, Function.update_of_ne e]
        rw [hrx, if_neg (fun e' => e e'.symm)] at hm
        exact (old htx0).1 _ _ _ hm
      · rcases hfin _ _ _ _ _ _ hm with hm | ⟨-, hm⟩
        · obtain ⟨t2, h2⟩ := (old htx0).2 _ _ _ _ hm
          exact ⟨t2, by rw [hair]; exact List.mem_append_left _ h2⟩
        · exact absurd hm e

theorem und_after {w : World P} (hw : w.Wf) (ops : List Op) : Und w (after w ops) := by
  suffices ∀ s, Inv w s → Und w s → Und w (ops.foldl (Stack.step w) s) from this _ (.init w) (.init w)
  induction ops with
  | nil => exact fun s _ h => h
  | cons o ops ih =>
    intro s hi h
    obtain ⟨hi', mv⟩ := hi.move hw o
    exact ih _ hi' ⟨h.past' mv, h.recs' hi hi' mv, h.lock' hw hi hi' mv⟩

end Thz.Stack
