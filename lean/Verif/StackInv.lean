import Verif.StackNode
import Verif.MacroNetProps

/-!
# All devices in step with the channel (helper lemmas)

Every history of complete macro devices on one channel is, for the MACs alone, a history of a network of macro MACs
(`Macro.Reach`); for each PHY alone, a history of that PHY; and for the channel alone, a history of the channel.
-/

namespace Thz.Stack

open Thz
open Thz.Nano (Body bcast)
open Thz.Macro (Frame TidP Tq Th Tx txEvs anyHistory)

variable {P : Type}

/-! ## Views of the channel -/

/-- The channel's pending ends of transmissions of device `i`. -/
def chTxs (i : Nat) (l : List (Nat × ℤ × Channel.Ev P)) : List (ℤ × Nat) := l.filterMap (fun e => match e with
  | (_, due, .txDone n a) => if a = i then some (due, n) else none
  | _ => none)

/-- The channel's pending ends of arrivals at device `i`. -/
def chRxs (i : Nat) (l : List (Nat × ℤ × Channel.Ev P)) : List (ℤ × (Nat × Nat) × P) := l.filterMap (fun e => match e with
  | (_, due, .rxEnd j ne) => if j = i then some (due, (ne.k, ne.n), ne.pw) else none
  | _ => none)

/-- Copies and transmissions that arrived at device `i`. -/
def arrivalsAt (i : Nat) (l : List (Channel.Obs P)) : List (Nat × Nat) := l.filterMap (fun o => match o with
  | .arrival _ k n j _ _ _ => if j = i then some (k, n) else none
  | _ => none)

/-- Frames device `i` transmitted. -/
def txOf (i : Nat) (l : List AObs) : List Frame := l.filterMap (fun o => match o with
  | .tx _ _ j f => if j = i then some f else none
  | _ => none)

/-- Frames device `i` received without error. -/
def rxOf (i : Nat) (l : List AObs) : List Frame := l.filterMap (fun o => match o with
  | .rx _ _ j f => if j = i then some f else none
  | _ => none)

theorem chTxs_append (i : Nat) (a b : List (Nat × ℤ × Channel.Ev P)) : chTxs i (a ++ b) = chTxs i a ++ chTxs i b :=
  List.filterMap_append
theorem chRxs_append (i : Nat) (a b : List (Nat × ℤ × Channel.Ev P)) : chRxs i (a ++ b) = chRxs i a ++ chRxs i b :=
  List.filterMap_append
theorem arrivalsAt_append (i : Nat) (a b : List (Channel.Obs P)) : arrivalsAt i (a ++ b) = arrivalsAt i a ++ arrivalsAt i b :=
  List.filterMap_append
theorem txOf_append (i : Nat) (a b : List AObs) : txOf i (a ++ b) = txOf i a ++ txOf i b := List.filterMap_append
theorem rxOf_append (i : Nat) (a b : List AObs) : rxOf i (a ++ b) = rxOf i a ++ rxOf i b := List.filterMap_append

/-! ## Channel steps -/

theorem ch_snoc (ops : List (Channel.Op P)) (o : Channel.Op P) :
    Channel.after (ops ++ [o]) = Channel.step (Channel.after ops) o := by
  show List.foldl _ _ _ = _
  rw [List.foldl_append]; rfl

theorem ch_fire {s : Channel.St P} (h : Channel.Inv s) (hin : s.inside = none) {tid t : Nat} {due : ℤ} {e : Channel.Ev P}
    (hf : s.pend.find? (fun e => e.1 = tid) = some (t, due, e)) (hd : due ≤ s.now) :
    due = s.now ∧ ∃ a b, s.pend = a ++ (t, due, e) :: b ∧
      Channel.step s (.fire tid) = Channel.runEv e { s with pend := a ++ b } := by
  have hm := List.mem_of_find?_eq_some hf
  have h1 := h.ahead _ hm
  have h2 : due = s.now := le_antisymm hd h1
  obtain ⟨-, a, b, h3, h4⟩ := Channel.take_pend h.tid hf
  refine ⟨h2, a, b, h3, ?_⟩
  show (if s.inside = none then Channel.fire tid s else s) = _
  rw [if_pos hin]
  unfold Channel.fire
  rw [hf]
  dsimp only
  rw [if_pos, h4, h2]
  rw [List.all_eq_true]
  intro x hx
  have := h.ahead x hx
  simp only [decide_eq_true_eq]; omega

theorem fanout_chTxs (j : Nat) {a n : Nat} {now dur : ℤ} : ∀ (i tid k : Nat) (devs : List Nat) (link : List (Nat × P)),
    chTxs j (Channel.fanout a n now dur i tid k devs link) = [] ∧ chRxs j (Channel.fanout a n now dur i tid k devs link) = [] := by
  intro i tid k devs
  induction devs generalizing i tid k with
  | nil => intro link; cases link <;> exact ⟨rfl, rfl⟩
  | cons b devs ih =>
    intro link
    cases link with
    | nil => exact ⟨rfl, rfl⟩
    | cons l link =>
      obtain ⟨d, pw⟩ := l
      unfold Channel.fanout
      split
      · exact ih _ _ _ link
      · exact ih _ _ _ link

theorem ch_send {s : Channel.St P} {N i : Nat} (hdev : s.devs = List.range N) (hi : i < N) (dur : Nat) (link : List (Nat × P))
    (hl : link.length = N) :
    (Channel.step s (.send i dur link)).log = s.log ++ [.sent s.now s.nextN i dur link] ∧
    (Channel.step s (.send i dur link)).now = s.now ∧ (Channel.step s (.send i dur link)).devs = s.devs ∧
    (Channel.step s (.send i dur link)).inside = s.inside ∧ (Channel.step s (.send i dur link)).nextN = s.nextN + 1 ∧
    (∀ j, chTxs j (Channel.step s (.send i dur link)).pend =
      chTxs j s.pend ++ if i = j then [(s.now + dur, s.nextN)] else []) ∧
    (∀ j, chRxs j (Channel.step s (.send i dur link)).pend = chRxs j s.pend) := by
  have h1 : Channel.step s (.send i dur link) = Channel.sendPacket i dur link s := by
    show (if link.length = s.devs.length then _ else s) = _
    rw [if_pos (by rw [hl, hdev]; simp)]
  rw [h1]
  unfold Channel.sendPacket
  rw [if_pos (by rw [hdev]; simpa using hi)]
  refine ⟨rfl, rfl, rfl, rfl, rfl, fun j => ?_, fun j => ?_⟩
  · show chTxs j (s.pend ++ ([_] ++ _)) = _
    rw [chTxs_append, chTxs_append, (fanout_chTxs j _ _ _ _ _).1, List.append_nil]
    congr 1
    unfold chTxs
    simp only [List.filterMap_cons, List.filterMap_nil]
    split <;> rename_i h
    · split at h
      · cases h
      · rename_i h'; rw [if_neg h']
    · split at h
      · rename_i h'; rw [if_pos h', ← Option.some.inj h]
      · cases h
  · show chRxs j (s.pend ++ ([_] ++ _)) = _
    rw [chRxs_append, chRxs_append, (fanout_chTxs j _ _ _ _ _).2, List.append_nil]
    show chRxs j s.pend ++ [] = _
    rw [List.append_nil]

/-! ## The invariant -/

/-- Is this the reception of transmission `n` at device `i`? -/
def isRxAir (n i : Nat) : AObs → Bool
  | .rx _ n' i' _ => decide (n' = n ∧ i' = i)
  | _ => false

/-- Facts about every reachable state. -/
structure Inv (w : World P) (s : St P) : Prop where
  reach : Macro.Reach w.mcfg w.seq0 anyHistory s.mac
  ch : ∃ ops, s.ch = Channel.after ops
  inside : s.ch.inside = none
  devs : s.ch.devs = List.range w.num
  frames : s.frames.length = s.ch.nextN
  node : ∀ i < w.num, Node (w.pcfg i) s.ch.now s.frames (s.mac (w.addr i)) (s.phy i) (s.heard i) (chTxs i s.ch.pend)
    (chRxs i s.ch.pend) (txOf i s.air) (rxOf i s.air)
  heard : ∀ i < w.num, s.heard i = arrivalsAt i s.ch.log
  airTx : ∀ t n i f, AObs.tx t n i f ∈ s.air → i < w.num ∧ s.frames[n]? = some f ∧
    Channel.Obs.sent t n i (w.airtime i f) (w.links t i) ∈ s.ch.log
  sentAir : ∀ t n i d l, Channel.Obs.sent t n i d l ∈ s.ch.log → ∃ f, AObs.tx t n i f ∈ s.air
  airRx : ∀ t n i f, AObs.rx t n i f ∈ s.air → i < w.num ∧ s.frames[n]? = some f ∧
    ∃ k pw, Channel.Obs.finish t k n i i pw ∈ s.ch.log
  once : ∀ n i, s.air.countP (isRxAir n i) + (chRxs i s.ch.pend).countP (fun x => x.2.1.2 = n) ≤
    (arrivalsAt i s.ch.log).countP (fun x => x.2 = n)
  busy : ∀ t n i f, AObs.tx t n i f ∈ s.air → t + w.airtime i f ≤ s.ch.now ∨ (t + w.airtime i f, n) ∈ chTxs i s.ch.pend
  turn : ∀ t n t' n' i f f', AObs.tx t n i f ∈ s.air → AObs.tx t' n' i f' ∈ s.air → n < n' → t + w.airtime i f ≤ t'

theorem Inv.chi {w : World P} {s : St P} (h : Inv w s) : Channel.Inv s.ch := by
  obtain ⟨ops, e⟩ := h.ch
  rw [e]; exact Channel.inv_after ops

theorem attach_after (N : Nat) : (Channel.after ((List.range N).map .attach) : Channel.St P).devs = List.range N ∧
    (Channel.after ((List.range N).map .attach) : Channel.St P).inside = none ∧
    (Channel.after ((List.range N).map .attach) : Channel.St P).pend = [] ∧
    (Channel.after ((List.range N).map .attach) : Channel.St P).now = 0 ∧
    (Channel.after ((List.range N).map .attach) : Channel.St P).nextN = 0 ∧
    (Channel.after ((List.range N).map .attach) : Channel.St P).log = (List.range N).map .attached := by
  induction N with
  | zero => exact ⟨rfl, rfl, rfl, rfl, rfl, rfl⟩
  | succ N ih =>
    obtain ⟨h1, h2, h3, h4, h5, h6⟩ := ih
    have e : (Channel.after ((List.range (N + 1)).map .attach) : Channel.St P) =
        Channel.addDevice N (Channel.after ((List.range N).map .attach)) := by
      rw [List.range_succ, List.map_append]
      exact ch_snoc _ _
    rw [e]
    refine ⟨?_, h2, h3, h4, h5, ?_⟩
    · show _ ++ [N] = _
      rw [h1, List.range_succ]
    · show _ ++ [_] = _
      rw [h6, List.range_succ, List.map_append]; rfl

theorem Inv.init (w : World P) : Inv w (init w) := by
  obtain ⟨h1, h2, h3, h4, h5, h6⟩ := attach_after (P := P) w.num
  have hlog : ∀ o ∈ (Stack.init w).ch.log, ∃ i, o = Channel.Obs.attached i := by
    intro o ho
    have ho' : o ∈ (List.range w.num).map Channel.Obs.attached := by rw [← h6]; exact ho
    obtain ⟨i, -, e⟩ := List.mem_map.1 ho'
    exact ⟨i, e.symm⟩
  refine ⟨.init, ⟨_, rfl⟩, h2, h1, h5.symm, fun i hi => ?_, fun i hi => ?_, ?_, ?_, ?_, ?_,
    fun _ _ _ _ hm => (by cases hm), fun _ _ _ _ _ _ _ hm => (by cases hm)⟩
  · have e1 : chTxs i (Stack.init w).ch.pend = [] := by
      show chTxs i (Channel.after _).pend = _
      rw [h3]; rfl
    have e2 : chRxs i (Stack.init w).ch.pend = [] := by
      show chRxs i (Channel.after _).pend = _
      rw [h3]; rfl
    have e3 : (Stack.init w).ch.now = 0 := h4
    rw [e1, e2, e3]
    exact ⟨.init _, ⟨[], rfl⟩, rfl, rfl, rfl, .inl ⟨rfl, rfl, by show PhyMacro.State.idle ≠ _; decide, rfl, rfl⟩, rfl, by
      show List.Nodup []; simp, rfl, rfl, rfl⟩
  · show [] = arrivalsAt i (Stack.init w).ch.log
    symm
    unfold arrivalsAt
    rw [List.filterMap_eq_nil_iff]
    intro o ho
    obtain ⟨j, rfl⟩ := hlog o ho
    rfl
  · intro t n i f hm; cases hm
  · intro t n i d l hm
    obtain ⟨j, e⟩ := hlog _ hm
    cases e
  · intro t n i f hm; cases hm
  · intro n i
    have e2 : chRxs i (Stack.init w).ch.pend = [] := by
      show chRxs i (Channel.after _).pend = _
      rw [h3]; rfl
    rw [e2]
    exact Nat.zero_le _

/-- What one operation does to the PHYs, to the channel's pending ends of arrivals and to the record of the air. -/
inductive Mv (w : World P) (s s' : St P) : Prop
  | quiet (hphy : s'.phy = s.phy) (hheard : s'.heard = s.heard) (hair : s'.air = s.air) (hnow : s'.ch.now = s.ch.now)
      (hrx : ∀ j, chRxs j s'.ch.pend = chRxs j s.ch.pend)
      (hfin : ∀ t k n i p pw, Channel.Obs.finish t k n i p pw ∈ s'.ch.log → Channel.Obs.finish t k n i p pw ∈ s.ch.log)
  | hand (i : Nat) (f : Frame) (hi : i < w.num) (hfree : chTxs i s.ch.pend = [])
      (hphy : s'.phy = Function.update s.phy i (PhyMacro.sendPacket s.frames.length (w.airtime i f) (s.phy i)).2)
      (hheard : s'.heard = s.heard) (hair : s'.air = s.air ++ [.tx s.ch.now s.frames.length i f]) (hnow : s'.ch.now = s.ch.now)
      (hrx : ∀ j, chRxs j s'.ch.pend = chRxs j s.ch.pend)
      (hfin : ∀ t k n i p pw, Channel.Obs.finish t k n i p pw ∈ s'.ch.log → Channel.Obs.finish t k n i p pw ∈ s.ch.log)
  | txEnd (i n t : Nat) (due : ℤ) (hi : i < w.num) (hmem : (due, n) ∈ chTxs i s.ch.pend)
      (htid : phyTxTid (s.phy i) = some t) (hphy : s'.phy = Function.update s.phy i (PhyMacro.fire (w.pcfg i) t (s.phy i)))
      (hheard : s'.heard = s.heard) (hair : s'.air = s.air) (hnow : s'.ch.now = s.ch.now)
      (hrx : ∀ j, chRxs j s'.ch.pend = chRxs j s.ch.pend)
      (hfin : ∀ t k n i p pw, Channel.Obs.finish t k n i p pw ∈ s'.ch.log → Channel.Obs.finish t k n i p pw ∈ s.ch.log)
  | arrive (i k n : Nat) (dur : ℤ) (pw : P) (hi : i < w.num) (hdur : 0 ≤ dur) (hnew : ∀ x ∈ s.heard i, x.2 ≠ n)
      (hlog : s'.ch.log = s.ch.log ++ [.arrival s.ch.now k n i i dur pw])
      (hphy : s'.phy = Function.update s.phy i (PhyMacro.step (w.pcfg i) (s.phy i) (.arrive dur.toNat pw)))
      (hheard : s'.heard = Function.update s.heard i (s.heard i ++ [(k, n)])) (hair : s'.air = s.air) (hnow : s'.ch.now = s.ch.now)
      (hrx : ∀ j, chRxs j s'.ch.pend = chRxs j s.ch.pend ++ if i = j then [(s.ch.now + dur, (k, n), pw)] else [])
      (hfin : ∀ t k n i p pw, Channel.Obs.finish t k n i p pw ∈ s'.ch.log → Channel.Obs.finish t k n i p pw ∈ s.ch.log)
  | finish (i k n t : Nat) (pw : P) (x y : List (ℤ × (Nat × Nat) × P)) (f : Frame) (la : List AObs) (hi : i < w.num)
      (hc : chRxs i s.ch.pend = x ++ (s.ch.now, (k, n), pw) :: y)
      (htid : phyRxTid ((s.heard i).findIdx (fun z => z.1 = k)) (s.phy i) = some t) (hf : s.frames[n]? = some f)
      (hphy : s'.phy = Function.update s.phy i (PhyMacro.fire (w.pcfg i) t (s.phy i)))
      (hheard : s'.heard = s.heard) (hair : s'.air = s.air ++ la)
      (hla : (∀ o ∈ la, o = .rx s.ch.now n i f) ∧
        ∀ id, noticesIn ((PhyMacro.fire (w.pcfg i) t (s.phy i)).log.drop (s.phy i).log.length) = [(id, true)] →
          la = [.rx s.ch.now n i f])
      (hnow : s'.ch.now = s.ch.now)
      (hrx : ∀ j, chRxs j s'.ch.pend = if i = j then x ++ y else chRxs j s.ch.pend)
      (hfin : ∀ t k' n' i' p pw', Channel.Obs.finish t k' n' i' p pw' ∈ s'.ch.log → Channel.Obs.finish t k' n' i' p pw' ∈ s.ch.log ∨
        (n' = n ∧ i' = i))
  | tick (d : Nat) (hphy : ∀ j < w.num, s'.phy j = PhyMacro.step (w.pcfg j) (s.phy j) (.advance d))
      (hheard : s'.heard = s.heard) (hair : s'.air = s.air) (hnow : s'.ch.now = s.ch.now + d)
      (hrx : ∀ j, chRxs j s'.ch.pend = chRxs j s.ch.pend)
      (hfin : ∀ t k n i p pw, Channel.Obs.finish t k n i p pw ∈ s'.ch.log → Channel.Obs.finish t k n i p pw ∈ s.ch.log)

/-! ## Operations of a MAC -/

theorem macStep_quiet (w : World P) (i : Nat) (op : Macro.Op) (s : St P) {l : List Macro.Obs}
    (hl : (Macro.step (w.mcfg (w.addr i)) (w.addr i) (s.mac (w.addr i)) op).log = (s.mac (w.addr i)).log ++ l)
    (hq : handedIn l = []) :
    macStep w i op s =
      { s with mac := Function.update s.mac (w.addr i) (Macro.step (w.mcfg (w.addr i)) (w.addr i) (s.mac (w.addr i)) op) } := by
  unfold macStep
  dsimp only
  rw [hl, List.drop_left, hq]; rfl

theorem macStep_hand (w : World P) (i : Nat) (op : Macro.Op) (s : St P) {l : List Macro.Obs} {f : Frame}
    (hl : (Macro.step (w.mcfg (w.addr i)) (w.addr i) (s.mac (w.addr i)) op).log = (s.mac (w.addr i)).log ++ l)
    (hq : handedIn l = [f]) :
    macStep w i op s = transmit w i f
      { s with mac := Function.update s.mac (w.addr i) (Macro.step (w.mcfg (w.addr i)) (w.addr i) (s.mac (w.addr i)) op) } := by
  unfold macStep
  dsimp only
  rw [hl, List.drop_left, hq]; rfl

theorem Tq.handed {m m' : Macro.St} (h : Tq m m') : ∃ l, m'.log = m.log ++ l ∧ handedIn l = [] := by
  obtain ⟨l, e, q⟩ := h.log
  exact ⟨l, e, by rw [handedIn_filter, q]; rfl⟩

/-- The MAC of another device is not changed. -/
theorem update_other {w : World P} (hw : w.Wf) {i j : Nat} (hi : i < w.num) (hj : j < w.num) (hij : j ≠ i) (f : Mac48 → Macro.St)
    (m : Macro.St) : Function.update f (w.addr i) m (w.addr j) = f (w.addr j) :=
  Function.update_of_ne (fun e => hij (hw.inj j hj i hi e)) _ _

/-- Replace the MAC of one device. -/
theorem Inv.mac {w : World P} (hw : w.Wf) {s : St P} (h : Inv w s) {i : Nat} (hi : i < w.num) (op : Macro.Op)
    (hop : Macro.Allowed s.mac op)
    (hn : Node (w.pcfg i) s.ch.now s.frames (Macro.step (w.mcfg (w.addr i)) (w.addr i) (s.mac (w.addr i)) op) (s.phy i) (s.heard i)
      (chTxs i s.ch.pend) (chRxs i s.ch.pend) (txOf i s.air) (rxOf i s.air)) :
    Inv w { s with mac := Function.update s.mac (w.addr i) (Macro.step (w.mcfg (w.addr i)) (w.addr i) (s.mac (w.addr i)) op) } := by
  refine ⟨.step _ op h.reach (hw.uni i hi) hop trivial, h.ch, h.inside, h.devs, h.frames, fun j hj => ?_, h.heard, h.airTx,
    h.sentAir, h.airRx, h.once, h.busy, h.turn⟩
  by_cases hij : j = i
  · subst hij
    dsimp only
    rw [Function.update_self]; exact hn
  · dsimp only
    rw [update_other hw hi hj hij]; exact h.node j hj

/-- A quiet operation of a MAC. -/
theorem Inv.quiet {w : World P} (hw : w.Wf) {s : St P} (h : Inv w s) {i : Nat} (hi : i < w.num) (op : Macro.Op)
    (hop : Macro.Allowed s.mac op)
    (hq : Tq (s.mac (w.addr i)) (Macro.step (w.mcfg (w.addr i)) (w.addr i) (s.mac (w.addr i)) op)) :
    Inv w (macStep w i op s) ∧ Mv w s (macStep w i op s) := by
  obtain ⟨l, e1, e2⟩ := Tq.handed hq
  rw [macStep_quiet w i op s e1 e2]
  exact ⟨h.mac hw hi op hop ((h.node i hi).quiet hq), .quiet rfl rfl rfl rfl (fun _ => rfl) (fun _ _ _ _ _ _ h => h)⟩

theorem getElem?_snoc {α : Type} {l : List α} {n : Nat} {f : α} (m : List α) (h : l[n]? = some f) : (l ++ m)[n]? = some f := by
  rw [List.getElem?_append_left (List.getElem?_eq_some_iff.1 h).1]; exact h

theorem Node.frames {c : PhyMacro.Cfg P} {now : ℤ} {fr : List Frame} {m : Macro.St} {p : PhyMacro.St P} {hd : List (Nat × Nat)}
    {ct : List (ℤ × Nat)} {cr : List (ℤ × (Nat × Nat) × P)} {txs rxs : List Frame} (h : Node c now fr m p hd ct cr txs rxs)
    (l : List Frame) : Node c now (fr ++ l) m p hd ct cr txs rxs := by
  refine ⟨h.tid, h.phyR, h.mnow, h.pnow, h.sense, ?_, h.rx, h.hnd, h.hlen, h.handed, h.got⟩
  rcases h.tx with h | ⟨f', n, due, t, h1, h2, h3, h4, h5, h6⟩
  · exact .inl h
  · exact .inr ⟨f', n, due, t, h1, h2, h3, h4, h5, getElem?_snoc l h6⟩

/-- A MAC hands a frame over. -/
theorem Inv.hand {w : World P} (hw : w.Wf) {s : St P} (h : Inv w s) {i : Nat} (hi : i < w.num) (op : Macro.Op)
    (hop : Macro.Allowed s.mac op) {f : Frame}
    (ht : Th (w.mcfg (w.addr i)) f (s.mac (w.addr i)) (Macro.step (w.mcfg (w.addr i)) (w.addr i) (s.mac (w.addr i)) op)) :
    Inv w (macStep w i op s) ∧ Mv w s (macStep w i op s) := by
  obtain ⟨l, e1, e2⟩ := ht.log
  have e3 : handedIn l = [f] := by rw [handedIn_filter, e2]; rfl
  rw [macStep_hand w i op s e1 e3]
  set m' := Macro.step (w.mcfg (w.addr i)) (w.addr i) (s.mac (w.addr i)) op with hm'
  have hdur : ((w.airtime i f : Nat) : ℤ) = (w.mcfg (w.addr i)).frameDur f := Int.toNat_of_nonneg (hw.dur i hi f)
  obtain ⟨k1, k2⟩ := (h.node i hi).hand ht hdur
  have hlen : (w.links s.ch.now i).length = w.num := by simp [World.links]
  obtain ⟨c1, c2, c3, c4, c5, c6, c7⟩ := ch_send h.devs hi (w.airtime i f) (w.links s.ch.now i) hlen
  obtain ⟨ops, eo⟩ := h.ch
  unfold transmit
  dsimp only
  rw [if_pos k1]
  have hfr : s.frames.length = s.ch.nextN := h.frames
  have free : chTxs i s.ch.pend = [] := by
    rcases (h.node i hi).tx with ⟨-, -, -, -, e⟩ | ⟨f, n, due, t, e, -⟩
    · exact e
    · rw [ht.free] at e; cases e
  refine ⟨?_, .hand i f hi free rfl rfl rfl c2 c7 ?_⟩
  swap
  · intro t k n j p pw hm
    dsimp only at hm
    rw [c1] at hm
    rcases List.mem_append.1 hm with hm | hm
    · exact hm
    · exact absurd (List.mem_singleton.1 hm) (by simp)
  refine ⟨.step _ op h.reach (hw.uni i hi) hop trivial, ⟨ops ++ [.send i (w.airtime i f) (w.links s.ch.now i)], ?_⟩,
    c4.trans h.inside, c3.trans h.devs, ?_, fun j hj => ?_, fun j hj => ?_, ?_, ?_, ?_, ?_, ?_, ?_⟩
  · dsimp only
    rw [ch_snoc, ← eo]
  · show (s.frames ++ [f]).length = (Channel.step s.ch _).nextN
    rw [c5, List.length_append, hfr]; rfl
  · show Node _ (Channel.step s.ch (.send i (w.airtime i f) (w.links s.ch.now i))).now (s.frames ++ [f])
      (Function.update s.mac (w.addr i) m' (w.addr j)) (Function.update s.phy i _ j) (s.heard j)
      (chTxs j (Channel.step s.ch (.send i (w.airtime i f) (w.links s.ch.now i))).pend)
      (chRxs j (Channel.step s.ch (.send i (w.airtime i f) (w.links s.ch.now i))).pend)
      (txOf j (s.air ++ [.tx s.ch.now s.frames.length i f])) (rxOf j (s.air ++ [.tx s.ch.now s.frames.length i f]))
    rw [c2, c6, c7, txOf_append, rxOf_append]
    have e4 : rxOf j [AObs.tx s.ch.now s.frames.length i f] = [] := rfl
    rw [e4, List.append_nil]
    by_cases hij : j = i
    · subst hij
      rw [Function.update_self, Function.update_self, if_pos rfl]
      have e5 : txOf j [AObs.tx s.ch.now s.frames.length j f] = [f] := by simp [txOf]
      rw [e5, ← hfr]
      exact k2
    · rw [update_other hw hi hj hij, Function.update_of_ne hij, if_neg (fun e => hij e.symm)]
      have e5 : txOf j [AObs.tx s.ch.now s.frames.length i f] = [] := by
        have : ¬ i = j := fun e => hij e.symm
        simp [txOf, this]
      rw [e5, List.append_nil, List.append_nil]
      exact (h.node j hj).frames _
  · show s.heard j = arrivalsAt j (Channel.step s.ch (.send i (w.airtime i f) (w.links s.ch.now i))).log
    rw [c1, arrivalsAt_append, h.heard j hj]
    show _ = arrivalsAt j s.ch.log ++ []
    rw [List.append_nil]
  · intro t n j g hm
    show j < w.num ∧ (s.frames ++ [f])[n]? = some g ∧ _ ∈ (Channel.step s.ch _).log
    rw [c1]
    rcases List.mem_append.1 hm with hm | hm
    · obtain ⟨h1, h2, h3⟩ := h.airTx t n j g hm
      exact ⟨h1, getElem?_snoc _ h2, List.mem_append_left _ h3⟩
    · have := List.mem_singleton.1 hm
      cases this
      refine ⟨hi, by simp, List.mem_append_right _ ?_⟩
      rw [hfr]; exact List.mem_singleton.2 rfl
  · intro t n j d l hm
    have hm' : Channel.Obs.sent t n j d l ∈ (Channel.step s.ch (.send i (w.airtime i f) (w.links s.ch.now i))).log := hm
    rw [c1] at hm'
    rcases List.mem_append.1 hm' with hm | hm
    · obtain ⟨g, hg⟩ := h.sentAir t n j d l hm
      exact ⟨g, List.mem_append_left _ hg⟩
    · have := List.mem_singleton.1 hm
      cases this
      refine ⟨f, List.mem_append_right _ ?_⟩
      rw [hfr]; exact List.mem_singleton.2 rfl
  · intro t n j g hm
    show j < w.num ∧ (s.frames ++ [f])[n]? = some g ∧ ∃ k pw, _ ∈ (Channel.step s.ch _).log
    rw [c1]
    rcases List.mem_append.1 hm with hm | hm
    · obtain ⟨h1, h2, k, pw, h3⟩ := h.airRx t n j g hm
      exact ⟨h1, getElem?_snoc _ h2, k, pw, List.mem_append_left _ h3⟩
    · have := List.mem_singleton.1 hm
      cases this
  · intro n j
    show (s.air ++ [_]).countP _ + (chRxs j (Channel.step s.ch (.send i (w.airtime i f) (w.links s.ch.now i))).pend).countP _ ≤
      (arrivalsAt j (Channel.step s.ch (.send i (w.airtime i f) (w.links s.ch.now i))).log).countP _
    rw [List.countP_append, c7, c1, arrivalsAt_append, List.countP_append]
    have := h.once n j
    simpa [isRxAir, arrivalsAt] using this
  · intro t n j g hm
    dsimp only
    rw [c2, c6]
    rcases List.mem_append.1 hm with hm | hm
    · rcases h.busy _ _ _ _ hm with h1 | h1
      · exact .inl h1
      · exact .inr (List.mem_append_left _ h1)
    · have := List.mem_singleton.1 hm
      cases this
      refine .inr (List.mem_append_right _ ?_)
      rw [if_pos rfl, hfr]; exact List.mem_singleton.2 rfl
  · intro t n t' n' j g g' hm hm' hlt
    rcases List.mem_append.1 hm with hm | hm
    · rcases List.mem_append.1 hm' with hm' | hm'
      · exact h.turn _ _ _ _ _ _ _ hm hm' hlt
      · have := List.mem_singleton.1 hm'
        cases this
        rcases h.busy _ _ _ _ hm with h1 | h1
        · exact h1
        · exact absurd h1 (by rw [free]; simp)
    · have := List.mem_singleton.1 hm
      cases this
      exfalso
      rcases List.mem_append.1 hm' with hm' | hm'
      · have := (List.getElem?_eq_some_iff.1 (h.airTx _ _ _ _ hm').2.1).1
        omega
      · have := List.mem_singleton.1 hm'
        cases this
        omega

/-! ## Events of the channel -/

/-- Put together the invariant after an event of the channel that concerns device `i` only. -/
theorem Inv.build {w : World P} {s s' : St P} (h : Inv w s) (i : Nat)
    (reach : Macro.Reach w.mcfg w.seq0 anyHistory s'.mac) (hch : ∃ ops, s'.ch = Channel.after ops) (hins : s'.ch.inside = none)
    (hdevs : s'.ch.devs = s.ch.devs) (hN : s'.ch.nextN = s.ch.nextN) (hnow : s'.ch.now = s.ch.now) (hfr : s'.frames = s.frames)
    (hmac : ∀ j < w.num, j ≠ i → s'.mac (w.addr j) = s.mac (w.addr j)) (hphy : ∀ j < w.num, j ≠ i → s'.phy j = s.phy j)
    (hhd : ∀ j < w.num, j ≠ i → s'.heard j = s.heard j)
    (htx : ∀ j, j ≠ i → chTxs j s'.ch.pend = chTxs j s.ch.pend) (hrx : ∀ j, j ≠ i → chRxs j s'.ch.pend = chRxs j s.ch.pend)
    {o : Channel.Obs P} (hlog : s'.ch.log = s.ch.log ++ [o]) (ho : ∀ t n a d l, o ≠ .sent t n a d l)
    (harr : ∀ j, j ≠ i → arrivalsAt j [o] = [])
    {la : List AObs} (hair : s'.air = s.air ++ la) (hla : ∀ x ∈ la, ∃ n f k pw, x = .rx s.ch.now n i f ∧ i < w.num ∧
      s.frames[n]? = some f ∧ o = .finish s.ch.now k n i i pw)
    (hnode : i < w.num → Node (w.pcfg i) s.ch.now s.frames (s'.mac (w.addr i)) (s'.phy i) (s'.heard i) (chTxs i s'.ch.pend)
      (chRxs i s'.ch.pend) (txOf i s.air) (rxOf i s.air ++ rxOf i la))
    (hheard : i < w.num → s'.heard i = s.heard i ++ arrivalsAt i [o])
    (honce : ∀ n, la.countP (isRxAir n i) + (chRxs i s'.ch.pend).countP (fun x => x.2.1.2 = n) ≤
      (chRxs i s.ch.pend).countP (fun x => x.2.1.2 = n) + (arrivalsAt i [o]).countP (fun x => x.2 = n))
    (hbusy : ∀ x ∈ chTxs i s.ch.pend, x ∈ chTxs i s'.ch.pend ∨ x.1 ≤ s.ch.now) : Inv w s' := by
  have htxla : ∀ j, txOf j la = [] := by
    intro j
    unfold txOf
    rw [List.filterMap_eq_nil_iff]
    intro x hx
    obtain ⟨n, f, k, pw, rfl, -⟩ := hla x hx
    rfl
  have hrxla : ∀ j, j ≠ i → rxOf j la = [] := by
    intro j hj
    unfold rxOf
    rw [List.filterMap_eq_nil_iff]
    intro x hx
    obtain ⟨n, f, k, pw, rfl, -⟩ := hla x hx
    have : ¬ i = j := fun e => hj e.symm
    simp [this]
  refine ⟨reach, hch, hins, hdevs.trans h.devs, by rw [hfr, hN]; exact h.frames, fun j hj => ?_, fun j hj => ?_, ?_, ?_, ?_, ?_,
    ?_, ?_⟩
  · rw [hnow, hfr, hair, txOf_append, rxOf_append, htxla, List.append_nil]
    by_cases e : j = i
    · subst e; exact hnode hj
    · rw [hmac j hj e, hphy j hj e, hhd j hj e, htx j e, hrx j e, hrxla j e, List.append_nil]
      exact h.node j hj
  · rw [hlog, arrivalsAt_append]
    by_cases e : j = i
    · subst e; rw [hheard hj, h.heard j hj]
    · rw [hhd j hj e, harr j e, List.append_nil, h.heard j hj]
  · intro t n j f hm
    rw [hair] at hm
    rcases List.mem_append.1 hm with hm | hm
    · obtain ⟨h1, h2, h3⟩ := h.airTx t n j f hm
      exact ⟨h1, by rw [hfr]; exact h2, by rw [hlog]; exact List.mem_append_left _ h3⟩
    · obtain ⟨_, _, _, _, e, _⟩ := hla _ hm
      cases e
  · intro t n a d l hm
    rw [hlog] at hm
    rcases List.mem_append.1 hm with hm | hm
    · obtain ⟨f, hf⟩ := h.sentAir t n a d l hm
      exact ⟨f, by rw [hair]; exact List.mem_append_left _ hf⟩
    · exact absurd (List.mem_singleton.1 hm).symm (ho _ _ _ _ _)
  · intro t n j f hm
    rw [hair] at hm
    rcases List.mem_append.1 hm with hm | hm
    · obtain ⟨h1, h2, k, pw, h3⟩ := h.airRx t n j f hm
      exact ⟨h1, by rw [hfr]; exact h2, k, pw, by rw [hlog]; exact List.mem_append_left _ h3⟩
    · obtain ⟨n', f', k, pw, e, h1, h2, h3⟩ := hla _ hm
      cases e
      exact ⟨h1, by rw [hfr]; exact h2, k, pw, by rw [hlog, h3]; exact List.mem_append_right _ (List.mem_singleton.2 rfl)⟩
  · intro n j
    have := h.once n j
    rw [hair, List.countP_append, hlog, arrivalsAt_append, List.countP_append]
    by_cases e : j = i
    · subst e
      have := honce n
      omega
    · have h0 : la.countP (isRxAir n j) = 0 := by
        rw [List.countP_eq_zero]
        intro x hx
        obtain ⟨n', f, k, pw, rfl, -⟩ := hla x hx
        have : ¬ i = j := fun e' => e e'.symm
        simp [isRxAir, this]
      rw [hrx j e, harr j e, h0]
      simpa using this
  · intro t n j f hm
    rw [hair] at hm
    rcases List.mem_append.1 hm with hm | hm
    · rw [hnow]
      rcases h.busy _ _ _ _ hm with h1 | h1
      · exact .inl h1
      · by_cases e : j = i
        · subst e
          exact (hbusy _ h1).symm
        · rw [htx j e]; exact .inr h1
    · obtain ⟨_, _, _, _, e, _⟩ := hla _ hm
      cases e
  · intro t n t' n' j f f' hm hm'
    have hin : ∀ {t n f}, AObs.tx t n j f ∈ s'.air → AObs.tx t n j f ∈ s.air := by
      intro t n f hm
      rw [hair] at hm
      rcases List.mem_append.1 hm with hm | hm
      · exact hm
      · obtain ⟨_, _, _, _, e, _⟩ := hla _ hm
        cases e
    exact h.turn _ _ _ _ _ _ _ (hin hm) (hin hm')

theorem tellSense_eq (w : World P) (i : Nat) (s : St P) : tellSense w i s =
    { s with mac := Function.update s.mac (w.addr i) (Macro.step (w.mcfg (w.addr i)) (w.addr i) (s.mac (w.addr i))
      (.sense (s.phy i).csBusy)) } :=
  macStep_quiet w i _ s (l := []) (by rw [List.append_nil]; rfl) rfl

theorem reach_sense {w : World P} (hw : w.Wf) {mac : Mac48 → Macro.St} (h : Macro.Reach w.mcfg w.seq0 anyHistory mac) {i : Nat}
    (hi : i < w.num) (b : Bool) :
    Macro.Reach w.mcfg w.seq0 anyHistory
      (Function.update mac (w.addr i) (Macro.step (w.mcfg (w.addr i)) (w.addr i) (mac (w.addr i)) (.sense b))) :=
  .step _ (.sense b) h (hw.uni i hi) trivial trivial

theorem onTxEnd_eq (w : World P) {i : Nat} {s : St P} {t t' : Nat} {l : List Macro.Obs} (h1 : phyTxTid (s.phy i) = some t)
    (h2 : macTxTid (s.mac (w.addr i)) = some t')
    (h3 : (Macro.step (w.mcfg (w.addr i)) (w.addr i) (Macro.step (w.mcfg (w.addr i)) (w.addr i) (s.mac (w.addr i))
      (.sense (PhyMacro.fire (w.pcfg i) t (s.phy i)).csBusy)) (.fire t')).log = (s.mac (w.addr i)).log ++ l)
    (h4 : handedIn l = []) : onTxEnd w i s =
      { s with
        phy := Function.update s.phy i (PhyMacro.fire (w.pcfg i) t (s.phy i))
        mac := Function.update s.mac (w.addr i) (Macro.step (w.mcfg (w.addr i)) (w.addr i) (Macro.step (w.mcfg (w.addr i)) (w.addr i)
          (s.mac (w.addr i)) (.sense (PhyMacro.fire (w.pcfg i) t (s.phy i)).csBusy)) (.fire t')) } := by
  unfold onTxEnd
  rw [h1, h2]
  dsimp only
  rw [tellSense_eq]
  unfold phyFire
  dsimp only
  rw [Function.update_self]
  rw [macStep_quiet w i (.fire t') _ (l := l) (by dsimp only; rw [Function.update_self]; exact h3) h4]
  dsimp only
  rw [Function.update_self, Function.update_idem]

theorem mem_split_chTxs (i : Nat) (x y : List (Nat × ℤ × Channel.Ev P)) (t : Nat) (due : ℤ) (n : Nat) :
    chTxs i (x ++ (t, due, .txDone n i) :: y) = chTxs i x ++ (due, n) :: chTxs i y := by
  rw [chTxs_append]
  congr 1
  unfold chTxs
  rw [List.filterMap_cons]
  simp

theorem other_chTxs {i a : Nat} (h : i ≠ a) (x y : List (Nat × ℤ × Channel.Ev P)) (t : Nat) (due : ℤ) (n : Nat) :
    chTxs i (x ++ (t, due, .txDone n a) :: y) = chTxs i (x ++ y) := by
  have h' : ¬ a = i := fun e => h e.symm
  rw [chTxs_append, chTxs_append]
  congr 1
  unfold chTxs
  rw [List.filterMap_cons]
  simp [h']

theorem mem_split_chRxs (i : Nat) (x y : List (Nat × ℤ × Channel.Ev P)) (t : Nat) (due : ℤ) (ne : Channel.Ne P) :
    chRxs i (x ++ (t, due, .rxEnd i ne) :: y) = chRxs i x ++ (due, (ne.k, ne.n), ne.pw) :: chRxs i y := by
  rw [chRxs_append]
  congr 1
  unfold chRxs
  rw [List.filterMap_cons]
  simp

theorem other_chRxs {i a : Nat} (h : i ≠ a) (x y : List (Nat × ℤ × Channel.Ev P)) (t : Nat) (due : ℤ) (ne : Channel.Ne P) :
    chRxs i (x ++ (t, due, .rxEnd a ne) :: y) = chRxs i (x ++ y) := by
  have h' : ¬ a = i := fun e => h e.symm
  rw [chRxs_append, chRxs_append]
  congr 1
  unfold chRxs
  rw [List.filterMap_cons]
  simp [h']

/-- The other kinds of events. -/
theorem drop_chTxs (i : Nat) (x y : List (Nat × ℤ × Channel.Ev P)) (t : Nat) (due : ℤ) (e : Channel.Ev P) (h : ∀ n a, e ≠ .txDone n a) :
    chTxs i (x ++ (t, due, e) :: y) = chTxs i (x ++ y) := by
  rw [chTxs_append, chTxs_append]
  congr 1
  cases e with
  | txDone n a => exact absurd rfl (h n a)
  | _ => rfl

theorem drop_chRxs (i : Nat) (x y : List (Nat × ℤ × Channel.Ev P)) (t : Nat) (due : ℤ) (e : Channel.Ev P) (h : ∀ a ne, e ≠ .rxEnd a ne) :
    chRxs i (x ++ (t, due, e) :: y) = chRxs i (x ++ y) := by
  rw [chRxs_append, chRxs_append]
  congr 1
  cases e with
  | rxEnd n a => exact absurd rfl (h n a)
  | _ => rfl

/-- The end of a transmission. -/
theorem Inv.txEnd {w : World P} (hw : w.Wf) {s : St P} (h : Inv w s) {tid : Nat} {a b : List (Nat × ℤ × Channel.Ev P)} {t0 : Nat} {due : ℤ}
    {n i : Nat} (hi : i < w.num) (hp : s.ch.pend = a ++ (t0, due, .txDone n i) :: b) (hd : due = s.ch.now)
    (hs : Channel.step s.ch (.fire tid) = Channel.runEv (.txDone n i) { s.ch with pend := a ++ b }) (g : UInt16) :
    Inv w (chanStep w tid g s) ∧ Mv w s (chanStep w tid g s) := by
  have hN := h.node i hi
  have hc : chTxs i s.ch.pend = chTxs i a ++ (due, n) :: chTxs i b := by rw [hp, mem_split_chTxs]
  obtain ⟨t, t', h1, h2, h3, l, h4, h5⟩ := hN.txEnd (hw.ns i hi) (mc := w.mcfg (w.addr i)) (me := w.addr i) (due := due) (n := n)
    (by rw [hc]; simp) (le_of_eq hd)
  have hnil : chTxs i (a ++ b) = [] := by
    rw [chTxs_append]
    rcases hN.tx with ⟨-, -, -, -, e⟩ | ⟨f, n', due', t2, -, -, -, -, e, -⟩
    · rw [hc] at e
      exact absurd e (by simp)
    · rw [hc] at e
      obtain ⟨e1, e2, -⟩ := single_split e.symm
      rw [e1, e2]; rfl
  have hlogd : (Channel.step s.ch (.fire tid)).log.drop s.ch.log.length = [.txEnd s.ch.now n i] := by
    rw [hs]
    show (s.ch.log ++ [_]).drop _ = _
    rw [List.drop_left]
  obtain ⟨ops, eo⟩ := h.ch
  have hch' : Channel.step s.ch (.fire tid) = Channel.after (ops ++ [.fire tid]) := by rw [ch_snoc, ← eo]
  unfold chanStep
  dsimp only
  rw [hlogd]
  dsimp only
  rw [onTxEnd_eq (s := { s with ch := Channel.step s.ch (.fire tid) }) w h1 h2 h4 h5]
  dsimp only
  have hr1 := reach_sense hw h.reach hi (PhyMacro.fire (w.pcfg i) t (s.phy i)).csBusy
  have hr2 := Macro.Reach.step (w.addr i) (.fire t') hr1 (hw.uni i hi) trivial trivial
  rw [Function.update_self, Function.update_idem] at hr2
  refine ⟨?_, .txEnd i n t due hi (by rw [hc]; simp) h1 rfl rfl rfl (by dsimp only; rw [hs]; rfl) ?_ ?_⟩
  rotate_left
  · intro j
    dsimp only
    rw [hs, hp, drop_chRxs _ _ _ _ _ _ (by intros; simp)]; rfl
  · intro t k n j p pw hm
    dsimp only at hm
    rw [hs] at hm
    rcases List.mem_append.1 (show _ ∈ s.ch.log ++ [_] from hm) with hm | hm
    · exact hm
    · exact absurd (List.mem_singleton.1 hm) (by simp)
  refine h.build i (o := .txEnd s.ch.now n i) (la := []) hr2 ⟨_, hch'⟩ ?_ ?_ ?_ ?_ rfl ?_ ?_ (fun _ _ _ => rfl) ?_ ?_ ?_
    (by intros; simp) (fun _ _ => rfl) (by simp) (by simp) (fun _ => ?_) (fun _ => ?_) ?_ ?_
  · dsimp only; rw [hs]; exact h.inside
  · dsimp only; rw [hs]; rfl
  · dsimp only; rw [hs]; rfl
  · dsimp only; rw [hs]; rfl
  · intro j hj e; exact update_other hw hi hj e _ _
  · intro j hj e; exact Function.update_of_ne e _ _
  · intro j e
    dsimp only
    rw [hs, hp, other_chTxs e]; rfl
  · intro j e
    dsimp only
    rw [hs, hp, drop_chRxs _ _ _ _ _ _ (by intros; simp)]; rfl
  · dsimp only; rw [hs]; rfl
  · dsimp only
    rw [hs]
    show Node _ _ _ _ _ _ (chTxs i (a ++ b)) (chRxs i (a ++ b)) _ (rxOf i s.air ++ [])
    rw [hnil, List.append_nil, Function.update_self, Function.update_self]
    have e : chRxs i (a ++ b) = chRxs i s.ch.pend := by rw [hp, drop_chRxs _ _ _ _ _ _ (by intros; simp)]
    rw [e]; exact h3
  · show s.heard i = s.heard i ++ []
    rw [List.append_nil]
  · intro m
    dsimp only
    rw [hs]
    show _ + (chRxs i (a ++ b)).countP _ ≤ _
    rw [hp, drop_chRxs _ _ _ _ _ _ (by intros; simp)]
    simp
  · intro x hx
    right
    rw [hc] at hx
    rw [chTxs_append] at hnil
    obtain ⟨q1, q2⟩ := List.append_eq_nil_iff.1 hnil
    rw [q1, q2] at hx
    have := List.mem_singleton.1 hx
    rw [this]; exact le_of_eq hd

theorem dev_eq {w : World P} {s : St P} (h : Inv w s) {i p : Nat} (hd : s.ch.devs[i]? = some p) : p = i ∧ i < w.num := by
  rw [h.devs] at hd
  obtain ⟨h1, h2⟩ := List.getElem?_eq_some_iff.1 hd
  simp at h1 h2
  exact ⟨h2.symm, h1⟩

/-- A MAC operation after the PHY has changed and the MAC was told what it senses. -/
theorem onArrival_eq {w : World P} (hw : w.Wf) {s : St P} {i k n dur : Nat} {pw : P} (hi : i < w.num)
    (hr : Macro.Reach w.mcfg w.seq0 anyHistory s.mac) :
    ∃ m', onArrival w i k n dur pw s =
      { s with
        phy := Function.update s.phy i (PhyMacro.step (w.pcfg i) (s.phy i) (.arrive dur pw))
        heard := Function.update s.heard i (s.heard i ++ [(k, n)])
        mac := Function.update s.mac (w.addr i) m' } ∧
      Macro.Reach w.mcfg w.seq0 anyHistory (Function.update s.mac (w.addr i) m') ∧
      Tq (Macro.step (w.mcfg (w.addr i)) (w.addr i) (s.mac (w.addr i))
        (.sense (PhyMacro.step (w.pcfg i) (s.phy i) (.arrive dur pw)).csBusy)) m' := by
  have hr1 := reach_sense hw hr hi (PhyMacro.step (w.pcfg i) (s.phy i) (.arrive dur pw)).csBusy
  unfold onArrival
  dsimp only
  rw [tellSense_eq]
  dsimp only
  rw [Function.update_self]
  split
  · have hq := Macro.tq_receivePacket (w.mcfg (w.addr i)) (Macro.step (w.mcfg (w.addr i)) (w.addr i) (s.mac (w.addr i))
        (.sense (PhyMacro.step (w.pcfg i) (s.phy i) (.arrive dur pw)).csBusy))
    obtain ⟨l, e1, e2⟩ := Tq.handed hq
    refine ⟨_, ?_, ?_, hq⟩
    · rw [macStep_quiet w i .rxStart _ (l := l) (by dsimp only; rw [Function.update_self]; exact e1) e2]
      dsimp only
      rw [Function.update_self, Function.update_idem]
      rfl
    · have hr2 := Macro.Reach.step (w.addr i) .rxStart hr1 (hw.uni i hi) trivial trivial
      rw [Function.update_self, Function.update_idem] at hr2
      exact hr2
  · exact ⟨_, rfl, hr1, .refl⟩

/-- A frame begins to arrive. -/
theorem Inv.arrival {w : World P} (hw : w.Wf) {s : St P} (h : Inv w s) {tid : Nat} {a b : List (Nat × ℤ × Channel.Ev P)} {t0 : Nat} {due : ℤ}
    {i : Nat} {ne : Channel.Ne P} (hp : s.ch.pend = a ++ (t0, due, .rx i ne) :: b)
    (hs : Channel.step s.ch (.fire tid) = Channel.runEv (.rx i ne) { s.ch with pend := a ++ b }) (g : UInt16) :
    Inv w (chanStep w tid g s) ∧ Mv w s (chanStep w tid g s) := by
  have hmem : (t0, due, Channel.Ev.rx i ne) ∈ s.ch.pend := by rw [hp]; simp
  have hdv := h.chi.evDev _ hmem i ne (.inl rfl)
  obtain ⟨hphy, hi⟩ := dev_eq h hdv
  have hN := h.node i hi
  have hs' : Channel.step s.ch (.fire tid) = { ({ s.ch with pend := a ++ b } : Channel.St P).emit
      (.arrival s.ch.now ne.k ne.n i i ne.dur ne.pw) with noise := s.ch.noise ++ [ne], inside := some (.rx i ne) } := by
    rw [hs]
    show Channel.receivePacket i ne _ = _
    unfold Channel.receivePacket
    dsimp only
    rw [hdv, hphy]
  obtain ⟨_, _, link, _, hsent, -⟩ := h.chi.rxDue _ hmem i ne rfl
  have hdur : 0 ≤ ne.dur := h.chi.sentDur hsent
  have hlogd : (Channel.step s.ch (.fire tid)).log.drop s.ch.log.length = [.arrival s.ch.now ne.k ne.n i i ne.dur ne.pw] := by
    rw [hs']
    show (s.ch.log ++ [_]).drop _ = _
    rw [List.drop_left]
  have hk : ne.k ∉ (s.heard i).map (·.1) := by
    rw [h.heard i hi]
    intro hm
    obtain ⟨⟨k', n'⟩, hm, hk⟩ := List.mem_map.1 hm
    unfold arrivalsAt at hm
    obtain ⟨o, ho, hoe⟩ := List.mem_filterMap.1 hm
    have h1 : 0 < s.ch.log.countP (Channel.isBegin ne.k) := by
      refine List.countP_pos_iff.2 ⟨o, ho, ?_⟩
      split at hoe
      · split at hoe
        · have := Option.some.inj hoe
          simp only [Prod.mk.injEq] at this
          simp [Channel.isBegin, this.1]
          exact hk
        · cases hoe
      · cases hoe
    have h2 : 0 < s.ch.pend.countP (Channel.isRxK ne.k) := List.countP_pos_iff.2 ⟨_, hmem, by simp [Channel.isRxK]⟩
    have := h.chi.kOnce ne.k
    omega
  have hnew : ∀ x ∈ s.heard i, x.2 ≠ ne.n := by
    rw [h.heard i hi]
    rintro ⟨k', n'⟩ hm hk'
    obtain ⟨o, ho, hoe⟩ := List.mem_filterMap.1 hm
    have h1 : 0 < Channel.arrivals ne.n i s.ch.log := by
      refine List.countP_pos_iff.2 ⟨o, ho, ?_⟩
      split at hoe
      · split at hoe
        · rename_i hj
          have := Option.some.inj hoe
          simp only [Prod.mk.injEq] at this
          simp only [Channel.isArrival, decide_eq_true_eq]
          exact ⟨this.2.trans hk', hj⟩
        · cases hoe
      · cases hoe
    have h2 : 0 < s.ch.pend.countP (Channel.isRx ne.n i) := List.countP_pos_iff.2 ⟨_, hmem, by simp [Channel.isRx]⟩
    obtain ⟨x, z, hx⟩ := List.append_of_mem hsent
    have := h.chi.count _ _ _ _ _ _ _ hx i
    split at this <;> omega
  obtain ⟨ops, eo⟩ := h.ch
  have hch' : Channel.step (Channel.step s.ch (.fire tid)) .ret = Channel.after (ops ++ [.fire tid] ++ [.ret]) := by
    rw [ch_snoc, ch_snoc, ← eo]
  unfold chanStep
  dsimp only
  rw [hlogd]
  dsimp only
  obtain ⟨m', e1, hr, hq⟩ := onArrival_eq hw (s := { s with ch := Channel.step s.ch (.fire tid) }) (k := ne.k) (n := ne.n)
    (dur := ne.dur.toNat) (pw := ne.pw) hi h.reach
  rw [e1]
  dsimp only at hr hq ⊢
  have hret : Channel.step (Channel.step s.ch (.fire tid)) .ret = { ({ s.ch with pend := a ++ b } : Channel.St P).emit
      (.arrival s.ch.now ne.k ne.n i i ne.dur ne.pw) with
      noise := s.ch.noise ++ [ne], inside := none, pend := (a ++ b) ++ [(s.ch.nextTid, s.ch.now + ne.dur, .rxEnd i ne)]
      nextTid := s.ch.nextTid + 1 } := by
    rw [hs']; rfl
  have hal : arrivalsAt i [Channel.Obs.arrival s.ch.now ne.k ne.n i i ne.dur ne.pw] = [(ne.k, ne.n)] := by
    simp [arrivalsAt]
  have hcr : ∀ j, chRxs j ((a ++ b) ++ [(s.ch.nextTid, s.ch.now + ne.dur, .rxEnd i ne)]) =
      chRxs j s.ch.pend ++ if i = j then [(s.ch.now + ne.dur, (ne.k, ne.n), ne.pw)] else [] := by
    intro j
    rw [chRxs_append, hp, drop_chRxs _ _ _ _ _ _ (by intros; simp)]
    congr 1
    unfold chRxs
    simp only [List.filterMap_cons, List.filterMap_nil]
    split <;> rename_i h
    · split at h
      · cases h
      · rename_i h'; rw [if_neg h']
    · split at h
      · rename_i h'; rw [if_pos h', ← Option.some.inj h]
      · cases h
  have hct : ∀ j, chTxs j ((a ++ b) ++ [(s.ch.nextTid, s.ch.now + ne.dur, .rxEnd i ne)]) = chTxs j s.ch.pend := by
    intro j
    rw [chTxs_append, hp, drop_chTxs _ _ _ _ _ _ (by intros; simp)]
    show _ ++ [] = _
    rw [List.append_nil]
  refine ⟨?_, .arrive i ne.k ne.n ne.dur ne.pw hi hdur hnew (by dsimp only; rw [hret]; rfl) rfl rfl rfl
    (by dsimp only; rw [hret]; rfl) (by intro j; dsimp only; rw [hret]; exact hcr j) ?_⟩
  swap
  · intro t k n j p pw hm
    dsimp only at hm
    rw [hret] at hm
    rcases List.mem_append.1 (show _ ∈ s.ch.log ++ [_] from hm) with hm | hm
    · exact hm
    · exact absurd (List.mem_singleton.1 hm) (by simp)
  refine h.build i (o := .arrival s.ch.now ne.k ne.n i i ne.dur ne.pw) (la := []) hr ⟨_, hch'⟩ ?_ ?_ ?_ ?_ rfl ?_ ?_ ?_ ?_ ?_ ?_
    (by intros; simp) ?_ (by simp) (by simp) (fun _ => ?_) (fun _ => ?_) ?_ ?_
  · dsimp only; rw [hret]
  · dsimp only; rw [hret]; rfl
  · dsimp only; rw [hret]; rfl
  · dsimp only; rw [hret]; rfl
  · intro j hj e; exact update_other hw hi hj e _ _
  · intro j hj e; exact Function.update_of_ne e _ _
  · intro j hj e; exact Function.update_of_ne e _ _
  · intro j e
    dsimp only
    rw [hret]; exact hct j
  · intro j e
    dsimp only
    rw [hret]
    dsimp only
    rw [hcr j, if_neg (fun e' => e e'.symm), List.append_nil]
  · dsimp only; rw [hret]; rfl
  · intro j e
    have : ¬ i = j := fun e' => e e'.symm
    simp [arrivalsAt, this]
  · dsimp only
    rw [hret]
    dsimp only
    rw [hct i, hcr i, if_pos rfl, Function.update_self, Function.update_self, Function.update_self]
    have k1 := (hN.arrive (hw.ns i hi) (mc := w.mcfg (w.addr i)) (me := w.addr i) (k := ne.k) (n := ne.n) (dur := ne.dur.toNat)
      (pw := ne.pw) hk).quiet hq
    rw [Int.toNat_of_nonneg hdur] at k1
    show Node _ _ _ _ _ _ _ _ _ (rxOf i s.air ++ [])
    rw [List.append_nil]
    exact k1
  · rw [hal]; exact Function.update_self _ _ _
  · intro m
    dsimp only
    rw [hret]
    dsimp only
    rw [hcr i, if_pos rfl, hal, List.countP_append]
    simp
  · intro x hx
    dsimp only
    rw [hret]
    exact .inl (by rw [hct i]; exact hx)

/-- One report to the MAC. -/
theorem report_eq {w : World P} {i : Nat} {g : UInt16} {s : St P} {id k n : Nat} {f : Frame} (ok : Bool)
    (h1 : (s.heard i)[id]? = some (k, n)) (h2 : s.frames[n]? = some f) {l : List Macro.Obs}
    (hl : (Macro.step (w.mcfg (w.addr i)) (w.addr i) (s.mac (w.addr i)) (.rxDone f ok g)).log = (s.mac (w.addr i)).log ++ l)
    (hq : handedIn l = []) :
    report w i g s (id, ok) =
      { s with
        mac := Function.update s.mac (w.addr i) (Macro.step (w.mcfg (w.addr i)) (w.addr i) (s.mac (w.addr i)) (.rxDone f ok g))
        air := s.air ++ if ok = true then [.rx s.ch.now n i f] else [] } := by
  unfold report
  rw [h1]
  dsimp only
  rw [h2]
  dsimp only
  rw [macStep_quiet w i _ s hl hq]
  cases ok
  · simp
  · simp

theorem rxDone_quiet (mc : Macro.Cfg) (me : Mac48) (f : Frame) (ok : Bool) (g : UInt16) (m : Macro.St) :
    ∃ l, (Macro.step mc me m (.rxDone f ok g)).log = m.log ++ l ∧ handedIn l = [] := by
  have hq := Macro.tq_rxDone mc me f ok g m
  obtain ⟨l, e1, e2⟩ := Tq.handed hq
  cases ok with
  | false => exact ⟨l, by simpa using e1, e2⟩
  | true =>
    refine ⟨Macro.Obs.rx f :: l, ?_, ?_⟩
    · rw [e1]
      show (m.log ++ [_]) ++ l = _
      rw [List.append_assoc]; rfl
    · show handedIn ([Macro.Obs.rx f] ++ l) = _
      rw [handedIn_append, e2]; rfl

/-- All reports at the end of an arrival. -/
theorem reports {w : World P} (hw : w.Wf) {i : Nat} (hi : i < w.num) {g : UInt16} {s : St P} {id k n : Nat} {f : Frame} {l : List (Nat × Bool)}
    (hl : l ∈ results id) (h1 : (s.heard i)[id]? = some (k, n)) (h2 : s.frames[n]? = some f)
    (hr : Macro.Reach w.mcfg w.seq0 anyHistory s.mac) (ha : ∃ b, Macro.Obs.handed f ∈ (s.mac b).log)
    {c : PhyMacro.Cfg P} {now : ℤ} {ct : List (ℤ × Nat)} {cr : List (ℤ × (Nat × Nat) × P)} {hd : List (Nat × Nat)} {p : PhyMacro.St P}
    {txs rxs : List Frame} (hN : Node c now s.frames (s.mac (w.addr i)) p hd ct cr txs rxs) :
    ∃ m' la, l.foldl (report w i g) s = { s with mac := Function.update s.mac (w.addr i) m', air := s.air ++ la } ∧
      Macro.Reach w.mcfg w.seq0 anyHistory (Function.update s.mac (w.addr i) m') ∧
      Node c now s.frames m' p hd ct cr txs (rxs ++ rxOf i la) ∧ (la = [] ∨ la = [.rx s.ch.now n i f]) ∧
      (∀ id', l = [(id', true)] → la = [.rx s.ch.now n i f]) := by
  have hfalse : ∀ (s : St P), (s.heard i)[id]? = some (k, n) → s.frames[n]? = some f →
      Macro.Reach w.mcfg w.seq0 anyHistory s.mac → Node c now s.frames (s.mac (w.addr i)) p hd ct cr txs rxs →
      report w i g s (id, false) = { s with mac := Function.update s.mac (w.addr i) (Macro.step (w.mcfg (w.addr i)) (w.addr i) (s.mac (w.addr i)) (.rxDone f false g)) } ∧
      Macro.Reach w.mcfg w.seq0 anyHistory (Function.update s.mac (w.addr i) (Macro.step (w.mcfg (w.addr i)) (w.addr i) (s.mac (w.addr i)) (.rxDone f false g))) ∧
      Node c now s.frames (Macro.step (w.mcfg (w.addr i)) (w.addr i) (s.mac (w.addr i)) (.rxDone f false g)) p hd ct cr txs rxs := by
    intro s h1 h2 hr hN
    obtain ⟨l, e1, e2⟩ := rxDone_quiet (w.mcfg (w.addr i)) (w.addr i) f false g (s.mac (w.addr i))
    refine ⟨?_, .step _ _ hr (hw.uni i hi) trivial trivial, ?_⟩
    · rw [report_eq false h1 h2 e1 e2]
      simp
    · have := hN.report (w.mcfg (w.addr i)) (w.addr i) f false g
      simpa using this
  unfold results at hl
  simp only [List.mem_cons, List.not_mem_nil, or_false] at hl
  rcases hl with rfl | rfl | rfl | rfl
  · refine ⟨s.mac (w.addr i), [], ?_, ?_, ?_, .inl rfl, by simp⟩
    · rw [Function.update_eq_self, List.append_nil]; rfl
    · rw [Function.update_eq_self]; exact hr
    · show Node _ _ _ _ _ _ _ _ _ (rxs ++ [])
      rw [List.append_nil]; exact hN
  · obtain ⟨l, e1, e2⟩ := rxDone_quiet (w.mcfg (w.addr i)) (w.addr i) f true g (s.mac (w.addr i))
    refine ⟨_, [.rx s.ch.now n i f], ?_, .step _ (.rxDone f true g) hr (hw.uni i hi) ha trivial, ?_, .inr rfl, fun _ _ => rfl⟩
    · show report w i g s (id, true) = _
      rw [report_eq true h1 h2 e1 e2]
      simp
    · have := hN.report (w.mcfg (w.addr i)) (w.addr i) f true g
      simpa [rxOf] using this
  · obtain ⟨k1, k2, k3⟩ := hfalse s h1 h2 hr hN
    refine ⟨_, [], ?_, k2, ?_, .inl rfl, by simp⟩
    · show report w i g s (id, false) = _
      rw [k1, List.append_nil]
    · show Node _ _ _ _ _ _ _ _ _ (rxs ++ [])
      rw [List.append_nil]; exact k3
  · obtain ⟨k1, k2, k3⟩ := hfalse s h1 h2 hr hN
    have e := Function.update_self (w.addr i) (Macro.step (w.mcfg (w.addr i)) (w.addr i) (s.mac (w.addr i)) (.rxDone f false g)) s.mac
    obtain ⟨k4, k5, k6⟩ := hfalse { s with mac := Function.update s.mac (w.addr i) (Macro.step (w.mcfg (w.addr i)) (w.addr i) (s.mac (w.addr i)) (.rxDone f false g)) }
      h1 h2 k2 (by dsimp only; rw [e]; exact k3)
    dsimp only at k4 k5 k6
    rw [e] at k4 k5 k6
    rw [Function.update_idem] at k4 k5
    refine ⟨Macro.step (w.mcfg (w.addr i)) (w.addr i) (Macro.step (w.mcfg (w.addr i)) (w.addr i) (s.mac (w.addr i))
      (.rxDone f false g)) (.rxDone f false g), [], ?_, k5, ?_, .inl rfl, by simp⟩
    · show report w i g (report w i g s (id, false)) (id, false) = _
      rw [k1, k4, List.append_nil]
    · show Node _ _ _ _ _ _ _ _ _ (rxs ++ [])
      rw [List.append_nil]; exact k6

/-- The frame of a transmission that arrived somewhere, and its sender. -/
theorem Inv.sender {w : World P} {s : St P} (h : Inv w s) {t : ℤ} {k n i p : Nat} {dur : ℤ} {pw : P}
    (ha : Channel.Obs.arrival t k n i p dur pw ∈ s.ch.log) :
    ∃ t' a f, AObs.tx t' n a f ∈ s.air ∧ a < w.num ∧ s.frames[n]? = some f ∧ Macro.Obs.handed f ∈ (s.mac (w.addr a)).log := by
  obtain ⟨t', a, link, d, h1, -⟩ := h.chi.arrWhy ha
  obtain ⟨f, h2⟩ := h.sentAir _ _ _ _ _ h1
  obtain ⟨h3, h4, -⟩ := h.airTx _ _ _ _ h2
  refine ⟨t', a, f, h2, h3, h4, ?_⟩
  have h5 : f ∈ txOf a s.air := List.mem_filterMap.2 ⟨_, h2, by simp⟩
  rw [← (h.node a h3).handed] at h5
  obtain ⟨o, ho, hoe⟩ := List.mem_filterMap.1 h5
  split at hoe
  · rw [← Option.some.inj hoe]; exact ho
  · cases hoe

/-- An arrival ends. -/
theorem Inv.finish {w : World P} (hw : w.Wf) {s : St P} (h : Inv w s) {tid : Nat} {a b : List (Nat × ℤ × Channel.Ev P)} {t0 : Nat} {due : ℤ}
    {i : Nat} {ne : Channel.Ne P} (hp : s.ch.pend = a ++ (t0, due, .rxEnd i ne) :: b) (hd : due = s.ch.now)
    (hs : Channel.step s.ch (.fire tid) = Channel.runEv (.rxEnd i ne) { s.ch with pend := a ++ b }) (g : UInt16) :
    Inv w (chanStep w tid g s) ∧ Mv w s (chanStep w tid g s) := by
  have hmem : (t0, due, Channel.Ev.rxEnd i ne) ∈ s.ch.pend := by rw [hp]; simp
  have hdv := h.chi.evDev _ hmem i ne (.inr rfl)
  obtain ⟨hphy, hi⟩ := dev_eq h hdv
  have hN := h.node i hi
  have hs' : Channel.step s.ch (.fire tid) = { ({ s.ch with pend := a ++ b } : Channel.St P).emit
      (.finish s.ch.now ne.k ne.n i i ne.pw) with inside := some (.rxEnd ne) } := by
    rw [hs]
    show Channel.receivePacketDone i ne _ = _
    unfold Channel.receivePacketDone
    dsimp only
    rw [hdv, hphy]
  obtain ⟨ta, harr, -⟩ := h.chi.endDue _ hmem i ne rfl
  obtain ⟨_, a0, f, -, ha0, hf, hhand⟩ := h.sender harr
  have hlogd : (Channel.step s.ch (.fire tid)).log.drop s.ch.log.length = [.finish s.ch.now ne.k ne.n i i ne.pw] := by
    rw [hs']
    show (s.ch.log ++ [_]).drop _ = _
    rw [List.drop_left]
  have hc : chRxs i s.ch.pend = chRxs i a ++ (due, (ne.k, ne.n), ne.pw) :: chRxs i b := by rw [hp, mem_split_chRxs]
  obtain ⟨t, id, k1, k2, k3, k4⟩ := hN.finish (hw.ns i hi) (mc := w.mcfg (w.addr i)) (me := w.addr i) hc (le_of_eq hd)
  obtain ⟨ops, eo⟩ := h.ch
  have hch' : Channel.step (Channel.step s.ch (.fire tid)) .ret = Channel.after (ops ++ [.fire tid] ++ [.ret]) := by
    rw [ch_snoc, ch_snoc, ← eo]
  have hret : Channel.step (Channel.step s.ch (.fire tid)) .ret = { ({ s.ch with pend := a ++ b } : Channel.St P).emit
      (.finish s.ch.now ne.k ne.n i i ne.pw) with
      inside := none, pend := (a ++ b) ++ [(s.ch.nextTid, s.ch.now, .del ne)]
      nextTid := s.ch.nextTid + 1 } := by
    rw [hs']; rfl
  have hr1 := reach_sense hw h.reach hi (PhyMacro.fire (w.pcfg i) t (s.phy i)).csBusy
  obtain ⟨m', la, e1, hr2, hN2, hla, hla2⟩ := reports hw hi (g := g) (s := { s with
      ch := Channel.step s.ch (.fire tid)
      phy := Function.update s.phy i (PhyMacro.fire (w.pcfg i) t (s.phy i))
      mac := Function.update s.mac (w.addr i) (Macro.step (w.mcfg (w.addr i)) (w.addr i) (s.mac (w.addr i))
        (.sense (PhyMacro.fire (w.pcfg i) t (s.phy i)).csBusy)) }) k3 k2 hf hr1 ⟨w.addr a0, by
      dsimp only
      by_cases e : a0 = i
      · subst e; rw [Function.update_self]; exact hhand
      · rw [update_other hw hi ha0 e]; exact hhand⟩
    (by dsimp only; rw [Function.update_self]; exact k4)
  dsimp only at e1 hr2 hN2 hla hla2
  have hnow : (Channel.step s.ch (.fire tid)).now = s.ch.now := by rw [hs']; rfl
  rw [hnow] at hla hla2
  rw [Function.update_idem] at e1 hr2
  have hfin : chanStep w tid g s = { s with
      mac := Function.update s.mac (w.addr i) m'
      phy := Function.update s.phy i (PhyMacro.fire (w.pcfg i) t (s.phy i))
      ch := Channel.step (Channel.step s.ch (.fire tid)) .ret
      air := s.air ++ la } := by
    unfold chanStep
    dsimp only
    rw [hlogd]
    dsimp only
    unfold onFinish
    dsimp only
    rw [k1]
    dsimp only
    rw [tellSense_eq]
    unfold phyFire
    dsimp only
    rw [Function.update_self, e1]
  rw [hfin]
  have hct : ∀ j, chTxs j ((a ++ b) ++ [(s.ch.nextTid, s.ch.now, .del ne)]) = chTxs j s.ch.pend := by
    intro j
    rw [chTxs_append, hp, drop_chTxs _ _ _ _ _ _ (by intros; simp)]
    show _ ++ [] = _
    rw [List.append_nil]
  have hcr : ∀ j, chRxs j ((a ++ b) ++ [(s.ch.nextTid, s.ch.now, .del ne)]) = chRxs j (a ++ b) := by
    intro j
    rw [chRxs_append]
    show _ ++ [] = _
    rw [List.append_nil]
  refine ⟨?_, .finish i ne.k ne.n t ne.pw (chRxs i a) (chRxs i b) f la hi (by rw [hc, hd]) k1 hf rfl rfl rfl ⟨?_, hla2⟩
    (by dsimp only; rw [hret]; rfl) ?_ ?_⟩
  rotate_left
  · intro o ho
    rcases hla with rfl | rfl
    · cases ho
    · exact List.mem_singleton.1 ho
  · intro j
    dsimp only
    rw [hret]
    dsimp only
    rw [hcr j]
    by_cases e : i = j
    · subst e
      rw [if_pos rfl, chRxs_append]
    · rw [if_neg e, hp, other_chRxs (fun e' => e e'.symm)]
  · intro t k' n' j p pw hm
    dsimp only at hm
    rw [hret] at hm
    rcases List.mem_append.1 (show _ ∈ s.ch.log ++ [_] from hm) with hm | hm
    · exact .inl hm
    · have := List.mem_singleton.1 hm
      injection this with q1 q2 q3 q4
      exact .inr ⟨q3, q4⟩
  refine h.build i (o := .finish s.ch.now ne.k ne.n i i ne.pw) (la := la) hr2 ⟨_, hch'⟩ ?_ ?_ ?_ ?_ rfl ?_ ?_ (fun _ _ _ => rfl) ?_ ?_ ?_
    (by intros; simp) (fun _ _ => rfl) rfl ?_ (fun _ => ?_) (fun _ => ?_) ?_ ?_
  · dsimp only; rw [hret]
  · dsimp only; rw [hret]; rfl
  · dsimp only; rw [hret]; rfl
  · dsimp only; rw [hret]; rfl
  · intro j hj e; exact update_other hw hi hj e _ _
  · intro j hj e; exact Function.update_of_ne e _ _
  · intro j e
    dsimp only
    rw [hret]; exact hct j
  · intro j e
    dsimp only
    rw [hret]
    dsimp only
    rw [hcr j, hp, other_chRxs e]
  · dsimp only; rw [hret]; rfl
  · intro x hx
    rcases hla with rfl | rfl
    · cases hx
    · exact ⟨ne.n, f, ne.k, ne.pw, List.mem_singleton.1 hx, hi, hf, rfl⟩
  · dsimp only
    rw [hret]
    dsimp only
    rw [hct i, hcr i, chRxs_append, Function.update_self, Function.update_self]
    exact hN2
  · show s.heard i = s.heard i ++ []
    rw [List.append_nil]
  · intro m
    dsimp only
    rw [hret]
    dsimp only
    rw [hcr i, hc, chRxs_append, List.countP_append, List.countP_append, List.countP_cons]
    have : la.countP (isRxAir m i) ≤ if ne.n = m then 1 else 0 := by
      rcases hla with rfl | rfl
      · exact Nat.zero_le _
      · simp [isRxAir, List.countP_cons]
    simp only [decide_eq_true_eq]
    omega
  · intro x hx
    dsimp only
    rw [hret]
    exact .inl (by rw [hct i]; exact hx)

/-- The end of a record of an arrival. -/
theorem Inv.del {w : World P} {s : St P} (h : Inv w s) {tid : Nat} {a b : List (Nat × ℤ × Channel.Ev P)} {t0 : Nat} {due : ℤ}
    {ne : Channel.Ne P} (hp : s.ch.pend = a ++ (t0, due, .del ne) :: b)
    (hs : Channel.step s.ch (.fire tid) = Channel.runEv (.del ne) { s.ch with pend := a ++ b }) (g : UInt16) :
    Inv w (chanStep w tid g s) ∧ Mv w s (chanStep w tid g s) := by
  have hlogd : (Channel.step s.ch (.fire tid)).log.drop s.ch.log.length = [.erased s.ch.now ne.k] := by
    rw [hs]
    show (s.ch.log ++ [_]).drop _ = _
    rw [List.drop_left]
  obtain ⟨ops, eo⟩ := h.ch
  have hch' : Channel.step s.ch (.fire tid) = Channel.after (ops ++ [.fire tid]) := by rw [ch_snoc, ← eo]
  unfold chanStep
  dsimp only
  rw [hlogd]
  dsimp only
  have ht : ∀ j, chTxs j (Channel.step s.ch (.fire tid)).pend = chTxs j s.ch.pend := by
    intro j
    rw [hs, hp, drop_chTxs _ _ _ _ _ _ (by intros; simp)]; rfl
  have hr : ∀ j, chRxs j (Channel.step s.ch (.fire tid)).pend = chRxs j s.ch.pend := by
    intro j
    rw [hs, hp, drop_chRxs _ _ _ _ _ _ (by intros; simp)]; rfl
  refine ⟨?_, .quiet rfl rfl rfl (by dsimp only; rw [hs]; rfl) hr ?_⟩
  swap
  · intro t k n j p pw hm
    dsimp only at hm
    rw [hs] at hm
    rcases List.mem_append.1 (show _ ∈ s.ch.log ++ [_] from hm) with hm | hm
    · exact hm
    · exact absurd (List.mem_singleton.1 hm) (by simp)
  refine h.build 0 (o := .erased s.ch.now ne.k) (la := []) h.reach ⟨_, hch'⟩ ?_ ?_ ?_ ?_ rfl (fun _ _ _ => rfl) (fun _ _ _ => rfl)
    (fun _ _ _ => rfl) (fun j _ => ht j) (fun j _ => hr j) ?_ (by intros; simp) (fun _ _ => rfl) (by simp) (by simp)
    (fun hi => ?_) (fun _ => ?_) ?_ (fun x hx => .inl (by rw [ht]; exact hx))
  · dsimp only; rw [hs]; exact h.inside
  · dsimp only; rw [hs]; rfl
  · dsimp only; rw [hs]; rfl
  · dsimp only; rw [hs]; rfl
  · dsimp only; rw [hs]; rfl
  · dsimp only
    rw [ht, hr]
    show Node _ _ _ _ _ _ _ _ _ (rxOf 0 s.air ++ [])
    rw [List.append_nil]
    exact h.node 0 hi
  · show s.heard 0 = s.heard 0 ++ []
    rw [List.append_nil]
  · intro m
    dsimp only
    rw [hr]
    simp

theorem Inv.chan {w : World P} (hw : w.Wf) {s : St P} (h : Inv w s) {tid t : Nat} {due : ℤ} {e : Channel.Ev P} (g : UInt16)
    (hf : s.ch.pend.find? (fun e => e.1 = tid) = some (t, due, e)) (hd : due ≤ s.ch.now) :
    Inv w (chanStep w tid g s) ∧ Mv w s (chanStep w tid g s) := by
  obtain ⟨h1, a, b, h2, h3⟩ := ch_fire h.chi h.inside hf hd
  cases e with
  | txDone n i =>
    have hm := List.mem_of_find?_eq_some hf
    obtain ⟨t', d, l, h4, -⟩ := h.chi.txDue _ hm n i rfl
    obtain ⟨f, h5⟩ := h.sentAir _ _ _ _ _ h4
    exact h.txEnd hw (h.airTx _ _ _ _ h5).1 h2 h1 h3 g
  | rx i ne => exact h.arrival hw h2 h3 g
  | rxEnd i ne => exact h.finish hw h2 h1 h3 g
  | del ne => exact h.del h2 h3 g

/-! ## Time passes -/

theorem tick_macs {w : World P} (hw : w.Wf) (d : Nat) : ∀ (l : List Nat) (s : St P), l.Nodup → (∀ i ∈ l, i < w.num) →
    Macro.Reach w.mcfg w.seq0 anyHistory s.mac →
    ∃ mac', l.foldl (fun s i => macStep w i (.advance d) s) s = { s with mac := mac' } ∧
      Macro.Reach w.mcfg w.seq0 anyHistory mac' ∧
      ∀ j < w.num, mac' (w.addr j) = if j ∈ l then Macro.step (w.mcfg (w.addr j)) (w.addr j) (s.mac (w.addr j)) (.advance d)
        else s.mac (w.addr j) := by
  intro l
  induction l with
  | nil => intro s _ _ hr; exact ⟨s.mac, rfl, hr, fun j _ => by simp⟩
  | cons i l ih =>
    intro s hnd hlt hr
    have hi : i < w.num := hlt i List.mem_cons_self
    obtain ⟨hni, hnd'⟩ := List.nodup_cons.1 hnd
    have e := macStep_quiet w i (.advance d) s (l := []) (by rw [List.append_nil]; rfl) rfl
    have hr1 := Macro.Reach.step (w.addr i) (.advance d) hr (hw.uni i hi) trivial trivial
    obtain ⟨mac', h1, h2, h3⟩ := ih { s with
      mac := Function.update s.mac (w.addr i) (Macro.step (w.mcfg (w.addr i)) (w.addr i) (s.mac (w.addr i)) (.advance d)) } hnd' (fun j hj => hlt j (List.mem_cons_of_mem _ hj)) hr1
    refine ⟨mac', ?_, h2, fun j hj => ?_⟩
    · rw [List.foldl_cons, e, h1]
    · rw [h3 j hj]
      by_cases hji : j = i
      · subst hji
        rw [if_neg hni, if_pos List.mem_cons_self]
        exact Function.update_self _ _ _
      · dsimp only
        rw [update_other hw hi hj hji]
        simp [hji]

theorem Inv.tick {w : World P} (hw : w.Wf) {s : St P} (h : Inv w s) {d : Nat}
    (hd : s.ch.pend.all (fun e => decide (s.ch.now + d ≤ e.2.1)) = true) : Inv w (tickStep w d s) ∧ Mv w s (tickStep w d s) := by
  obtain ⟨mac', h1, h2, h3⟩ := tick_macs hw d (List.range w.num) s List.nodup_range (fun i hi => List.mem_range.1 hi) h.reach
  unfold tickStep
  dsimp only
  rw [h1]
  dsimp only
  have hc : Channel.step s.ch (.advance d) = { s.ch with now := s.ch.now + d } := by
    show (if _ then _ else _) = _
    rw [if_pos ⟨h.inside, hd⟩]
  obtain ⟨ops, eo⟩ := h.ch
  refine ⟨?_, .tick d (fun j hj => by dsimp only; rw [if_pos hj]) rfl rfl (by dsimp only; rw [hc])
    (fun j => by dsimp only; rw [hc]) (fun t k n i p pw hm => by dsimp only at hm; rw [hc] at hm; exact hm)⟩
  refine ⟨h2, ⟨ops ++ [.advance d], by dsimp only; rw [ch_snoc, ← eo]⟩, ?_, ?_, ?_, fun i hi => ?_, fun i hi => ?_, ?_, ?_, ?_, ?_,
    ?_, h.turn⟩
  · dsimp only; rw [hc]; exact h.inside
  · dsimp only; rw [hc]; exact h.devs
  · dsimp only; rw [hc]; exact h.frames
  · dsimp only
    rw [hc, h3 i hi, if_pos (List.mem_range.2 hi), if_pos hi]
    exact (h.node i hi).advance _ _ d
  · dsimp only; rw [hc]; exact h.heard i hi
  · dsimp only; rw [hc]; exact h.airTx
  · dsimp only; rw [hc]; exact h.sentAir
  · dsimp only; rw [hc]; exact h.airRx
  · dsimp only; rw [hc]; exact h.once
  · intro t n i f hm
    dsimp only
    rw [hc]
    rcases h.busy _ _ _ _ hm with h1 | h1
    · left; dsimp only; omega
    · exact .inr h1

/-! ## All histories -/

theorem Inv.move {w : World P} (hw : w.Wf) {s : St P} (h : Inv w s) (o : Op) : Inv w (step w s o) ∧ Mv w s (step w s o) := by
  unfold Stack.step
  split
  · rename_i ha
    cases o with
    | enqueue i b dst g =>
      have hi : i < w.num := by simpa [allowed] using ha
      exact h.quiet hw hi _ trivial (Macro.tq_enqueue _ b dst g _)
    | mac i tid =>
      unfold allowed at ha
      simp only [Bool.and_eq_true, decide_eq_true_eq] at ha
      obtain ⟨hi, ha⟩ := ha
      split at ha
      · cases ha
      · rename_i t due e hf
        simp only [Bool.and_eq_true, decide_eq_true_eq] at ha
        have hnow := (h.node i hi).mnow
        rcases Macro.tx_fire (w.mcfg (w.addr i)) (w.addr i) (s.mac (w.addr i)) tid t due e hf (by rw [hnow]; exact ha.1)
          (by rintro f rfl; exact absurd ha.2 (by simp [own])) with hq | ⟨f, ht⟩
        · exact h.quiet hw hi _ trivial hq
        · exact h.hand hw hi _ trivial ht
    | chan tid g =>
      unfold allowed at ha
      simp only at ha
      split at ha
      · cases ha
      · rename_i t due e hf
        exact h.chan hw g hf (by simpa using ha)
    | tick d =>
      unfold allowed at ha
      simp only [Bool.and_eq_true] at ha
      exact h.tick hw ha.1
  · exact ⟨h, .quiet rfl rfl rfl rfl (fun _ => rfl) (fun _ _ _ _ _ _ h => h)⟩

theorem Inv.step {w : World P} (hw : w.Wf) {s : St P} (h : Inv w s) (o : Op) : Inv w (step w s o) := (h.move hw o).1

theorem inv_after {w : World P} (hw : w.Wf) (ops : List Op) : Inv w (after w ops) := by
  suffices ∀ s, Inv w s → Inv w (ops.foldl (Stack.step w) s) from this _ (.init w)
  induction ops with
  | nil => exact fun s h => h
  | cons o ops ih => exact fun s h => ih _ (h.step hw o)

end Thz.Stack
