import Verif.Air
import Verif.StackRx

/-!
# Macro PHYs on one channel: invariants
-/

namespace Thz.Air

open Thz

variable {F P : Type}

/-! ## One PHY -/

theorem fire_pend (c : PhyMacro.Cfg P) (t : Nat) (p : PhyMacro.St P) :
    (PhyMacro.fire c t p).pend = p.pend.filter (fun e => e.1 ≠ t) := by
  unfold PhyMacro.fire
  split
  · rename_i h
    refine (List.filter_eq_self.2 (fun x hx => ?_)).symm
    have := List.find?_eq_none.1 h x hx
    simpa using this
  · rename_i e _
    cases e with
    | txDone id => rfl
    | rxDone id pw =>
      show (PhyMacro.conclude c id pw _).pend = _
      exact (Stack.phy_conclude c id pw _).2.2.2.1

theorem fire_nextId (c : PhyMacro.Cfg P) (t : Nat) (p : PhyMacro.St P) : (PhyMacro.fire c t p).nextId = p.nextId := by
  unfold PhyMacro.fire
  split
  · rfl
  · rename_i e _
    cases e with
    | txDone id => rfl
    | rxDone id pw =>
      show (PhyMacro.conclude c id pw _).nextId = _
      exact (Stack.phy_conclude c id pw _).2.2.1

theorem fire_now (c : PhyMacro.Cfg P) (t : Nat) (p : PhyMacro.St P) (h : ∀ e ∈ p.pend, e.1 = t → e.2.1 ≤ p.now) :
    (PhyMacro.fire c t p).now = p.now := by
  unfold PhyMacro.fire
  split
  · rfl
  · rename_i t' due e hf
    have h1 := h _ (List.mem_of_find?_eq_some hf) (by simpa using List.find?_some hf)
    have h2 : max p.now due = p.now := max_eq_left h1
    cases e with
    | txDone id => exact h2
    | rxDone id pw =>
      show (PhyMacro.conclude c id pw _).now = _
      exact (Stack.phy_conclude c id pw _).2.1.trans h2

theorem okIn_append (a b : List (PhyMacro.Obs P)) : okIn (a ++ b) = okIn a ++ okIn b := List.filterMap_append

/-- Only the arrival that ends is reported, once. -/
theorem fire_okIn (c : PhyMacro.Cfg P) (t : Nat) (p : PhyMacro.St P) :
    okIn ((PhyMacro.fire c t p).log.drop p.log.length) = [] ∨
      ∃ due id pw, (t, due, PhyMacro.Ev.rxDone id pw) ∈ p.pend ∧ okIn ((PhyMacro.fire c t p).log.drop p.log.length) = [id] := by
  unfold PhyMacro.fire
  split
  · left; rw [List.drop_length]; rfl
  · rename_i t' due e hf
    have h1 : t' = t := by simpa using List.find?_some hf
    subst h1
    have hm := List.mem_of_find?_eq_some hf
    cases e with
    | txDone id =>
      left
      show okIn ((p.log ++ [_]).drop p.log.length) = []
      rw [List.drop_left]; rfl
    | rxDone id pw =>
      have key : ∀ q : PhyMacro.St P, ∃ l, (PhyMacro.conclude c id pw q).log = q.log ++ l ∧ (okIn l = [] ∨ okIn l = [id]) := by
        intro q
        unfold PhyMacro.conclude
        dsimp only
        split_ifs
        · exact ⟨[], (List.append_nil _).symm, .inl rfl⟩
        · exact ⟨[_], rfl, .inr rfl⟩
        · exact ⟨[_, _], by show (q.log ++ [_]) ++ [_] = _; rw [List.append_assoc]; rfl, .inl rfl⟩
        · exact ⟨[_], rfl, .inl rfl⟩
        · exact ⟨[_], rfl, .inl rfl⟩
        · exact ⟨[], (List.append_nil _).symm, .inl rfl⟩
      show okIn ((PhyMacro.conclude c id pw _).log.drop _) = [] ∨ ∃ due' id' pw', _ ∧ okIn ((PhyMacro.conclude c id pw _).log.drop _) = [id']
      obtain ⟨l, h2, h3⟩ := key { (({ p with pend := p.pend.filter (fun e => e.1 ≠ t'), now := max p.now due } : PhyMacro.St P).emit
        (.rxEnd (max p.now due) id)) with csBusy := if p.csBusyEnd ≤ max p.now due + c.ns then false else p.csBusy }
      have h4 : okIn ((PhyMacro.conclude c id pw { (({ p with pend := p.pend.filter (fun e => e.1 ≠ t'), now := max p.now due } : PhyMacro.St P).emit
        (.rxEnd (max p.now due) id)) with csBusy := if p.csBusyEnd ≤ max p.now due + c.ns then false else p.csBusy }).log.drop p.log.length) = okIn l := by
        rw [h2]
        show okIn (((p.log ++ [_]) ++ l).drop _) = _
        rw [List.append_assoc, List.drop_left]; rfl
      rcases h3 with h3 | h3
      · exact .inl (h4.trans h3)
      · exact .inr ⟨due, id, pw, hm, h4.trans h3⟩

theorem arrive_data (c : PhyMacro.Cfg P) (p : PhyMacro.St P) (dur : Nat) (pw : P) :
    (PhyMacro.step c p (.arrive dur pw)).pend = p.pend ++ [(p.nextTid, p.now + (dur : ℤ), PhyMacro.Ev.rxDone p.nextId pw)] ∧
    (PhyMacro.step c p (.arrive dur pw)).nextId = p.nextId + 1 ∧ (PhyMacro.step c p (.arrive dur pw)).now = p.now := by
  show (PhyMacro.receivePacket c dur pw p).pend = _ ∧ (PhyMacro.receivePacket c dur pw p).nextId = _ ∧
    (PhyMacro.receivePacket c dur pw p).now = _
  unfold PhyMacro.receivePacket PhyMacro.sense
  dsimp only
  split_ifs <;> exact ⟨rfl, rfl, rfl⟩

/-- One more operation of a PHY. -/
theorem phy_snoc {c : PhyMacro.Cfg P} {p : PhyMacro.St P} (h : ∃ ops, p = PhyMacro.after c ops) (o : PhyMacro.Op P) :
    ∃ ops, PhyMacro.step c p o = PhyMacro.after c ops := by
  obtain ⟨ops, rfl⟩ := h
  exact ⟨ops ++ [o], by unfold PhyMacro.after; rw [List.foldl_append]; rfl⟩

/-- Facts about one device: its PHY `p` and the transmissions `hd` that have begun to arrive there. -/
structure Dev (c : PhyMacro.Cfg P) (now : ℤ) (sent : List (Tx F P)) (j : Nat) (p : PhyMacro.St P) (hd : List Nat) : Prop where
  phyR : ∃ ops, p = PhyMacro.after c ops
  pnow : p.now = now
  ahead : ∀ e ∈ p.pend, now ≤ e.2.1
  hlen : p.nextId = hd.length
  hnd : hd.Nodup
  hOk : ∀ n ∈ hd, ∃ x, sent[n]? = some x ∧ x.i ≠ j ∧ x.first j ≤ now
  rx : ∀ tid due id pw, (tid, due, PhyMacro.Ev.rxDone id pw) ∈ p.pend →
    ∃ n x, hd[id]? = some n ∧ sent[n]? = some x ∧ due = x.last j ∧ pw = x.pw j
  tx : ∀ tid due n, (tid, due, PhyMacro.Ev.txDone n) ∈ p.pend → ∃ x, sent[n]? = some x ∧ x.i = j ∧ due = x.t + x.dur
  txAll : ∀ n x, sent[n]? = some x → x.i = j → x.t + x.dur ≤ now ∨ ∃ tid, (tid, x.t + (x.dur : ℤ), PhyMacro.Ev.txDone n) ∈ p.pend
  recs : ∀ r ∈ p.ongoing, ∃ n x, hd[r.id]? = some n ∧ sent[n]? = some x ∧ r.start = x.first j ∧ r.dur = x.dur

theorem some_append {α : Type} {l m : List α} {n : Nat} {x : α} (h : l[n]? = some x) : (l ++ m)[n]? = some x := by
  rw [List.getElem?_append_left (List.getElem?_eq_some_iff.1 h).1]; exact h

theorem some_snoc {α : Type} {l : List α} {n : Nat} {x y : α} (h : (l ++ [y])[n]? = some x) :
    l[n]? = some x ∨ (n = l.length ∧ x = y) := by
  rcases lt_trichotomy n l.length with h1 | h1 | h1
  · rw [List.getElem?_append_left h1] at h; exact .inl h
  · subst h1
    rw [List.getElem?_concat_length] at h
    exact .inr ⟨rfl, (Option.some.inj h).symm⟩
  · rw [List.getElem?_eq_none (by simp; omega)] at h; cases h

theorem some_last {α : Type} (l : List α) (y : α) : (l ++ [y])[l.length]? = some y := List.getElem?_concat_length

variable {c : PhyMacro.Cfg P} {now : ℤ} {sent : List (Tx F P)} {j : Nat} {p : PhyMacro.St P} {hd : List Nat}

theorem Dev.inv (h : Dev c now sent j p hd) (hns : 0 ≤ c.ns) : PhyMacro.Inv c p := by
  obtain ⟨ops, e⟩ := h.phyR
  rw [e]; exact PhyMacro.inv_after hns ops

/-- A transmission of another device. -/
theorem Dev.other (h : Dev c now sent j p hd) (y : Tx F P) (hy : y.i ≠ j) : Dev c now (sent ++ [y]) j p hd := by
  refine ⟨h.phyR, h.pnow, h.ahead, h.hlen, h.hnd, ?_, ?_, ?_, ?_, ?_⟩
  · intro n hn
    obtain ⟨x, h1, h2⟩ := h.hOk n hn
    exact ⟨x, some_append h1, h2⟩
  · intro tid due id pw hm
    obtain ⟨n, x, h1, h2, h3⟩ := h.rx _ _ _ _ hm
    exact ⟨n, x, h1, some_append h2, h3⟩
  · intro tid due n hm
    obtain ⟨x, h1, h2⟩ := h.tx _ _ _ hm
    exact ⟨x, some_append h1, h2⟩
  · intro n x hx hi
    rcases some_snoc hx with hx | ⟨-, rfl⟩
    · exact h.txAll n x hx hi
    · exact absurd hi hy
  · intro r hr
    obtain ⟨n, x, h1, h2, h3⟩ := h.recs r hr
    exact ⟨n, x, h1, some_append h2, h3⟩

/-- An own transmission. -/
theorem Dev.send (h : Dev c now sent j p hd) (f : F) (dur : Nat) (delay : Nat → Nat) (pw : Nat → P) (hst : p.state ≠ .tx) :
    Dev c now (sent ++ [⟨now, j, f, dur, delay, pw⟩]) j (PhyMacro.sendPacket sent.length dur p).2 hd := by
  have e : (PhyMacro.sendPacket sent.length dur p).2 = { p.emit (.txStart p.now sent.length) with
      state := .tx, pend := p.pend ++ [(p.nextTid, p.now + (dur : ℤ), .txDone sent.length)], nextTid := p.nextTid + 1 } := by
    unfold PhyMacro.sendPacket; rw [if_neg hst]
  refine ⟨phy_snoc h.phyR (.send sent.length dur), ?_, ?_, ?_, h.hnd, ?_, ?_, ?_, ?_, ?_⟩
  · rw [e]; exact h.pnow
  · intro e' he
    rw [e] at he
    rcases List.mem_append.1 he with he | he
    · exact h.ahead e' he
    · rw [List.mem_singleton.1 he]
      show now ≤ p.now + (dur : ℤ)
      rw [h.pnow]; omega
  · rw [e]; exact h.hlen
  · intro n hn
    obtain ⟨x, h1, h2⟩ := h.hOk n hn
    exact ⟨x, some_append h1, h2⟩
  · intro tid due id pw' hm
    rw [e] at hm
    rcases List.mem_append.1 hm with hm | hm
    · obtain ⟨n, x, h1, h2, h3⟩ := h.rx _ _ _ _ hm
      exact ⟨n, x, h1, some_append h2, h3⟩
    · have := List.mem_singleton.1 hm
      simp at this
  · intro tid due n hm
    rw [e] at hm
    rcases List.mem_append.1 hm with hm | hm
    · obtain ⟨x, h1, h2⟩ := h.tx _ _ _ hm
      exact ⟨x, some_append h1, h2⟩
    · have := List.mem_singleton.1 hm
      simp only [Prod.mk.injEq, PhyMacro.Ev.txDone.injEq] at this
      obtain ⟨-, rfl, rfl⟩ := this
      exact ⟨_, some_last _ _, rfl, by rw [h.pnow]⟩
  · intro n x hx hi
    rcases some_snoc hx with hx | ⟨rfl, rfl⟩
    · rcases h.txAll n x hx hi with h1 | ⟨tid, h1⟩
      · exact .inl h1
      · right
        refine ⟨tid, ?_⟩
        rw [e]; exact List.mem_append_left _ h1
    · right
      refine ⟨p.nextTid, ?_⟩
      rw [e]
      refine List.mem_append_right _ (List.mem_singleton.2 ?_)
      rw [h.pnow]
  · intro r hr
    rw [Stack.send_ongoing] at hr
    obtain ⟨n, x, h1, h2, h3⟩ := h.recs r hr
    exact ⟨n, x, h1, some_append h2, h3⟩

theorem Dev.refused (h : Dev c now sent j p hd) (n dur : Nat) (hst : p.state = .tx) :
    Dev c now sent j (PhyMacro.sendPacket n dur p).2 hd := by
  have e : (PhyMacro.sendPacket n dur p).2 = p.emit (.refused p.now n) := by
    unfold PhyMacro.sendPacket; rw [if_pos hst]
  refine ⟨phy_snoc h.phyR (.send n dur), ?_, ?_, ?_, h.hnd, h.hOk, ?_, ?_, ?_, ?_⟩
  · rw [e]; exact h.pnow
  · rw [e]; exact h.ahead
  · rw [e]; exact h.hlen
  · rw [e]; exact h.rx
  · rw [e]; exact h.tx
  · rw [e]; exact h.txAll
  · rw [Stack.send_ongoing]; exact h.recs

/-- A transmission begins to arrive. -/
theorem Dev.arrive (h : Dev c now sent j p hd) (n : Nat) (x : Tx F P) (hx : sent[n]? = some x) (hi : x.i ≠ j) (hn : n ∉ hd)
    (ht : x.first j = now) : Dev c now sent j (PhyMacro.step c p (.arrive x.dur (x.pw j))) (hd ++ [n]) := by
  obtain ⟨e1, e2, e3⟩ := arrive_data c p x.dur (x.pw j)
  have hl : x.last j = now + x.dur := by rw [← ht]; rfl
  refine ⟨phy_snoc h.phyR _, e3.trans h.pnow, ?_, ?_, ?_, ?_, ?_, ?_, ?_, ?_⟩
  · intro e he
    rw [e1] at he
    rcases List.mem_append.1 he with he | he
    · exact h.ahead e he
    · rw [List.mem_singleton.1 he]
      show now ≤ p.now + (x.dur : ℤ)
      rw [h.pnow]; omega
  · rw [e2, h.hlen]; simp
  · rw [List.nodup_append]
    exact ⟨h.hnd, List.nodup_singleton _, fun a ha b hb => by rw [List.mem_singleton.1 hb]; rintro rfl; exact hn ha⟩
  · intro m hm
    rcases List.mem_append.1 hm with hm | hm
    · exact h.hOk m hm
    · rw [List.mem_singleton.1 hm]
      exact ⟨x, hx, hi, ht.le⟩
  · intro tid due id pw hm
    rw [e1] at hm
    rcases List.mem_append.1 hm with hm | hm
    · obtain ⟨m, y, h1, h2⟩ := h.rx _ _ _ _ hm
      exact ⟨m, y, some_append h1, h2⟩
    · have := List.mem_singleton.1 hm
      simp only [Prod.mk.injEq, PhyMacro.Ev.rxDone.injEq] at this
      obtain ⟨-, rfl, rfl, rfl⟩ := this
      exact ⟨n, x, by rw [h.hlen]; exact some_last _ _, hx, by rw [h.pnow, hl], rfl⟩
  · intro tid due m hm
    rw [e1] at hm
    rcases List.mem_append.1 hm with hm | hm
    · exact h.tx _ _ _ hm
    · have := List.mem_singleton.1 hm
      simp at this
  · intro m y hy hi
    rcases h.txAll m y hy hi with h1 | ⟨tid, h1⟩
    · exact .inl h1
    · exact .inr ⟨tid, by rw [e1]; exact List.mem_append_left _ h1⟩
  · intro r hr
    rw [Stack.arrive_ongoing] at hr
    rcases List.mem_append.1 hr with hr | hr
    · obtain ⟨m, y, h1, h2⟩ := h.recs r hr
      exact ⟨m, y, some_append h1, h2⟩
    · rw [List.mem_singleton.1 hr]
      refine ⟨n, x, ?_, hx, ?_, rfl⟩
      · show (hd ++ [n])[p.nextId]? = _
        rw [h.hlen]; exact some_last _ _
      · show p.now = _
        rw [h.pnow, ht]

/-- An event that is due runs. -/
theorem Dev.fire (h : Dev c now sent j p hd) (tid : Nat) (hd' : ∀ e ∈ p.pend, e.1 = tid → e.2.1 ≤ now) (hnd : (p.pend.map (·.1)).Nodup) :
    Dev c now sent j (PhyMacro.fire c tid p) hd := by
  have sub : ∀ e ∈ (PhyMacro.fire c tid p).pend, e ∈ p.pend := by
    intro e he
    rw [fire_pend] at he
    exact List.mem_of_mem_filter he
  refine ⟨phy_snoc h.phyR (.fire tid), ?_, fun e he => h.ahead e (sub e he), ?_, h.hnd, h.hOk, fun _ _ _ _ hm => h.rx _ _ _ _ (sub _ hm),
    fun _ _ _ hm => h.tx _ _ _ (sub _ hm), ?_, ?_⟩
  · rw [fire_now _ _ _ (by rw [h.pnow]; exact hd')]; exact h.pnow
  · rw [fire_nextId]; exact h.hlen
  · intro n x hx hi
    rcases h.txAll n x hx hi with h1 | ⟨t, h1⟩
    · exact .inl h1
    · by_cases e : t = tid
      · left; exact hd' _ h1 e
      · right
        refine ⟨t, ?_⟩
        rw [fire_pend]
        exact List.mem_filter.2 ⟨h1, by simpa using e⟩
  · rw [Stack.fire_ongoing]; exact h.recs

/-- Time passes. -/
theorem Dev.tick (h : Dev c now sent j p hd) (d : Nat) (hd' : ∀ e ∈ p.pend, now + d ≤ e.2.1) :
    Dev c (now + d) sent j (PhyMacro.step c p (.advance d)) hd := by
  refine ⟨phy_snoc h.phyR _, ?_, hd', h.hlen, h.hnd, ?_, h.rx, h.tx, ?_, h.recs⟩
  · show p.now + (d : ℤ) = _
    rw [h.pnow]
  · intro n hn
    obtain ⟨x, h1, h2, h3⟩ := h.hOk n hn
    exact ⟨x, h1, h2, by omega⟩
  · intro n x hx hi
    rcases h.txAll n x hx hi with h1 | h1
    · left; omega
    · exact .inr h1

/-! ## All devices -/

/-- Is this the reception of transmission `n` by device `j`? -/
def isRx (n j : Nat) : Obs F P → Bool
  | .rx _ n' j' _ => decide (n' = n ∧ j' = j)
  | _ => false

/-- Facts about every reachable state. -/
structure Inv (w : World P) (s : St F P) : Prop where
  dev : ∀ j, Dev (w.pcfg j) s.now s.sent j (s.phy j) (s.heard j)
  past : ∀ (n : Nat) (x : Tx F P), s.sent[n]? = some x → x.t ≤ s.now ∧ x.i < w.num
  fly : ∀ n j, (n, j) ∈ s.fly → ∃ x, s.sent[n]? = some x ∧ x.i ≠ j ∧ j < w.num ∧ s.now ≤ x.first j ∧ n ∉ s.heard j
  all : ∀ (n : Nat) (x : Tx F P) (j : Nat), s.sent[n]? = some x → j < w.num → j ≠ x.i → (n, j) ∈ s.fly ∨ n ∈ s.heard j
  out : ∀ j, w.num ≤ j → s.heard j = []
  logTx : ∀ n x, Obs.tx n x ∈ s.log ↔ s.sent[n]? = some x
  logRx : ∀ t n j f, Obs.rx t n j f ∈ s.log → ∃ x id, (s.heard j)[id]? = some n ∧ s.sent[n]? = some x ∧ f = x.f ∧ t = x.last j ∧
    ∀ tid due pw, (tid, due, PhyMacro.Ev.rxDone id pw) ∉ (s.phy j).pend
  once : ∀ n j, s.log.countP (isRx n j) ≤ 1
  turn : ∀ (n n' : Nat) (x x' : Tx F P), s.sent[n]? = some x → s.sent[n']? = some x' → x.i = x'.i → n < n' → x.t + x.dur ≤ x'.t

theorem Inv.init (w : World P) : Inv w (init F P) := by
  refine ⟨fun j => ⟨⟨[], rfl⟩, rfl, ?_, rfl, List.nodup_nil, ?_, ?_, ?_, ?_, ?_⟩, ?_, ?_, ?_, fun _ _ => rfl, ?_, ?_, fun _ _ => Nat.zero_le _, ?_⟩ <;>
    intros <;> simp_all [Air.init, PhyMacro.init]

variable {w : World P} {s : St F P}

/-- A PHY that is transmitting has the end of a transmission pending, and no other one. -/
theorem txing {c : PhyMacro.Cfg P} {p : PhyMacro.St P} (h : PhyMacro.Inv c p) :
    p.state = .tx ↔ ∃ tid due n, (tid, due, PhyMacro.Ev.txDone n) ∈ p.pend := by
  rw [h.st]
  constructor
  · intro h1
    obtain ⟨n, hn⟩ := Option.ne_none_iff_exists'.1 h1
    have h2 := h.tx
    rw [hn] at h2
    have h3 : n ∈ PhyMacro.txIds p.pend := by rw [h2]; simp
    obtain ⟨⟨t, d, e⟩, h4, h5⟩ := List.mem_filterMap.1 h3
    cases e with
    | txDone m =>
      simp only [Option.some.injEq] at h5
      subst h5
      exact ⟨t, d, m, h4⟩
    | rxDone id pw => simp at h5
  · rintro ⟨t, d, n, hm⟩ h1
    have h2 := h.tx
    rw [h1] at h2
    have h3 : n ∈ PhyMacro.txIds p.pend := List.mem_filterMap.2 ⟨_, hm, rfl⟩
    rw [h2] at h3
    cases h3

theorem Inv.send (hw : w.Wf) (h : Inv w s) (i : Nat) (hi : i < w.num) (f : F) (dur : Nat) (delay : Nat → Nat) (pw : Nat → P) :
    Inv w (send w i f dur delay pw s) := by
  unfold Air.send
  dsimp only
  by_cases hst : (s.phy i).state = .tx
  · have e : (PhyMacro.sendPacket s.sent.length dur (s.phy i)).1 = false := by unfold PhyMacro.sendPacket; rw [if_pos hst]
    rw [if_neg (by rw [e]; decide)]
    refine { h with dev := fun j => ?_, logRx := fun t n j f hm => ?_ }
    · dsimp only
      by_cases ej : j = i
      · subst ej; rw [Function.update_self]; exact (h.dev j).refused _ _ hst
      · rw [Function.update_of_ne ej]; exact h.dev j
    · obtain ⟨x, id, h1, h2, h3, h4, h5⟩ := h.logRx t n j f hm
      refine ⟨x, id, h1, h2, h3, h4, ?_⟩
      dsimp only
      by_cases ej : j = i
      · subst ej
        rw [Function.update_self]
        have e : (PhyMacro.sendPacket s.sent.length dur (s.phy j)).2.pend = (s.phy j).pend := by
          unfold PhyMacro.sendPacket; rw [if_pos hst]; rfl
        rw [e]; exact h5
      · rw [Function.update_of_ne ej]; exact h5
  · have e : (PhyMacro.sendPacket s.sent.length dur (s.phy i)).1 = true := by unfold PhyMacro.sendPacket; rw [if_neg hst]
    rw [if_pos e]
    have hno : ∀ (n : Nat) (x : Tx F P), s.sent[n]? = some x → x.i = i → x.t + x.dur ≤ s.now := by
      intro n x hx hxi
      rcases (h.dev i).txAll n x hx hxi with h1 | ⟨tid, h1⟩
      · exact h1
      · exact absurd ((txing ((h.dev i).inv (hw i))).2 ⟨_, _, _, h1⟩) hst
    constructor
    · intro j
      dsimp only
      by_cases ej : j = i
      · subst ej; rw [Function.update_self]; exact (h.dev j).send f dur delay pw hst
      · rw [Function.update_of_ne ej]; exact (h.dev j).other _ (fun h => ej h.symm)
    · intro n x hx
      rcases some_snoc hx with hx | ⟨-, rfl⟩
      · exact h.past n x hx
      · exact ⟨le_refl _, hi⟩
    · intro n j hm
      rcases List.mem_append.1 hm with hm | hm
      · obtain ⟨x, h1, h2⟩ := h.fly n j hm
        exact ⟨x, some_append h1, h2⟩
      · obtain ⟨j', h1, h2⟩ := List.mem_map.1 hm
        simp only [Prod.mk.injEq] at h2
        obtain ⟨rfl, rfl⟩ := h2
        have h3 := List.mem_filter.1 h1
        refine ⟨_, some_last _ _, fun e => ?_, List.mem_range.1 h3.1, ?_, fun hm => ?_⟩
        · have := h3.2
          simp only [ne_eq, decide_eq_true_eq] at this
          exact this e.symm
        · show s.now ≤ s.now + (delay j' : ℤ); omega
        · obtain ⟨x, h1, -⟩ := (h.dev j').hOk _ hm
          have := (List.getElem?_eq_some_iff.1 h1).1
          omega
    · intro n x j hx hj hji
      rcases some_snoc hx with hx | ⟨rfl, rfl⟩
      · rcases h.all n x j hx hj hji with h1 | h1
        · exact .inl (List.mem_append_left _ h1)
        · exact .inr h1
      · left
        refine List.mem_append_right _ (List.mem_map.2 ⟨j, List.mem_filter.2 ⟨List.mem_range.2 hj, ?_⟩, rfl⟩)
        simpa using hji
    · exact h.out
    · intro n x
      dsimp only
      rw [List.mem_append, List.mem_singleton, h.logTx]
      constructor
      · rintro (h1 | h1)
        · exact some_append h1
        · injection h1 with h1 h2
          subst h1 h2
          exact some_last _ _
      · intro h1
        rcases some_snoc h1 with h1 | ⟨rfl, rfl⟩
        · exact .inl h1
        · exact .inr rfl
    · intro t n j f' hm
      rcases List.mem_append.1 hm with hm | hm
      · obtain ⟨x, id, h1, h2, h3, h4, h5⟩ := h.logRx t n j f' hm
        refine ⟨x, id, h1, some_append h2, h3, h4, ?_⟩
        dsimp only
        by_cases ej : j = i
        · subst ej
          rw [Function.update_self]
          have e : (PhyMacro.sendPacket s.sent.length dur (s.phy j)).2.pend =
              (s.phy j).pend ++ [((s.phy j).nextTid, (s.phy j).now + (dur : ℤ), .txDone s.sent.length)] := by
            unfold PhyMacro.sendPacket; rw [if_neg hst]
          rw [e]
          intro tid due pw' hm
          rcases List.mem_append.1 hm with hm | hm
          · exact h5 _ _ _ hm
          · have := List.mem_singleton.1 hm
            simp at this
        · rw [Function.update_of_ne ej]; exact h5
      · have := List.mem_singleton.1 hm
        cases this
    · intro n j
      dsimp only
      rw [List.countP_append, List.countP_singleton]
      exact h.once n j
    · intro n n' x x' hx hx' hii hn
      rcases some_snoc hx with hx | ⟨rfl, rfl⟩
      · rcases some_snoc hx' with hx' | ⟨rfl, rfl⟩
        · exact h.turn n n' x x' hx hx' hii hn
        · exact hno n x hx hii
      · have := (List.getElem?_eq_some_iff.1 hx').1
        simp at this
        omega

theorem Inv.land (h : Inv w s) (n j : Nat) (hm : (n, j) ∈ s.fly) (hdue : dueBy s s.now (n, j) = true) : Inv w (land w n j s) := by
  obtain ⟨x, hx, hxi, hj, hle, hnh⟩ := h.fly n j hm
  have hfirst : x.first j = s.now := by
    unfold dueBy at hdue
    dsimp only at hdue
    rw [hx] at hdue
    have : x.first j ≤ s.now := by simpa using hdue
    omega
  unfold Air.land
  rw [hx]
  dsimp only
  constructor
  · intro j'
    dsimp only
    by_cases e : j' = j
    · subst e
      rw [Function.update_self, Function.update_self]
      exact (h.dev j').arrive n x hx hxi hnh hfirst
    · rw [Function.update_of_ne e, Function.update_of_ne e]; exact h.dev j'
  · exact h.past
  · intro m k hmk
    have h1 := List.mem_filter.1 hmk
    obtain ⟨y, h2, h3, h4, h5, h6⟩ := h.fly m k h1.1
    refine ⟨y, h2, h3, h4, h5, ?_⟩
    dsimp only
    by_cases e : k = j
    · subst e
      rw [Function.update_self, List.mem_append, List.mem_singleton]
      rintro (h7 | h7)
      · exact h6 h7
      · subst h7
        have := h1.2
        simp at this
    · rw [Function.update_of_ne e]; exact h6
  · intro m y k hy hk hky
    dsimp only
    rcases h.all m y k hy hk hky with h1 | h1
    · by_cases e : (m, k) = (n, j)
      · right
        simp only [Prod.mk.injEq] at e
        obtain ⟨rfl, rfl⟩ := e
        rw [Function.update_self]; simp
      · left; exact List.mem_filter.2 ⟨h1, decide_eq_true e⟩
    · right
      by_cases e : k = j
      · subst e; rw [Function.update_self]; exact List.mem_append_left _ h1
      · rw [Function.update_of_ne e]; exact h1
  · intro k hk
    dsimp only
    rw [Function.update_of_ne (by omega)]; exact h.out k hk
  · exact h.logTx
  · intro t m k f hmk
    obtain ⟨y, id, h1, h2, h3, h4, h5⟩ := h.logRx t m k f hmk
    dsimp only
    by_cases e : k = j
    · subst e
      rw [Function.update_self, Function.update_self]
      refine ⟨y, id, some_append h1, h2, h3, h4, fun tid due pw hq => ?_⟩
      rw [(arrive_data _ _ _ _).1] at hq
      rcases List.mem_append.1 hq with hq | hq
      · exact h5 _ _ _ hq
      · have := List.mem_singleton.1 hq
        simp only [Prod.mk.injEq, PhyMacro.Ev.rxDone.injEq] at this
        have h7 := (List.getElem?_eq_some_iff.1 h1).1
        have h8 := (h.dev k).hlen
        omega
    · rw [Function.update_of_ne e, Function.update_of_ne e]
      exact ⟨y, id, h1, h2, h3, h4, h5⟩
  · exact h.once
  · exact h.turn

theorem nodup_idx {α : Type} {l : List α} (h : l.Nodup) {i j : Nat} {a : α} (hi : l[i]? = some a) (hj : l[j]? = some a) : i = j :=
  (List.getElem?_inj (List.getElem?_eq_some_iff.1 hi).1 h).1 (hi.trans hj.symm)

/-- Ends of arrivals are pending once. -/
theorem rx_unique {c : PhyMacro.Cfg P} {p : PhyMacro.St P} (h : PhyMacro.Inv c p) {tid tid' : Nat} {due due' : ℤ} {id : Nat} {pw pw' : P}
    (h1 : (tid, due, PhyMacro.Ev.rxDone id pw) ∈ p.pend) (h2 : (tid', due', PhyMacro.Ev.rxDone id pw') ∈ p.pend) : tid = tid' := by
  have key : ∀ l : List (Nat × ℤ × PhyMacro.Ev P), (PhyMacro.rxIds l).Nodup → (tid, due, PhyMacro.Ev.rxDone id pw) ∈ l →
      (tid', due', PhyMacro.Ev.rxDone id pw') ∈ l → tid = tid' := by
    intro l
    induction l with
    | nil => intro _ h; cases h
    | cons e l ih =>
      intro hn h1 h2
      have mem : ∀ {t d q}, (t, d, PhyMacro.Ev.rxDone id q) ∈ l → id ∈ PhyMacro.rxIds l := fun hm => List.mem_filterMap.2 ⟨_, hm, rfl⟩
      have hcons : PhyMacro.rxIds (e :: l) = PhyMacro.rxIds [e] ++ PhyMacro.rxIds l := PhyMacro.rxIds_append [e] l
      rw [hcons] at hn
      have hn' := List.nodup_append.1 hn
      rcases List.mem_cons.1 h1 with q1 | q1 <;> rcases List.mem_cons.1 h2 with q2 | q2
      · rw [← q1] at q2; simp only [Prod.mk.injEq] at q2; exact q2.1.symm
      · subst q1; exact absurd rfl (hn'.2.2 id (by simp [PhyMacro.rxIds]) id (mem q2))
      · subst q2; exact absurd rfl (hn'.2.2 id (by simp [PhyMacro.rxIds]) id (mem q1))
      · exact ih hn'.2.1 q1 q2
  exact key _ h.rxNodup h1 h2

/-- What an event of a PHY adds to the log. -/
theorem fire_log (h : Inv w s) (i tid : Nat) (hd : ∀ e ∈ (s.phy i).pend, e.1 = tid → e.2.1 ≤ s.now) :
    (fire w i tid s).log = s.log ∨ ∃ due id pw n x, (tid, due, PhyMacro.Ev.rxDone id pw) ∈ (s.phy i).pend ∧
      (s.heard i)[id]? = some n ∧ s.sent[n]? = some x ∧ x.last i = s.now ∧
      (fire w i tid s).log = s.log ++ [.rx s.now n i x.f] := by
  unfold Air.fire
  dsimp only
  rcases fire_okIn (w.pcfg i) tid (s.phy i) with h1 | ⟨due, id, pw, h1, h2⟩
  · left; rw [h1]; simp
  · right
    obtain ⟨n, x, h3, h4, h5, -⟩ := (h.dev i).rx _ _ _ _ h1
    refine ⟨due, id, pw, n, x, h1, h3, h4, ?_, ?_⟩
    · have h6 := hd _ h1 rfl
      have h7 := (h.dev i).ahead _ h1
      simp only at h6 h7
      omega
    · rw [h2]
      simp [given, h3, h4]

theorem Inv.fire (hw : w.Wf) (h : Inv w s) (i tid : Nat) (hd : ∀ e ∈ (s.phy i).pend, e.1 = tid → e.2.1 ≤ s.now) :
    Inv w (fire w i tid s) := by
  have hlog := fire_log h i tid hd
  have hsub : ∀ k e, e ∈ ((Air.fire w i tid s).phy k).pend → e ∈ (s.phy k).pend := by
    intro k e he
    unfold Air.fire at he
    dsimp only at he
    by_cases ek : k = i
    · subst ek
      rw [Function.update_self, fire_pend] at he
      exact List.mem_of_mem_filter he
    · rwa [Function.update_of_ne ek] at he
  constructor
  · intro j
    unfold Air.fire
    dsimp only
    by_cases e : j = i
    · subst e; rw [Function.update_self]; exact (h.dev j).fire tid hd ((h.dev j).inv (hw j)).tid
    · rw [Function.update_of_ne e]; exact h.dev j
  · exact h.past
  · exact h.fly
  · exact h.all
  · exact h.out
  · intro n x
    rcases hlog with h1 | ⟨_, _, _, n', x', -, -, -, -, h1⟩
    · rw [h1]; exact h.logTx n x
    · rw [h1, List.mem_append, List.mem_singleton, h.logTx]
      constructor
      · rintro (h2 | h2)
        · exact h2
        · cases h2
      · exact .inl
  · intro t n j f hm
    rcases hlog with h1 | ⟨due, id, pw, n', x', g1, g2, g3, g4, h1⟩
    · rw [h1] at hm
      obtain ⟨x, id, h2, h3, h4, h5, h6⟩ := h.logRx t n j f hm
      exact ⟨x, id, h2, h3, h4, h5, fun tid' due' pw' hq => h6 _ _ _ (hsub _ _ hq)⟩
    · rw [h1] at hm
      rcases List.mem_append.1 hm with hm | hm
      · obtain ⟨x, id, h2, h3, h4, h5, h6⟩ := h.logRx t n j f hm
        exact ⟨x, id, h2, h3, h4, h5, fun tid' due' pw' hq => h6 _ _ _ (hsub _ _ hq)⟩
      · have := List.mem_singleton.1 hm
        injection this with q1 q2 q3 q4
        subst q1 q2 q3 q4
        refine ⟨x', id, g2, g3, rfl, g4.symm, fun tid' due' pw' hq => ?_⟩
        have e := rx_unique ((h.dev j).inv (hw j)) (hsub _ _ hq) g1
        subst e
        unfold Air.fire at hq
        dsimp only at hq
        rw [Function.update_self, fire_pend] at hq
        have := (List.mem_filter.1 hq).2
        simp at this
  · intro n j
    rcases hlog with h1 | ⟨due, id, pw, n', x', g1, g2, g3, g4, h1⟩
    · rw [h1]; exact h.once n j
    · rw [h1, List.countP_append, List.countP_singleton]
      by_cases e : n' = n ∧ i = j
      · obtain ⟨rfl, rfl⟩ := e
        have h0 : s.log.countP (isRx n' i) = 0 := by
          rw [List.countP_eq_zero]
          intro o ho hq
          cases o with
          | tx n x => simp [isRx] at hq
          | rx t m k f =>
            simp only [isRx, decide_eq_true_eq] at hq
            obtain ⟨rfl, rfl⟩ := hq
            obtain ⟨x, id', h2, -, -, -, h6⟩ := h.logRx _ _ _ _ ho
            have e := nodup_idx (h.dev k).hnd h2 g2
            subst e
            exact h6 _ _ _ g1
        rw [h0]
        split <;> omega
      · rw [if_neg (by simpa [isRx] using e)]
        exact h.once n j
  · exact h.turn

theorem Inv.tick (h : Inv w s) (d : Nat) (h1 : ∀ z ∈ s.fly, dueFrom s (s.now + d) z = true)
    (h2 : ∀ i < w.num, ∀ e ∈ (s.phy i).pend, s.now + d ≤ e.2.1) : Inv w (tick w d s) := by
  have hempty : ∀ j, w.num ≤ j → (s.phy j).pend = [] := by
    intro j hj
    rw [List.eq_nil_iff_forall_not_mem]
    rintro ⟨tid, due, e⟩ he
    cases e with
    | txDone n =>
      obtain ⟨x, h3, h4, -⟩ := (h.dev j).tx _ _ _ he
      have := (h.past n x h3).2
      omega
    | rxDone id pw =>
      obtain ⟨n, x, h3, -⟩ := (h.dev j).rx _ _ _ _ he
      rw [h.out j hj] at h3
      simp at h3
  unfold Air.tick
  constructor
  · intro j
    refine (h.dev j).tick d ?_
    by_cases hj : j < w.num
    · exact h2 j hj
    · rw [hempty j (by omega)]; intro e he; cases he
  · intro n x hx
    have := h.past n x hx
    exact ⟨by show x.t ≤ s.now + (d : ℤ); omega, this.2⟩
  · intro n j hm
    obtain ⟨x, h3, h4, h5, h6, h7⟩ := h.fly n j hm
    refine ⟨x, h3, h4, h5, ?_, h7⟩
    have := h1 _ hm
    unfold dueFrom at this
    dsimp only at this
    rw [h3] at this
    simpa using this
  · exact h.all
  · exact h.out
  · exact h.logTx
  · exact h.logRx
  · exact h.once
  · exact h.turn

theorem Inv.step (hw : w.Wf) (h : Inv w s) (o : Op F P) : Inv w (step w s o) := by
  unfold Air.step
  split
  · rename_i ha
    cases o with
    | send i f dur delay pw => exact h.send hw i (by simpa [allowed] using ha) f dur delay pw
    | land n j =>
      simp only [allowed, Bool.and_eq_true, decide_eq_true_eq] at ha
      exact h.land n j ha.1 ha.2
    | fire i tid =>
      simp only [allowed, Bool.and_eq_true, List.all_eq_true, Bool.or_eq_true, decide_eq_true_eq] at ha
      exact h.fire hw i tid (fun e he het => (ha.2 e he).resolve_left (fun hne => hne het))
    | tick d =>
      simp only [allowed, Bool.and_eq_true, List.all_eq_true, decide_eq_true_eq] at ha
      exact h.tick d ha.1 (fun i hi e he => ha.2 i (List.mem_range.2 hi) e he)
  · exact h

theorem inv_after (hw : w.Wf) (ops : List (Op F P)) : Inv w (after w ops) := by
  suffices ∀ s : St F P, Inv w s → Inv w (ops.foldl (Air.step w) s) from this _ (.init w)
  induction ops with
  | nil => exact fun s h => h
  | cons o ops ih => exact fun s h => ih _ (h.step hw o)

end Thz.Air
