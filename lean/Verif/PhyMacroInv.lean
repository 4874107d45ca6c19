import Verif.PhyMacro
import Mathlib.Data.List.Nodup

/-!
# Invariants of the macro PHY
-/

namespace Thz.PhyMacro

variable {P : Type} {c : Cfg P}

/-! ## Vocabulary over the log -/

/-- The frame being transmitted at the end of this log, if any. -/
def cur (l : List (Obs P)) : Option Nat :=
  l.foldl (fun b o => match o with
    | .txStart _ id => some id
    | .txEnd _ _ => none
    | _ => b) none

/-- The signals that arrived so far, in order. -/
def arrivals (l : List (Obs P)) : List (Rx P) :=
  l.filterMap fun o => match o with
    | .rxBegin t id d pw => some ⟨id, t, d, pw⟩
    | _ => none

/-- The results reported for an arriving frame, in order. -/
def notices (id : Nat) (l : List (Obs P)) : List Bool :=
  l.filterMap fun o => match o with
    | .notice _ i ok => if i = id then some ok else none
    | _ => none

/-- The ids of pending ends of reception. -/
def rxIds (l : List (Nat × ℤ × Ev P)) : List Nat :=
  l.filterMap fun e => match e.2.2 with
    | .rxDone id _ => some id
    | _ => none

/-- The ids of pending ends of transmission. -/
def txIds (l : List (Nat × ℤ × Ev P)) : List Nat :=
  l.filterMap fun e => match e.2.2 with
    | .txDone id => some id
    | _ => none

theorem cur_append (l m : List (Obs P)) : cur (l ++ m) = m.foldl (fun b o => match o with
    | .txStart _ id => some id
    | .txEnd _ _ => none
    | _ => b) (cur l) := by
  unfold cur; rw [List.foldl_append]

theorem arrivals_append (l m : List (Obs P)) : arrivals (l ++ m) = arrivals l ++ arrivals m := List.filterMap_append

theorem notices_append (id : Nat) (l m : List (Obs P)) : notices id (l ++ m) = notices id l ++ notices id m :=
  List.filterMap_append

theorem mem_arrivals {l : List (Obs P)} {r : Rx P} : r ∈ arrivals l ↔ Obs.rxBegin r.start r.id r.dur r.pw ∈ l := by
  unfold arrivals
  rw [List.mem_filterMap]
  constructor
  · rintro ⟨o, ho, h⟩
    cases o <;> simp at h
    subst h; exact ho
  · intro h
    exact ⟨_, h, rfl⟩

/-! ## Moves -/

/-- A signal is recorded. -/
def arrived (dur : Nat) (pw : P) (s : St P) : St P :=
  { s with
    log := s.log ++ [.rxBegin s.now s.nextId dur pw]
    ongoing := s.ongoing ++ [⟨s.nextId, s.now, dur, pw⟩]
    pend := s.pend ++ [(s.nextTid, s.now + dur, .rxDone s.nextId pw)]
    nextTid := s.nextTid + 1, nextId := s.nextId + 1 }

/-- Carrier sense at the end of a signal. -/
def released (c : Cfg P) (due : ℤ) (s : St P) : Bool :=
  if s.csBusyEnd ≤ max s.now due + c.ns then false else s.csBusy

/-- The end of a signal. -/
def ended (c : Cfg P) (a b : List (Nat × ℤ × Ev P)) (due : ℤ) (st : State) (os : List (Obs P)) (s : St P) : St P :=
  { s with now := max s.now due, pend := a ++ b, csBusy := released c due s, state := st, log := s.log ++ os }

/-- The cases of one operation. -/
inductive Move (c : Cfg P) (s : St P) : St P → Prop
  | wait (d : Nat) : Move c s { s with now := s.now + d }
  | refuse (id : Nat) : s.state = .tx → Move c s (s.emit (.refused s.now id))
  | start (id dur : Nat) : s.state ≠ .tx → Move c s { s with
      log := s.log ++ [.txStart s.now id], state := .tx
      pend := s.pend ++ [(s.nextTid, s.now + dur, .txDone id)], nextTid := s.nextTid + 1 }
  | stop (a b : List (Nat × ℤ × Ev P)) (tid : Nat) (due : ℤ) (id : Nat) : s.pend = a ++ (tid, due, .txDone id) :: b →
      Move c s { s with now := max s.now due, pend := a ++ b, state := .idle, log := s.log ++ [.txEnd (max s.now due) id] }
  | deaf (dur : Nat) (pw : P) : (s.state = .tx ∨ c.loud pw = false ∨ s.now + dur ≤ s.csBusyEnd) → Move c s (arrived dur pw s)
  | lock (dur : Nat) (pw : P) : s.state ≠ .tx → c.loud pw = true → s.csBusyEnd < s.now + dur → s.csBusy = false →
      Move c s { arrived dur pw s with
        log := s.log ++ [.rxBegin s.now s.nextId dur pw, .announced s.now s.nextId]
        csBusy := true, pktRx := some s.nextId, state := .rx, csBusyEnd := s.now + dur }
  | stretch (dur : Nat) (pw : P) : s.state ≠ .tx → c.loud pw = true → s.csBusyEnd < s.now + dur → s.csBusy = true →
      Move c s { arrived dur pw s with state := .rx, csBusyEnd := s.now + dur }
  | pass (a b : List (Nat × ℤ × Ev P)) (tid : Nat) (due : ℤ) (id : Nat) (pw : P) :
      s.pend = a ++ (tid, due, .rxDone id pw) :: b → s.state ≠ .rx →
      Move c s (ended c a b due s.state [.rxEnd (max s.now due) id] s)
  | good (a b : List (Nat × ℤ × Ev P)) (tid : Nat) (due : ℤ) (id : Nat) (pw : P) :
      s.pend = a ++ (tid, due, .rxDone id pw) :: b → s.state = .rx → s.pktRx = some id →
      c.sinr pw (interferers id (max s.now due) s.ongoing) = true →
      Move c s (ended c a b due .idle [.rxEnd (max s.now due) id, .notice (max s.now due) id true] s)
  | bad (a b : List (Nat × ℤ × Ev P)) (tid : Nat) (due : ℤ) (id : Nat) (pw : P) :
      s.pend = a ++ (tid, due, .rxDone id pw) :: b → s.state = .rx → s.pktRx = some id →
      c.sinr pw (interferers id (max s.now due) s.ongoing) = false → released c due s = true →
      Move c s (ended c a b due .idle [.rxEnd (max s.now due) id, .notice (max s.now due) id false] s)
  | bad2 (a b : List (Nat × ℤ × Ev P)) (tid : Nat) (due : ℤ) (id : Nat) (pw : P) :
      s.pend = a ++ (tid, due, .rxDone id pw) :: b → s.state = .rx → s.pktRx = some id →
      c.sinr pw (interferers id (max s.now due) s.ongoing) = false → released c due s = false →
      Move c s (ended c a b due .idle
        [.rxEnd (max s.now due) id, .notice (max s.now due) id false, .notice (max s.now due) id false] s)
  | drop (a b : List (Nat × ℤ × Ev P)) (tid : Nat) (due : ℤ) (id : Nat) (pw : P) :
      s.pend = a ++ (tid, due, .rxDone id pw) :: b → s.state = .rx → s.pktRx ≠ some id → released c due s = false →
      Move c s (ended c a b due .idle [.rxEnd (max s.now due) id, .notice (max s.now due) id false] s)
  | mute (a b : List (Nat × ℤ × Ev P)) (tid : Nat) (due : ℤ) (id : Nat) (pw : P) :
      s.pend = a ++ (tid, due, .rxDone id pw) :: b → s.state = .rx → s.pktRx ≠ some id → released c due s = true →
      Move c s (ended c a b due .rx [.rxEnd (max s.now due) id] s)

/-- Taking one event out of the pending ones. -/
theorem take_pend {l : List (Nat × ℤ × Ev P)} (hn : (l.map (·.1)).Nodup) {tid : Nat} {e : Nat × ℤ × Ev P}
    (hf : l.find? (fun e => e.1 = tid) = some e) :
    e.1 = tid ∧ ∃ a b, l = a ++ e :: b ∧ l.filter (fun e => e.1 ≠ tid) = a ++ b := by
  have ht : e.1 = tid := by simpa using List.find?_some hf
  refine ⟨ht, ?_⟩
  obtain ⟨a, b, hl⟩ := List.append_of_mem (List.mem_of_find?_eq_some hf)
  refine ⟨a, b, hl, ?_⟩
  rw [hl, List.map_append, List.map_cons] at hn
  have hn' := List.nodup_append.1 hn
  have hb := (List.nodup_cons.1 hn'.2.1).1
  rw [hl, List.filter_append, List.filter_cons_of_neg (by simp [ht])]
  congr 1
  · refine List.filter_eq_self.2 (fun x hx => ?_)
    have := hn'.2.2 x.1 (List.mem_map_of_mem hx) e.1 List.mem_cons_self
    simp [← ht, this]
  · refine List.filter_eq_self.2 (fun x hx => ?_)
    have : x.1 ≠ e.1 := fun h => hb (h ▸ List.mem_map_of_mem hx)
    simp [← ht, this]

theorem step_move (s : St P) (o : Op P) (hn : (s.pend.map (·.1)).Nodup) : Move c s (step c s o) := by
  cases o with
  | send id dur =>
    show Move c s (sendPacket id dur s).2
    unfold sendPacket
    split
    · rename_i h; exact .refuse id h
    · rename_i h; exact .start id dur h
  | advance d => exact .wait d
  | arrive dur pw =>
    show Move c s (receivePacket c dur pw s)
    unfold receivePacket
    dsimp only
    unfold sense
    split
    · rename_i h; exact .deaf dur pw (.inl h)
    · rename_i h
      split
      · rename_i h2
        split
        · rename_i h3
          have := Move.lock (c := c) (s := s) dur pw h h2.1 h2.2 h3
          simpa [arrived, St.emit] using this
        · rename_i h3
          exact .stretch dur pw h h2.1 h2.2 (by have : ¬ s.csBusy = false := h3; simpa using this)
      · rename_i h2
        refine .deaf dur pw (.inr ?_)
        by_cases hl : c.loud pw = true
        · right
          have : ¬ (s.now + (dur : ℤ) > s.csBusyEnd) := fun h => h2 ⟨hl, h⟩
          omega
        · left; simpa using hl
  | fire tid =>
    show Move c s (fire c tid s)
    unfold fire
    cases hf : s.pend.find? (fun e => e.1 = tid) with
    | none => have := Move.wait (c := c) (s := s) 0; simpa using this
    | some e =>
      obtain ⟨t, due, ev⟩ := e
      obtain ⟨_, a, b, hl, hb⟩ := take_pend hn hf
      dsimp only
      rw [hb]
      cases ev with
      | txDone id => exact .stop a b t due id hl
      | rxDone id pw =>
        show Move c s (conclude c id pw (ended c a b due s.state [.rxEnd (max s.now due) id] s))
        unfold conclude
        have e1 : (ended c a b due s.state [.rxEnd (max s.now due) id] s).state = s.state := rfl
        have e2 : (ended c a b due s.state [.rxEnd (max s.now due) id] s).pktRx = s.pktRx := rfl
        have e3 : (ended c a b due s.state [.rxEnd (max s.now due) id] s).csBusy = released c due s := rfl
        have e4 : (ended c a b due s.state [.rxEnd (max s.now due) id] s).now = max s.now due := rfl
        have e5 : (ended c a b due s.state [.rxEnd (max s.now due) id] s).ongoing = s.ongoing := rfl
        dsimp only
        rw [e1, e2, e3, e4, e5]
        by_cases hst : s.state = .rx
        · rw [if_neg (fun h => h hst)]
          by_cases hp : some id = s.pktRx
          · rw [if_pos hp]
            by_cases hs : c.sinr pw (interferers id (max s.now due) s.ongoing) = true
            · rw [if_pos hs]
              have := Move.good (c := c) (s := s) a b t due id pw hl hst hp.symm hs
              simpa [ended, St.emit] using this
            · rw [if_neg hs]
              cases hr : released c due s
              · have := Move.bad2 (c := c) (s := s) a b t due id pw hl hst hp.symm (by simpa using hs) hr
                simpa [ended, St.emit, hr] using this
              · have := Move.bad (c := c) (s := s) a b t due id pw hl hst hp.symm (by simpa using hs) hr
                simpa [ended, St.emit, hr] using this
          · rw [if_neg hp]
            have hp' : s.pktRx ≠ some id := fun h => hp h.symm
            cases hr : released c due s
            · have := Move.drop (c := c) (s := s) a b t due id pw hl hst hp' hr
              simpa [ended, St.emit, hr] using this
            · have := Move.mute (c := c) (s := s) a b t due id pw hl hst hp' hr
              rw [← hst] at this
              simpa [ended, St.emit, hr] using this
        · rw [if_pos hst]
          exact .pass a b t due id pw hl hst

/-! ## The invariant -/

theorem rxIds_append (l m : List (Nat × ℤ × Ev P)) : rxIds (l ++ m) = rxIds l ++ rxIds m := List.filterMap_append

theorem txIds_append (l m : List (Nat × ℤ × Ev P)) : txIds (l ++ m) = txIds l ++ txIds m := List.filterMap_append

/-- What holds in every reachable state. -/
structure Inv (c : Cfg P) (s : St P) : Prop where
  tid : (s.pend.map (·.1)).Nodup
  tidLt : ∀ e ∈ s.pend, e.1 < s.nextTid
  tx : txIds s.pend = (cur s.log).toList
  st : s.state = .tx ↔ cur s.log ≠ none
  rxNodup : (rxIds s.pend).Nodup
  rxLt : ∀ i ∈ rxIds s.pend, i < s.nextId
  due : ∀ e ∈ s.pend, ∀ id pw, e.2.2 = .rxDone id pw → ∃ t d, Obs.rxBegin t id d pw ∈ s.log ∧ e.2.1 = t + d
  ong : s.ongoing = arrivals s.log
  ids : (arrivals s.log).map (·.id) = List.range s.nextId
  told : ∀ id, notices id s.log ≠ [] → id < s.nextId ∧ id ∉ rxIds s.pend
  nums : ∀ id, notices id s.log ∈ [[], [true], [false], [false, false]]
  busy : s.csBusy = true → ∃ e ∈ s.pend, ∃ id pw, e.2.2 = .rxDone id pw ∧ e.2.1 = s.csBusyEnd
  rxBusy : s.state = .rx → s.csBusy = true
  free : s.csBusy = false → s.csBusyEnd ≤ s.now + c.ns

theorem Inv.init (hns : 0 ≤ c.ns) : Inv c (init P) := by
  constructor <;> simp [PhyMacro.init, txIds, rxIds, cur, arrivals, notices, hns]

theorem Inv.wait {s : St P} (i : Inv c s) (d : Nat) : Inv c { s with now := s.now + d } :=
  { i with free := fun h => by have := i.free h; show s.csBusyEnd ≤ s.now + d + c.ns; omega }

theorem Inv.refuse {s : St P} (i : Inv c s) (id : Nat) : Inv c (s.emit (.refused s.now id)) := by
  refine { i with tx := ?_, st := ?_, due := ?_, ong := ?_, ids := ?_, told := ?_, nums := ?_ }
  · show txIds s.pend = (cur (s.log ++ _)).toList; rw [cur_append]; exact i.tx
  · show _ ↔ cur (s.log ++ _) ≠ none; rw [cur_append]; exact i.st
  · intro e he id pw h
    obtain ⟨t, d, h1, h2⟩ := i.due e he id pw h
    exact ⟨t, d, List.mem_append_left _ h1, h2⟩
  · show s.ongoing = arrivals (s.log ++ _); rw [arrivals_append, i.ong]; simp [arrivals]
  · show (arrivals (s.log ++ _)).map _ = List.range s.nextId; rw [arrivals_append, ← i.ids]; simp [arrivals]
  · intro id h
    refine i.told id ?_
    intro h'; apply h
    show notices id (s.log ++ _) = []; rw [notices_append, h']; simp [notices]
  · intro id
    show notices id (s.log ++ _) ∈ _; rw [notices_append]
    simpa [notices] using i.nums id

theorem Inv.start {s : St P} (i : Inv c s) (id dur : Nat) (hs : s.state ≠ .tx) : Inv c { s with
      log := s.log ++ [.txStart s.now id], state := .tx
      pend := s.pend ++ [(s.nextTid, s.now + dur, .txDone id)], nextTid := s.nextTid + 1 } := by
  have hc : cur s.log = none := by
    by_contra h; exact hs (i.st.2 h)
  have hr : rxIds (s.pend ++ [(s.nextTid, s.now + (dur : ℤ), Ev.txDone id)]) = rxIds s.pend := by
    rw [rxIds_append]; simp [rxIds]
  refine { i with tid := ?_, tidLt := ?_, tx := ?_, st := ?_, rxNodup := ?_, rxLt := ?_, due := ?_, ong := ?_, ids := ?_,
                  told := ?_, nums := ?_, busy := ?_, rxBusy := ?_ }
  · show ((s.pend ++ _).map _).Nodup
    rw [List.map_append]
    refine List.nodup_append.2 ⟨i.tid, by simp, ?_⟩
    intro a ha b hb
    simp at hb; subst hb
    obtain ⟨e, he, rfl⟩ := List.mem_map.1 ha
    exact Nat.ne_of_lt (i.tidLt e he)
  · intro e he
    rcases List.mem_append.1 he with h | h
    · exact Nat.lt_succ_of_lt (i.tidLt e h)
    · rw [List.mem_singleton.1 h]; exact Nat.lt_succ_self _
  · show txIds (s.pend ++ _) = (cur (s.log ++ _)).toList
    rw [txIds_append, cur_append, i.tx, hc]; simp [txIds]
  · show State.tx = .tx ↔ cur (s.log ++ _) ≠ none
    rw [cur_append]; simp
  · show (rxIds (s.pend ++ _)).Nodup; rw [hr]; exact i.rxNodup
  · intro j hj
    have : j ∈ rxIds s.pend := by rw [← hr]; exact hj
    exact i.rxLt j this
  · intro e he id pw h
    rcases List.mem_append.1 he with he | he
    · obtain ⟨t, d, h1, h2⟩ := i.due e he id pw h
      exact ⟨t, d, List.mem_append_left _ h1, h2⟩
    · rw [List.mem_singleton.1 he] at h; cases h
  · show s.ongoing = arrivals (s.log ++ _); rw [arrivals_append, i.ong]; simp [arrivals]
  · show (arrivals (s.log ++ _)).map _ = List.range s.nextId; rw [arrivals_append, ← i.ids]; simp [arrivals]
  · intro j h
    show j < s.nextId ∧ j ∉ rxIds (s.pend ++ _)
    rw [hr]
    refine i.told j ?_
    intro h'; apply h
    show notices j (s.log ++ _) = []; rw [notices_append, h']; simp [notices]
  · intro j
    show notices j (s.log ++ _) ∈ _; rw [notices_append]
    simpa [notices] using i.nums j
  · intro h
    obtain ⟨e, he, h'⟩ := i.busy h
    exact ⟨e, List.mem_append_left _ he, h'⟩
  · intro h; cases h

theorem Inv.stop {s : St P} (i : Inv c s) {a b : List (Nat × ℤ × Ev P)} {tid : Nat} {due : ℤ} {id : Nat}
    (hp : s.pend = a ++ (tid, due, .txDone id) :: b) :
    cur s.log = some id ∧ Inv c { s with
      now := max s.now due, pend := a ++ b, state := .idle, log := s.log ++ [.txEnd (max s.now due) id] } := by
  have htx := i.tx
  rw [hp, txIds_append] at htx
  have hcons : txIds ((tid, due, Ev.txDone id) :: b) = id :: txIds b := by simp [txIds]
  rw [hcons] at htx
  have hcur : cur s.log = some id ∧ txIds a = [] ∧ txIds b = [] := by
    cases hc : cur s.log with
    | none => rw [hc] at htx; simp at htx
    | some j =>
      rw [hc] at htx
      cases ha : txIds a with
      | nil => rw [ha] at htx; simp at htx; rw [htx.1]; exact ⟨rfl, rfl, htx.2⟩
      | cons x xs => rw [ha] at htx; simp at htx
  have hr : rxIds (a ++ b) = rxIds s.pend := by
    rw [hp, rxIds_append, rxIds_append]; simp [rxIds]
  have hsub : ∀ e ∈ a ++ b, e ∈ s.pend := by
    intro e he
    rw [hp]
    rcases List.mem_append.1 he with h | h
    · exact List.mem_append_left _ h
    · exact List.mem_append_right _ (List.mem_cons_of_mem _ h)
  refine ⟨hcur.1, { i with tid := ?_, tidLt := ?_, tx := ?_, st := ?_, rxNodup := ?_, rxLt := ?_, due := ?_,
                            ong := ?_, ids := ?_, told := ?_, nums := ?_, busy := ?_, rxBusy := ?_, free := ?_ }⟩
  · have := i.tid
    rw [hp] at this
    have hsl : (a ++ b).Sublist (a ++ (tid, due, Ev.txDone id) :: b) :=
      List.Sublist.append (List.Sublist.refl a) (List.sublist_cons_self _ _)
    exact (hsl.map (·.1)).nodup this
  · intro e he; exact i.tidLt e (hsub e he)
  · show txIds (a ++ b) = (cur (s.log ++ _)).toList
    rw [txIds_append, cur_append, hcur.2.1, hcur.2.2]; simp
  · show State.idle = .tx ↔ cur (s.log ++ _) ≠ none
    rw [cur_append]; simp
  · show (rxIds (a ++ b)).Nodup; rw [hr]; exact i.rxNodup
  · intro j hj
    have : j ∈ rxIds s.pend := by rw [← hr]; exact hj
    exact i.rxLt j this
  · intro e he id pw h
    obtain ⟨t, d, h1, h2⟩ := i.due e (hsub e he) id pw h
    exact ⟨t, d, List.mem_append_left _ h1, h2⟩
  · show s.ongoing = arrivals (s.log ++ _); rw [arrivals_append, i.ong]; simp [arrivals]
  · show (arrivals (s.log ++ _)).map _ = List.range s.nextId; rw [arrivals_append, ← i.ids]; simp [arrivals]
  · intro j h
    show j < s.nextId ∧ j ∉ rxIds (a ++ b)
    rw [hr]
    refine i.told j ?_
    intro h'; apply h
    show notices j (s.log ++ _) = []; rw [notices_append, h']; simp [notices]
  · intro j
    show notices j (s.log ++ _) ∈ _; rw [notices_append]
    simpa [notices] using i.nums j
  · intro h
    obtain ⟨e, he, j, pw, h1, h2⟩ := i.busy h
    refine ⟨e, ?_, j, pw, h1, h2⟩
    rw [hp] at he
    rcases List.mem_append.1 he with he | he
    · exact List.mem_append_left _ he
    · rcases List.mem_cons.1 he with he | he
      · rw [he] at h1; cases h1
      · exact List.mem_append_right _ he
  · intro h; cases h
  · intro h
    have := i.free h
    show s.csBusyEnd ≤ max s.now due + c.ns
    omega

/-- An arrival; `os` says what else is logged, and the other fields what the PHY makes of it. -/
theorem Inv.arrive {s : St P} (i : Inv c s) (dur : Nat) (pw : P) (os : List (Obs P)) (hos : ∀ o ∈ os, ∃ t j, o = .announced t j)
    (st : State) (busy : Bool) (fin : ℤ) (pkt : Option Nat)
    (hst : st = .tx ↔ s.state = .tx)
    (h : (st = s.state ∧ busy = s.csBusy ∧ fin = s.csBusyEnd) ∨ (busy = true ∧ fin = s.now + dur)) :
    Inv c { arrived dur pw s with
      log := s.log ++ (.rxBegin s.now s.nextId dur pw :: os), state := st, csBusy := busy, csBusyEnd := fin, pktRx := pkt } := by
  have harr : arrivals (.rxBegin s.now s.nextId (dur : ℤ) pw :: os) = [⟨s.nextId, s.now, dur, pw⟩] := by
    have : arrivals os = [] := by
      unfold arrivals
      rw [List.filterMap_eq_nil_iff]
      intro o ho; obtain ⟨t, j, rfl⟩ := hos o ho; rfl
    show (_ :: arrivals os) = _; rw [this]
  have hnot : ∀ j, notices j (.rxBegin s.now s.nextId (dur : ℤ) pw :: os) = [] := by
    intro j
    unfold notices
    rw [List.filterMap_eq_nil_iff]
    intro o ho
    rcases List.mem_cons.1 ho with rfl | ho
    · rfl
    · obtain ⟨t, j, rfl⟩ := hos o ho; rfl
  have hcur : cur (s.log ++ (.rxBegin s.now s.nextId (dur : ℤ) pw :: os)) = cur s.log := by
    rw [cur_append]
    have key : ∀ (os : List (Obs P)), (∀ o ∈ os, ∃ t j, o = .announced t j) → ∀ x : Option Nat,
        os.foldl (fun b o => match o with
          | .txStart _ id => some id
          | .txEnd _ _ => none
          | _ => b) x = x := by
      intro os
      induction os with
      | nil => intro _ x; rfl
      | cons o os ih =>
        intro ho x
        obtain ⟨t, j, rfl⟩ := ho o List.mem_cons_self
        exact ih (fun o h => ho o (List.mem_cons_of_mem _ h)) x
    exact key os hos _
  have hr : rxIds (s.pend ++ [(s.nextTid, s.now + (dur : ℤ), Ev.rxDone s.nextId pw)]) = rxIds s.pend ++ [s.nextId] := by
    rw [rxIds_append]; simp [rxIds]
  have ht : txIds (s.pend ++ [(s.nextTid, s.now + (dur : ℤ), Ev.rxDone s.nextId pw)]) = txIds s.pend := by
    rw [txIds_append]; simp [txIds]
  constructor
  · show ((s.pend ++ _).map _).Nodup
    rw [List.map_append]
    refine List.nodup_append.2 ⟨i.tid, by simp, ?_⟩
    intro a ha b hb
    simp at hb; subst hb
    obtain ⟨e, he, rfl⟩ := List.mem_map.1 ha
    exact Nat.ne_of_lt (i.tidLt e he)
  · intro e he
    rcases List.mem_append.1 he with h | h
    · exact Nat.lt_succ_of_lt (i.tidLt e h)
    · rw [List.mem_singleton.1 h]; exact Nat.lt_succ_self _
  · show txIds (s.pend ++ _) = (cur (s.log ++ _)).toList
    rw [ht, hcur, i.tx]
  · show st = .tx ↔ cur (s.log ++ _) ≠ none
    rw [hcur, hst, i.st]
  · show (rxIds (s.pend ++ _)).Nodup
    rw [hr]
    refine List.nodup_append.2 ⟨i.rxNodup, by simp, ?_⟩
    intro a ha b hb
    simp at hb; subst hb
    exact Nat.ne_of_lt (i.rxLt a ha)
  · intro j hj
    have : j ∈ rxIds s.pend ++ [s.nextId] := by rw [← hr]; exact hj
    rcases List.mem_append.1 this with h | h
    · exact Nat.lt_succ_of_lt (i.rxLt j h)
    · rw [List.mem_singleton.1 h]; exact Nat.lt_succ_self _
  · intro e he id pw' h
    rcases List.mem_append.1 he with he | he
    · obtain ⟨t, d, h1, h2⟩ := i.due e he id pw' h
      exact ⟨t, d, List.mem_append_left _ h1, h2⟩
    · rw [List.mem_singleton.1 he] at h ⊢
      cases h
      exact ⟨s.now, dur, List.mem_append_right _ List.mem_cons_self, rfl⟩
  · show s.ongoing ++ _ = arrivals (s.log ++ _); rw [arrivals_append, i.ong, harr]
  · show (arrivals (s.log ++ _)).map _ = List.range (s.nextId + 1)
    rw [arrivals_append, harr, List.map_append, i.ids, List.range_succ]; rfl
  · intro j h
    have h' : notices j s.log ≠ [] := by
      intro h'; apply h
      show notices j (s.log ++ _) = []; rw [notices_append, h', hnot]; rfl
    have := i.told j h'
    refine ⟨Nat.lt_succ_of_lt this.1, ?_⟩
    show j ∉ rxIds (s.pend ++ _)
    rw [hr]
    intro hm
    rcases List.mem_append.1 hm with hm | hm
    · exact this.2 hm
    · exact absurd (List.mem_singleton.1 hm) (Nat.ne_of_lt this.1)
  · intro j
    show notices j (s.log ++ _) ∈ _; rw [notices_append, hnot, List.append_nil]
    exact i.nums j
  · intro hb
    rcases h with ⟨_, h1, h2⟩ | ⟨_, h2⟩
    · obtain ⟨e, he, j, pw', h3, h4⟩ := i.busy (h1 ▸ hb)
      exact ⟨e, List.mem_append_left _ he, j, pw', h3, h4.trans h2.symm⟩
    · exact ⟨_, List.mem_append_right _ List.mem_cons_self, s.nextId, pw, rfl, h2.symm⟩
  · intro hs
    rcases h with ⟨h0, h1, h2⟩ | ⟨h1, h2⟩
    · show busy = true
      rw [h1]; exact i.rxBusy (h0 ▸ hs)
    · exact h1
  · intro hb
    rcases h with ⟨h0, h1, h2⟩ | ⟨h1, h2⟩
    · have := i.free (h1 ▸ hb)
      show fin ≤ _; rw [h2]; exact this
    · have hb' : busy = false := hb
      rw [h1] at hb'; cases hb'

/-- The end of a signal. -/
theorem Inv.ended {s : St P} (hns : 0 ≤ c.ns) (i : Inv c s) {a b : List (Nat × ℤ × Ev P)} {tid : Nat} {due : ℤ} {id : Nat} {pw : P}
    (hp : s.pend = a ++ (tid, due, .rxDone id pw) :: b) (st : State) (ns : List Bool) (hns2 : ns ∈ [[], [true], [false], [false, false]])
    (hst : (st = s.state ∧ s.state ≠ .rx) ∨ (s.state = .rx ∧ (st = .idle ∨ (st = .rx ∧ released c due s = true)))) :
    Inv c (ended c a b due st (.rxEnd (max s.now due) id :: ns.map (.notice (max s.now due) id)) s) := by
  have harr : arrivals (.rxEnd (max s.now due) id :: ns.map (.notice (max s.now due) id) : List (Obs P)) = [] := by
    unfold arrivals
    rw [List.filterMap_eq_nil_iff]
    intro o ho
    rcases List.mem_cons.1 ho with rfl | ho
    · rfl
    · obtain ⟨x, _, rfl⟩ := List.mem_map.1 ho; rfl
  have hnot : ∀ j, notices j (.rxEnd (max s.now due) id :: ns.map (.notice (max s.now due) id) : List (Obs P)) =
      if j = id then ns else [] := by
    intro j
    show notices j (ns.map (.notice (max s.now due) id) : List (Obs P)) = _
    unfold notices
    rw [List.filterMap_map]
    by_cases h : j = id
    · subst h
      rw [if_pos rfl]
      have hf : ((fun o : Obs P => match o with
        | .notice _ i ok => if i = j then some ok else none
        | _ => none) ∘ fun ok => Obs.notice (max s.now due) j ok) = some := by funext x; simp
      rw [hf, List.filterMap_some]
    · rw [if_neg h, List.filterMap_eq_nil_iff]
      intro x _
      simp [Ne.symm h]
  have hcur : cur (s.log ++ (.rxEnd (max s.now due) id :: ns.map (.notice (max s.now due) id))) = cur s.log := by
    rw [cur_append]
    have key : ∀ (ns : List Bool) (x : Option Nat),
        (ns.map (.notice (max s.now due) id) : List (Obs P)).foldl (fun b o => match o with
          | .txStart _ id => some id
          | .txEnd _ _ => none
          | _ => b) x = x := by
      intro ns
      induction ns with
      | nil => intro x; rfl
      | cons n ns ih => intro x; exact ih x
    exact key ns _
  have hr : rxIds s.pend = rxIds a ++ id :: rxIds b := by
    rw [hp, rxIds_append]; simp [rxIds]
  have hab : rxIds (a ++ b) = rxIds a ++ rxIds b := rxIds_append a b
  have hnd := i.rxNodup
  rw [hr] at hnd
  have hnotin : id ∉ rxIds (a ++ b) := by
    rw [hab]
    have h1 := List.nodup_append.1 hnd
    have h2 := (List.nodup_cons.1 h1.2.1).1
    intro h
    rcases List.mem_append.1 h with h | h
    · exact h1.2.2 id h id List.mem_cons_self rfl
    · exact h2 h
  have hrsub : ∀ j ∈ rxIds (a ++ b), j ∈ rxIds s.pend := by
    intro j hj
    rw [hab] at hj; rw [hr]
    rcases List.mem_append.1 hj with h | h
    · exact List.mem_append_left _ h
    · exact List.mem_append_right _ (List.mem_cons_of_mem _ h)
  have ht : txIds (a ++ b) = txIds s.pend := by
    rw [hp, txIds_append, txIds_append]; simp [txIds]
  have hsub : ∀ e ∈ a ++ b, e ∈ s.pend := by
    intro e he
    rw [hp]
    rcases List.mem_append.1 he with h | h
    · exact List.mem_append_left _ h
    · exact List.mem_append_right _ (List.mem_cons_of_mem _ h)
  have hid : id ∈ rxIds s.pend := by rw [hr]; simp
  have hrel : released c due s = true → s.csBusy = true ∧ max s.now due + c.ns < s.csBusyEnd := by
    unfold released
    split
    · intro h; cases h
    · intro h; exact ⟨h, by omega⟩
  constructor
  · have := i.tid
    rw [hp] at this
    have hsl : (a ++ b).Sublist (a ++ (tid, due, Ev.rxDone id pw) :: b) :=
      List.Sublist.append (List.Sublist.refl a) (List.sublist_cons_self _ _)
    exact (hsl.map (·.1)).nodup this
  · intro e he; exact i.tidLt e (hsub e he)
  · show txIds (a ++ b) = (cur (s.log ++ _)).toList
    rw [ht, hcur, i.tx]
  · show st = .tx ↔ cur (s.log ++ _) ≠ none
    rw [hcur, ← i.st]
    rcases hst with ⟨h, _⟩ | ⟨h, h' | ⟨h', _⟩⟩
    · rw [h]
    · rw [h, h']; simp
    · rw [h, h']
  · show (rxIds (a ++ b)).Nodup
    rw [hab]
    have hsl : (rxIds a ++ rxIds b).Sublist (rxIds a ++ id :: rxIds b) :=
      List.Sublist.append (List.Sublist.refl _) (List.sublist_cons_self _ _)
    exact hsl.nodup hnd
  · intro j hj; exact i.rxLt j (hrsub j hj)
  · intro e he j pw' h
    obtain ⟨t, d, h1, h2⟩ := i.due e (hsub e he) j pw' h
    exact ⟨t, d, List.mem_append_left _ h1, h2⟩
  · show s.ongoing = arrivals (s.log ++ _); rw [arrivals_append, i.ong, harr, List.append_nil]
  · show (arrivals (s.log ++ _)).map _ = _; rw [arrivals_append, harr, List.append_nil]; exact i.ids
  · intro j h
    by_cases hj : j = id
    · subst hj
      exact ⟨i.rxLt j hid, hnotin⟩
    · have h' : notices j s.log ≠ [] := by
        intro h'; apply h
        show notices j (s.log ++ _) = []
        rw [notices_append, h', hnot, if_neg hj]; rfl
      have := i.told j h'
      exact ⟨this.1, fun hm => this.2 (hrsub j hm)⟩
  · intro j
    show notices j (s.log ++ _) ∈ _
    rw [notices_append, hnot]
    split
    · rename_i hj; subst hj
      have : notices j s.log = [] := by
        by_contra h; exact (i.told j h).2 hid
      rw [this]; exact hns2
    · rw [List.append_nil]; exact i.nums j
  · intro hb
    obtain ⟨h1, h2⟩ := hrel hb
    obtain ⟨e, he, j, pw', h3, h4⟩ := i.busy h1
    refine ⟨e, ?_, j, pw', h3, h4⟩
    rw [hp] at he
    rcases List.mem_append.1 he with he | he
    · exact List.mem_append_left _ he
    · rcases List.mem_cons.1 he with he | he
      · rw [he] at h4
        simp only at h4
        have : due ≤ max s.now due := Int.le_max_right _ _
        omega
      · exact List.mem_append_right _ he
  · intro h
    show released c due s = true
    rcases hst with ⟨h1, h2⟩ | ⟨_, h' | ⟨_, h'⟩⟩
    · exact absurd (h1 ▸ h) h2
    · rw [show st = _ from h] at h'; cases h'
    · exact h'
  · intro hb
    show s.csBusyEnd ≤ max s.now due + c.ns
    by_cases h : s.csBusyEnd ≤ max s.now due + c.ns
    · exact h
    · have hb' : released c due s = false := hb
      unfold released at hb'
      rw [if_neg h] at hb'
      have := i.free hb'
      omega

theorem Inv.move {s s' : St P} (hns : 0 ≤ c.ns) (i : Inv c s) (m : Move c s s') : Inv c s' := by
  cases m with
  | wait d => exact i.wait d
  | refuse id _ => exact i.refuse id
  | start id dur h => exact i.start id dur h
  | stop a b tid due id h => exact (i.stop h).2
  | deaf dur pw h =>
    exact i.arrive dur pw [] (by simp) s.state s.csBusy s.csBusyEnd s.pktRx Iff.rfl (.inl ⟨rfl, rfl, rfl⟩)
  | lock dur pw h1 h2 h3 h4 =>
    exact i.arrive dur pw [.announced s.now s.nextId] (by simp) .rx true (s.now + dur) (some s.nextId) (by simp [h1]) (.inr ⟨rfl, rfl⟩)
  | stretch dur pw h1 h2 h3 h4 =>
    have := i.arrive dur pw [] (by simp) .rx s.csBusy (s.now + dur) s.pktRx (by simp [h1]) (.inr ⟨h4, rfl⟩)
    exact this
  | pass a b tid due id pw h1 h2 => exact i.ended hns h1 s.state [] (by simp) (.inl ⟨rfl, h2⟩)
  | good a b tid due id pw h1 h2 h3 h4 => exact i.ended hns h1 .idle [true] (by simp) (.inr ⟨h2, .inl rfl⟩)
  | bad a b tid due id pw h1 h2 h3 h4 h5 => exact i.ended hns h1 .idle [false] (by simp) (.inr ⟨h2, .inl rfl⟩)
  | bad2 a b tid due id pw h1 h2 h3 h4 h5 => exact i.ended hns h1 .idle [false, false] (by simp) (.inr ⟨h2, .inl rfl⟩)
  | drop a b tid due id pw h1 h2 h3 h4 => exact i.ended hns h1 .idle [false] (by simp) (.inr ⟨h2, .inl rfl⟩)
  | mute a b tid due id pw h1 h2 h3 h4 => exact i.ended hns h1 .rx [] (by simp) (.inr ⟨h2, .inr ⟨rfl, h4⟩⟩)

/-- Any property kept by the moves from states satisfying the invariant holds in every reachable state. -/
theorem reach {Q : St P → Prop} (hns : 0 ≤ c.ns) (h0 : Q (init P)) (hm : ∀ s s', Inv c s → Q s → Move c s s' → Q s')
    (ops : List (Op P)) : Inv c (after c ops) ∧ Q (after c ops) := by
  have key : ∀ (ops : List (Op P)) (s : St P), Inv c s → Q s → Inv c (ops.foldl (step c) s) ∧ Q (ops.foldl (step c) s) := by
    intro ops
    induction ops with
    | nil => intro s h1 h2; exact ⟨h1, h2⟩
    | cons o ops ih =>
      intro s h1 h2
      have m := step_move (c := c) s o h1.tid
      exact ih _ (h1.move hns m) (hm s _ h1 h2 m)
  exact key ops _ (Inv.init hns) h0

theorem inv_after (hns : 0 ≤ c.ns) (ops : List (Op P)) : Inv c (after c ops) :=
  (reach (Q := fun _ => True) hns trivial (fun _ _ _ _ _ => trivial) ops).1

end Thz.PhyMacro
