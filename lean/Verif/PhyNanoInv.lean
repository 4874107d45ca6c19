import Verif.PhyNanoGap
import Verif.Trace
import Mathlib.Data.List.Nodup

/-!
# Invariants of the nano PHY
-/

set_option linter.unusedSectionVars false

namespace Thz.PhyNano

variable {P : Type} {c : Cfg P}

/-! ## Vocabulary over the log -/

/-- The own transmissions accepted and not over, with their starts. -/
def liveTx (l : List (Obs P)) : List (Nat × ℤ) :=
  l.foldl (fun b o => match o with
    | .accepted _ id start _ => b ++ [(id, start)]
    | .forgotten _ id => b.filter (fun e => e.1 ≠ id)
    | _ => b) []

/-- The signals being received, with their starts and powers. -/
def liveRx (l : List (Obs P)) : List (Nat × ℤ × P) :=
  l.foldl (fun b o => match o with
    | .arrived t id _ pw _ => b ++ [(id, t, pw)]
    | .over _ id => b.filter (fun e => e.1 ≠ id)
    | _ => b) []

/-- The results reported for an arriving frame, in order. -/
def notices (id : Nat) (l : List (Obs P)) : List Bool :=
  l.filterMap fun o => match o with
    | .notice _ i ok => if i = id then some ok else none
    | _ => none

theorem liveTx_snoc (l : List (Obs P)) (o : Obs P) : liveTx (l ++ [o]) = match o with
    | .accepted _ id start _ => liveTx l ++ [(id, start)]
    | .forgotten _ id => (liveTx l).filter (fun e => e.1 ≠ id)
    | _ => liveTx l := by
  unfold liveTx; rw [List.foldl_append]; rfl

theorem liveRx_snoc (l : List (Obs P)) (o : Obs P) : liveRx (l ++ [o]) = match o with
    | .arrived t id _ pw _ => liveRx l ++ [(id, t, pw)]
    | .over _ id => (liveRx l).filter (fun e => e.1 ≠ id)
    | _ => liveRx l := by
  unfold liveRx; rw [List.foldl_append]; rfl

theorem notices_snoc (id : Nat) (l : List (Obs P)) (o : Obs P) : notices id (l ++ [o]) = match o with
    | .notice _ i ok => if i = id then notices id l ++ [ok] else notices id l
    | _ => notices id l := by
  unfold notices
  rw [List.filterMap_append]
  cases o <;> simp [List.filterMap_cons]
  split
  · rename_i h; split at h
    · cases h
    · rename_i h1; simp [h1]
  · rename_i h; split at h
    · rename_i h1; cases h; simp [h1]
    · cases h

/-! ## Moves -/

/-- The cases of one operation. -/
inductive Move [AddCommMonoid P] (c : Cfg P) (s : St P) : St P → Prop
  | wait (d : Nat) : s.inside = none → Move c s { s with now := s.now + d }
  | idle : Move c s s
  | direct (dur : Nat) : s.tx = [] → s.rx = [] → Move c s (accept s.now dur s)
  | fit (dur : Nat) (x : ℤ) : search c.p (s.now + c.ts) (sortArray (nextPulse c s)) = .gap x → Move c s (accept (x + c.p) dur s)
  | refuse : search c.p (s.now + c.ts) (sortArray (nextPulse c s)) = .full → Move c s (s.emit (.refused s.now))
  | wild : search c.p (s.now + c.ts) (sortArray (nextPulse c s)) = .wild → Move c s (s.emit (.wild s.now))
  | launch (a b : List (Nat × ℤ × Ev P)) (tid : Nat) (due : ℤ) (id : Nat) (dur : ℤ) : s.inside = none →
      s.pend = a ++ (tid, due, .launch id dur) :: b →
      Move c s { s with now := max s.now due, log := s.log ++ [.onAir (max s.now due) id]
                        pend := a ++ b ++ [(s.nextTid, max s.now due + dur, .txDone id)], nextTid := s.nextTid + 1 }
  | erase (a b : List (Nat × ℤ × Ev P)) (tid : Nat) (due start dur : ℤ) (u v : List Tx) (r : Tx) : s.inside = none →
      s.pend = a ++ (tid, due, .erase start dur) :: b → s.tx = u ++ r :: v → r.start = start → r.dur = dur →
      Move c s { s with now := max s.now due, pend := a ++ b, tx := u ++ v, log := s.log ++ [.forgotten (max s.now due) r.id] }
  | noErase (a b : List (Nat × ℤ × Ev P)) (tid : Nat) (due start dur : ℤ) : s.inside = none →
      s.pend = a ++ (tid, due, .erase start dur) :: b → (∀ r ∈ s.tx, ¬ (r.start = start ∧ r.dur = dur)) →
      Move c s { s with now := max s.now due, pend := a ++ b }
  | sent (a b : List (Nat × ℤ × Ev P)) (tid : Nat) (due : ℤ) (id : Nat) : s.inside = none →
      s.pend = a ++ (tid, due, .txDone id) :: b →
      Move c s { s with now := max s.now due, pend := a ++ b, log := s.log ++ [.sent (max s.now due) id] }
  | ignore (dur : Nat) (pw : P) : s.inside = none → (∃ r ∈ s.tx, meets c s.now r.start = true) →
      Move c s { s with
        log := s.log ++ [.ignored s.now s.nextRx dur pw]
        pend := s.pend ++ [(s.nextTid, s.now + dur, .rxDone s.nextRx)], nextTid := s.nextTid + 1, nextRx := s.nextRx + 1 }
  | arrive (dur : Nat) (pw junk : P) : s.inside = none → (∀ r ∈ s.tx, meets c s.now r.start = false) →
      Move c s { s with
        log := s.log ++ [.arrived s.now s.nextRx dur pw junk]
        rx := disturb c s.now pw s.rx ++ [⟨s.nextRx, s.now, dur, pw, c.bad pw (interference c s.now junk s.rx)⟩]
        pend := s.pend ++ [(s.nextTid, s.now + dur, .rxDone s.nextRx)], nextTid := s.nextTid + 1, nextRx := s.nextRx + 1 }
  | notice (a b : List (Nat × ℤ × Ev P)) (tid : Nat) (due : ℤ) (r : Rx P) : s.inside = none →
      s.pend = a ++ (tid, due, .rxDone r.id) :: b → r ∈ s.rx →
      Move c s { s with now := max s.now due, pend := a ++ b, inside := some r.id
                        log := s.log ++ [.notice (max s.now due) r.id (!r.coll)] }
  | skip (a b : List (Nat × ℤ × Ev P)) (tid : Nat) (due : ℤ) (id : Nat) : s.inside = none →
      s.pend = a ++ (tid, due, .rxDone id) :: b → (∀ r ∈ s.rx, r.id ≠ id) →
      Move c s { s with now := max s.now due, pend := a ++ b, log := s.log ++ [.over (max s.now due) id] }
  | ret (id : Nat) : s.inside = some id →
      Move c s { s with rx := s.rx.eraseP (fun r => r.id = id), inside := none, log := s.log ++ [.over s.now id] }

/-- Taking one event out of the pending ones. -/
theorem take_pend {l : List (Nat × ℤ × Ev P)} (hn : (l.map (·.1)).Nodup) {tid : Nat} {e : Nat × ℤ × Ev P}
    (hf : l.find? (fun e => e.1 = tid) = some e) :
    e.1 = tid ∧ ∃ a b, l = a ++ e :: b ∧ l.filter (fun e => e.1 ≠ tid) = a ++ b := by
  have ht : e.1 = tid := by simpa using List.find?_some hf
  refine ⟨ht, ?_⟩
  obtain ⟨a, b, hl⟩ := List.append_of_mem (List.mem_of_find?_eq_some hf)
  refine ⟨a, b, hl, ?_⟩
  rw [hl, List.map_append, List.map_cons] at hn
  have hn' := List.nodup_append.1 hn
  have hb := (List.nodup_cons.1 hn'.2.1).1
  rw [hl, List.filter_append, List.filter_cons_of_neg (by simp [ht])]
  congr 1
  · refine List.filter_eq_self.2 (fun x hx => ?_)
    have := hn'.2.2 x.1 (List.mem_map_of_mem hx) e.1 List.mem_cons_self
    simp [← ht, this]
  · refine List.filter_eq_self.2 (fun x hx => ?_)
    have : x.1 ≠ e.1 := fun h => hb (h ▸ List.mem_map_of_mem hx)
    simp [← ht, this]

variable [AddCommMonoid P]

theorem step_move (s : St P) (o : Op P) (hn : (s.pend.map (·.1)).Nodup) : Move c s (step c s o) := by
  cases o with
  | send dur =>
    show Move c s (sendPacket c dur s)
    unfold sendPacket
    split
    · split
      · rename_i h; exact .fit dur _ h
      · rename_i h; exact .refuse h
      · rename_i h; exact .wild h
    · rename_i h
      exact .direct dur (by_contra fun h1 => h (.inl h1)) (by_contra fun h1 => h (.inr h1))
  | ret =>
    show Move c s (ret s)
    unfold ret
    split
    · exact .idle
    · rename_i id h; exact .ret id h
  | advance d =>
    simp only [step]
    split
    · rename_i h; exact .wait d h
    · exact .idle
  | arrive dur pw junk =>
    simp only [step]
    split
    · rename_i h
      unfold receivePacket
      split
      · rename_i h1
        refine .ignore dur pw h ?_
        simpa using h1
      · rename_i h1
        refine .arrive dur pw junk h ?_
        intro r hr
        by_contra hc
        exact h1 (List.any_eq_true.2 ⟨r, hr, by simpa using hc⟩)
    · exact .idle
  | fire tid =>
    simp only [step]
    split
    · rename_i hin
      unfold fire
      cases hf : s.pend.find? (fun e => e.1 = tid) with
      | none => exact .idle
      | some e =>
        obtain ⟨t, due, ev⟩ := e
        obtain ⟨_, a, b, hl, hb⟩ := take_pend hn hf
        dsimp only
        rw [hb]
        cases ev with
        | launch id dur => exact .launch a b t due id dur hin hl
        | erase start dur =>
          show Move c s (deleteOngoingTx start dur _)
          unfold deleteOngoingTx
          dsimp only
          split
          · rename_i h
            refine .noErase a b t due start dur hin hl ?_
            intro r hr
            have := List.find?_eq_none.1 h r hr
            simpa using this
          · rename_i r h
            have hr := List.find?_some h
            simp only [decide_eq_true_eq] at hr
            obtain ⟨_, u, v, h1, h2⟩ := List.find?_eq_some_iff_append.1 h
            have e : s.tx.eraseP (fun r => decide (r.start = start ∧ r.dur = dur)) = u ++ v := by
              rw [h1, List.eraseP_append_right]
              · rw [List.eraseP_cons_of_pos (by simpa using hr)]
              · intro x hx
                have := h2 x hx
                simp only [Bool.not_eq_eq_eq_not, Bool.not_true] at this
                exact ne_true_of_eq_false this
            rw [e]
            exact .erase a b t due start dur u v r hin hl h1 hr.1 hr.2
        | txDone id => exact .sent a b t due id hin hl
        | rxDone id =>
          show Move c s (receivePacketDone id _)
          unfold receivePacketDone
          dsimp only
          split
          · rename_i h
            refine .skip a b t due id hin hl ?_
            intro r hr
            have := List.find?_eq_none.1 h r hr
            simpa using this
          · rename_i r h
            have hr : r.id = id := by simpa using List.find?_some h
            subst hr
            exact .notice a b t due r hin hl (List.mem_of_find?_eq_some h)
    · exact .idle

/-! ## The invariant -/

structure Inv (c : Cfg P) (s : St P) : Prop where
  /-- events have distinct ids. -/
  tid : (s.pend.map (·.1)).Nodup
  tidLt : ∀ e ∈ s.pend, e.1 < s.nextTid
  /-- the records are the live trains. -/
  txLive : s.tx.map (fun r => (r.id, r.start)) = liveTx s.log
  rxLive : s.rx.map (fun r => (r.id, r.start, r.pw)) = liveRx s.log
  txIds : (s.tx.map (·.id)).Nodup
  txLt : ∀ r ∈ s.tx, r.id < s.nextTx
  rxIds : (s.rx.map (·.id)).Nodup
  rxLt : ∀ r ∈ s.rx, r.id < s.nextRx
  /-- own trains start within a symbol; arriving trains have started. -/
  txSoon : ∀ r ∈ s.tx, r.start < s.now + c.ts
  rxOld : ∀ r ∈ s.rx, r.start ≤ s.now
  txStarts : (s.tx.map (·.start)).Nodup
  /-- every record will be erased. -/
  txPend : ∀ r ∈ s.tx, ∃ tid, (tid, r.start + r.dur, Ev.erase r.start r.dur) ∈ s.pend
  rxPend : ∀ r ∈ s.rx, s.inside = some r.id ∨ ∃ tid, (tid, r.start + r.dur, Ev.rxDone r.id) ∈ s.pend
  insideRx : ∀ id, s.inside = some id → ∃ r ∈ s.rx, r.id = id
  /-- at most one end of reception is pending for a signal, none for one that ended. -/
  ends : ∀ e ∈ s.pend, ∀ e' ∈ s.pend, ∀ id, e.2.2 = .rxDone id → e'.2.2 = .rxDone id → e = e'
  endsLt : ∀ e ∈ s.pend, ∀ id, e.2.2 = .rxDone id → id < s.nextRx ∧ s.inside ≠ some id ∧ notices id s.log = [] ∧
    ∀ t, Obs.over t id ∉ s.log
  noticeLt : ∀ id, s.nextRx ≤ id → notices id s.log = [] ∧ ∀ t, Obs.over t id ∉ s.log
  once : ∀ id, (notices id s.log).length ≤ 1
  told : ∀ t id d pw j, Obs.arrived t id d pw j ∈ s.log → id < s.nextRx ∧ ((notices id s.log).length = 1 ∨
    (∃ r ∈ s.rx, r.id = id) ∧ s.inside ≠ some id)

theorem inv_init : Inv c (init P) := by
  constructor <;> simp [init, liveTx, liveRx, notices]

theorem mem_starts_lt {s : St P} (hts : 0 < c.ts) (i : Inv c s) : ∀ a ∈ starts s, a < s.now + c.ts := by
  intro a ha
  rcases List.mem_append.1 ha with h | h
  · obtain ⟨r, hr, rfl⟩ := List.mem_map.1 h
    exact i.txSoon r hr
  · obtain ⟨r, hr, rfl⟩ := List.mem_map.1 h
    have := i.rxOld r hr
    omega

/-- An event that leaves takes nothing else with it. -/
theorem mem_left {a b : List (Nat × ℤ × Ev P)} {e e' : Nat × ℤ × Ev P} (h : e' ∈ a ++ e :: b) (hne : e'.2.2 ≠ e.2.2) : e' ∈ a ++ b := by
  rcases List.mem_append.1 h with h | h
  · exact List.mem_append_left _ h
  · rcases List.mem_cons.1 h with rfl | h
    · exact absurd rfl hne
    · exact List.mem_append_right _ h

theorem mem_back {a b : List (Nat × ℤ × Ev P)} {e e' : Nat × ℤ × Ev P} (h : e' ∈ a ++ b) : e' ∈ a ++ e :: b := by
  rcases List.mem_append.1 h with h | h
  · exact List.mem_append_left _ h
  · exact List.mem_append_right _ (List.mem_cons_of_mem _ h)

theorem Inv.accept {s : St P} {start : ℤ} (i : Inv c s) (dur : ℤ) (h1 : start < s.now + c.ts)
    (h2 : ∀ r ∈ s.tx, r.start ≠ start) : Inv c (accept start dur s) where
  tid := by
    show ((s.pend ++ [_, _]).map _).Nodup
    rw [List.map_append, List.nodup_append]
    refine ⟨i.tid, by simp, ?_⟩
    intro x hx y hy
    obtain ⟨e, he, rfl⟩ := List.mem_map.1 hx
    have := i.tidLt e he
    simp only [List.map_cons, List.map_nil, List.mem_cons, List.mem_nil_iff, or_false] at hy
    omega
  tidLt := by
    intro e he
    show e.1 < s.nextTid + 2
    rcases List.mem_append.1 he with he | he
    · have := i.tidLt e he; omega
    · simp only [List.mem_cons, List.mem_nil_iff, or_false] at he
      rcases he with rfl | rfl <;> dsimp only <;> omega
  txLive := by
    show (s.tx ++ [_]).map _ = liveTx (s.log ++ [_])
    rw [liveTx_snoc, List.map_append, i.txLive]; rfl
  rxLive := by
    show s.rx.map _ = liveRx (s.log ++ [_])
    rw [liveRx_snoc]; exact i.rxLive
  txIds := by
    show ((s.tx ++ [_]).map _).Nodup
    rw [List.map_append, List.nodup_append]
    refine ⟨i.txIds, by simp, ?_⟩
    intro x hx y hy
    obtain ⟨e, he, rfl⟩ := List.mem_map.1 hx
    have := i.txLt e he
    simp only [List.map_cons, List.map_nil, List.mem_singleton] at hy
    omega
  txLt := by
    intro r hr
    show r.id < s.nextTx + 1
    rcases List.mem_append.1 hr with hr | hr
    · have := i.txLt r hr; omega
    · rw [List.mem_singleton.1 hr]; exact Nat.lt_succ_self _
  rxIds := i.rxIds
  rxLt := i.rxLt
  txSoon := by
    intro r hr
    rcases List.mem_append.1 hr with hr | hr
    · exact i.txSoon r hr
    · rw [List.mem_singleton.1 hr]; exact h1
  rxOld := i.rxOld
  txStarts := by
    show ((s.tx ++ [_]).map _).Nodup
    rw [List.map_append, List.nodup_append]
    refine ⟨i.txStarts, by simp, ?_⟩
    intro x hx y hy
    obtain ⟨e, he, rfl⟩ := List.mem_map.1 hx
    simp only [List.map_cons, List.map_nil, List.mem_singleton] at hy
    rw [hy]; exact h2 e he
  txPend := by
    intro r hr
    rcases List.mem_append.1 hr with hr | hr
    · obtain ⟨tid, h⟩ := i.txPend r hr
      exact ⟨tid, List.mem_append_left _ h⟩
    · rw [List.mem_singleton.1 hr]
      exact ⟨s.nextTid + 1, List.mem_append_right _ (by simp)⟩
  rxPend := by
    intro r hr
    rcases i.rxPend r hr with h | ⟨tid, h⟩
    · exact .inl h
    · exact .inr ⟨tid, List.mem_append_left _ h⟩
  insideRx := i.insideRx
  ends := by
    intro e he e' he' id h3 h4
    rcases List.mem_append.1 he with he | he
    · rcases List.mem_append.1 he' with he' | he'
      · exact i.ends e he e' he' id h3 h4
      · simp only [List.mem_cons, List.mem_nil_iff, or_false] at he'
        rcases he' with rfl | rfl <;> cases h4
    · simp only [List.mem_cons, List.mem_nil_iff, or_false] at he
      rcases he with rfl | rfl <;> cases h3
  endsLt := by
    intro e he id h3
    rcases List.mem_append.1 he with he | he
    · obtain ⟨h5, h6, h7, h8⟩ := i.endsLt e he id h3
      refine ⟨h5, h6, ?_, ?_⟩
      · show notices id (s.log ++ [_]) = []
        rw [notices_snoc]; exact h7
      · intro t ht
        rcases List.mem_append.1 ht with ht | ht
        · exact h8 t ht
        · simp at ht
    · simp only [List.mem_cons, List.mem_nil_iff, or_false] at he
      rcases he with rfl | rfl <;> cases h3
  noticeLt := by
    intro id hid
    obtain ⟨h3, h4⟩ := i.noticeLt id hid
    refine ⟨?_, ?_⟩
    · show notices id (s.log ++ [_]) = []
      rw [notices_snoc]; exact h3
    · intro t ht
      rcases List.mem_append.1 ht with ht | ht
      · exact h4 t ht
      · simp at ht
  once := by
    intro id
    show (notices id (s.log ++ [_])).length ≤ 1
    rw [notices_snoc]; exact i.once id
  told := by
    intro t id d pw j h
    have h' : Obs.arrived t id d pw j ∈ s.log := by
      rcases List.mem_append.1 h with h | h
      · exact h
      · simp at h
    show id < s.nextRx ∧ ((notices id (s.log ++ [_])).length = 1 ∨ _)
    rw [notices_snoc]; exact i.told t id d pw j h'

/-- A move that only appends an entry of no consequence, changes the pending events by dropping one that is not an
`erase` or `rxDone`, and lets time pass. -/
theorem Inv.plain {s : St P} (i : Inv c s) {o : Obs P} {now' : ℤ} {pend' : List (Nat × ℤ × Ev P)} {nt : Nat}
    (ho : liveTx (s.log ++ [o]) = liveTx s.log ∧ liveRx (s.log ++ [o]) = liveRx s.log ∧ (∀ id, notices id (s.log ++ [o]) = notices id s.log) ∧
      (∀ t id, o ≠ .over t id) ∧ ∀ t id d pw j, o ≠ .arrived t id d pw j)
    (hnow : s.now ≤ now') (h1 : (pend'.map (·.1)).Nodup) (h2 : ∀ e ∈ pend', e.1 < nt)
    (h3 : ∀ e ∈ s.pend, (∃ a b, e.2.2 = .erase a b) ∨ (∃ id, e.2.2 = .rxDone id) → e ∈ pend')
    (h4 : ∀ e ∈ pend', ∀ id, e.2.2 = .rxDone id → e ∈ s.pend) :
    Inv c { s with now := now', log := s.log ++ [o], pend := pend', nextTid := nt } where
  tid := h1
  tidLt := h2
  txLive := by show s.tx.map _ = liveTx (s.log ++ [o]); rw [ho.1]; exact i.txLive
  rxLive := by show s.rx.map _ = liveRx (s.log ++ [o]); rw [ho.2.1]; exact i.rxLive
  txIds := i.txIds
  txLt := i.txLt
  rxIds := i.rxIds
  rxLt := i.rxLt
  txSoon := fun r hr => by
    have := i.txSoon r hr
    show r.start < now' + c.ts
    omega
  rxOld := fun r hr => by
    have := i.rxOld r hr
    show r.start ≤ now'
    omega
  txStarts := i.txStarts
  txPend := fun r hr => by
    obtain ⟨tid, h⟩ := i.txPend r hr
    exact ⟨tid, h3 _ h (.inl ⟨_, _, rfl⟩)⟩
  rxPend := fun r hr => by
    rcases i.rxPend r hr with h | ⟨tid, h⟩
    · exact .inl h
    · exact .inr ⟨tid, h3 _ h (.inr ⟨_, rfl⟩)⟩
  insideRx := i.insideRx
  ends := fun e he e' he' id h5 h6 => i.ends e (h4 e he id h5) e' (h4 e' he' id h6) id h5 h6
  endsLt := by
    intro e he id h5
    obtain ⟨h6, h7, h8, h9⟩ := i.endsLt e (h4 e he id h5) id h5
    refine ⟨h6, h7, by rw [← h8]; exact ho.2.2.1 id, ?_⟩
    intro t ht
    rcases List.mem_append.1 ht with ht | ht
    · exact h9 t ht
    · exact ho.2.2.2.1 t id (List.mem_singleton.1 ht).symm
  noticeLt := by
    intro id hid
    obtain ⟨h5, h6⟩ := i.noticeLt id hid
    refine ⟨by rw [← h5]; exact ho.2.2.1 id, ?_⟩
    intro t ht
    rcases List.mem_append.1 ht with ht | ht
    · exact h6 t ht
    · exact ho.2.2.2.1 t id (List.mem_singleton.1 ht).symm
  once := fun id => by
    show (notices id (s.log ++ [o])).length ≤ 1
    rw [ho.2.2.1]; exact i.once id
  told := by
    intro t id d pw j h
    have h' : Obs.arrived t id d pw j ∈ s.log := by
      rcases List.mem_append.1 h with h | h
      · exact h
      · exact absurd (List.mem_singleton.1 h).symm (ho.2.2.2.2 t id d pw j)
    show id < s.nextRx ∧ ((notices id (s.log ++ [o])).length = 1 ∨ _)
    rw [ho.2.2.1]; exact i.told t id d pw j h'

theorem Inv.wait {s : St P} (i : Inv c s) {now' : ℤ} (hnow : s.now ≤ now') : Inv c { s with now := now' } :=
  { i with
    txSoon := fun r hr => by
      have := i.txSoon r hr
      show r.start < now' + c.ts
      omega
    rxOld := fun r hr => by
      have := i.rxOld r hr
      show r.start ≤ now'
      omega }

theorem nodup_drop {a b : List (Nat × ℤ × Ev P)} {e : Nat × ℤ × Ev P} (h : ((a ++ e :: b).map (·.1)).Nodup) :
    ((a ++ b).map (·.1)).Nodup := by
  refine h.sublist (List.Sublist.map _ (List.Sublist.append_left (List.sublist_cons_self _ _) _))

theorem disturb_map (now : ℤ) (pw : P) (l : List (Rx P)) {β : Type} (f : Rx P → β) (hf : ∀ r b, f { r with coll := b } = f r) :
    (disturb c now pw l).map f = l.map f := by
  unfold disturb
  rw [List.map_map]
  apply List.map_congr_left
  intro r _
  show f (if _ then if _ then _ else _ else _) = f r
  split
  · split
    · exact hf r true
    · rfl
  · rfl

theorem mem_disturb {now : ℤ} {pw : P} {l : List (Rx P)} {r : Rx P} (h : r ∈ disturb c now pw l) :
    ∃ r0 ∈ l, r.id = r0.id ∧ r.start = r0.start ∧ r.dur = r0.dur ∧ r.pw = r0.pw := by
  obtain ⟨r0, h0, rfl⟩ := List.mem_map.1 h
  refine ⟨r0, h0, ?_⟩
  split
  · split <;> exact ⟨rfl, rfl, rfl, rfl⟩
  · exact ⟨rfl, rfl, rfl, rfl⟩

theorem pend_snoc {s : St P} (i : Inv c s) (x : ℤ × Ev P) :
    ((s.pend ++ [(s.nextTid, x)]).map (·.1)).Nodup ∧ ∀ e ∈ s.pend ++ [(s.nextTid, x)], e.1 < s.nextTid + 1 := by
  constructor
  · rw [List.map_append, List.nodup_append]
    refine ⟨i.tid, by simp, ?_⟩
    intro a ha b hb
    obtain ⟨e, he, rfl⟩ := List.mem_map.1 ha
    have := i.tidLt e he
    simp only [List.map_cons, List.map_nil, List.mem_singleton] at hb
    omega
  · intro e he
    rcases List.mem_append.1 he with he | he
    · have := i.tidLt e he; omega
    · rw [List.mem_singleton.1 he]; exact Nat.lt_succ_self _

theorem Inv.ignore {s : St P} (i : Inv c s) (dur : Nat) (pw : P) : Inv c { s with
    log := s.log ++ [.ignored s.now s.nextRx dur pw]
    pend := s.pend ++ [(s.nextTid, s.now + dur, .rxDone s.nextRx)], nextTid := s.nextTid + 1, nextRx := s.nextRx + 1 } where
  tid := (pend_snoc i _).1
  tidLt := (pend_snoc i _).2
  txLive := by show s.tx.map _ = liveTx (s.log ++ [_]); rw [liveTx_snoc]; exact i.txLive
  rxLive := by show s.rx.map _ = liveRx (s.log ++ [_]); rw [liveRx_snoc]; exact i.rxLive
  txIds := i.txIds
  txLt := i.txLt
  rxIds := i.rxIds
  rxLt := fun r hr => Nat.lt_succ_of_lt (i.rxLt r hr)
  txSoon := i.txSoon
  rxOld := i.rxOld
  txStarts := i.txStarts
  txPend := fun r hr => by
    obtain ⟨tid, h⟩ := i.txPend r hr
    exact ⟨tid, List.mem_append_left _ h⟩
  rxPend := fun r hr => by
    rcases i.rxPend r hr with h | ⟨tid, h⟩
    · exact .inl h
    · exact .inr ⟨tid, List.mem_append_left _ h⟩
  insideRx := i.insideRx
  ends := by
    intro e he e' he' id h3 h4
    rcases List.mem_append.1 he with he | he
    · rcases List.mem_append.1 he' with he' | he'
      · exact i.ends e he e' he' id h3 h4
      · rw [List.mem_singleton.1 he'] at h4
        cases h4
        exact absurd (i.endsLt e he _ h3).1 (Nat.lt_irrefl _)
    · rw [List.mem_singleton.1 he] at h3
      cases h3
      rcases List.mem_append.1 he' with he' | he'
      · exact absurd (i.endsLt e' he' _ h4).1 (Nat.lt_irrefl _)
      · rw [List.mem_singleton.1 he, List.mem_singleton.1 he']
  endsLt := by
    intro e he id h3
    have hno : notices id s.log = [] ∧ (∀ t, Obs.over t id ∉ s.log) ∧ id < s.nextRx + 1 ∧ s.inside ≠ some id := by
      rcases List.mem_append.1 he with he | he
      · obtain ⟨h5, h6, h7, h8⟩ := i.endsLt e he id h3
        exact ⟨h7, h8, Nat.lt_succ_of_lt h5, h6⟩
      · rw [List.mem_singleton.1 he] at h3
        cases h3
        refine ⟨(i.noticeLt _ (Nat.le_refl _)).1, (i.noticeLt _ (Nat.le_refl _)).2, Nat.lt_succ_self _, ?_⟩
        intro hin
        obtain ⟨r, hr, h4⟩ := i.insideRx _ hin
        have := i.rxLt r hr
        omega
    refine ⟨hno.2.2.1, hno.2.2.2, ?_, ?_⟩
    · show notices id (s.log ++ [_]) = []
      rw [notices_snoc]; exact hno.1
    · intro t ht
      rcases List.mem_append.1 ht with ht | ht
      · exact hno.2.1 t ht
      · simp at ht
  noticeLt := by
    intro id hid
    obtain ⟨h5, h6⟩ := i.noticeLt id (Nat.le_of_succ_le hid)
    refine ⟨?_, ?_⟩
    · show notices id (s.log ++ [_]) = []
      rw [notices_snoc]; exact h5
    · intro t ht
      rcases List.mem_append.1 ht with ht | ht
      · exact h6 t ht
      · simp at ht
  once := fun id => by
    show (notices id (s.log ++ [_])).length ≤ 1
    rw [notices_snoc]; exact i.once id
  told := by
    intro t id d pw j h
    have h' : Obs.arrived t id d pw j ∈ s.log := by
      rcases List.mem_append.1 h with h | h
      · exact h
      · simp at h
    obtain ⟨h5, h6⟩ := i.told t id d pw j h'
    refine ⟨Nat.lt_succ_of_lt h5, ?_⟩
    show (notices id (s.log ++ [_])).length = 1 ∨ _
    rw [notices_snoc]; exact h6

theorem Inv.arrive {s : St P} (i : Inv c s) (hin : s.inside = none) (dur : Nat) (pw junk : P) (b : Bool) : Inv c { s with
    log := s.log ++ [.arrived s.now s.nextRx dur pw junk]
    rx := disturb c s.now pw s.rx ++ [⟨s.nextRx, s.now, dur, pw, b⟩]
    pend := s.pend ++ [(s.nextTid, s.now + dur, .rxDone s.nextRx)], nextTid := s.nextTid + 1, nextRx := s.nextRx + 1 } where
  tid := (pend_snoc i _).1
  tidLt := (pend_snoc i _).2
  txLive := by show s.tx.map _ = liveTx (s.log ++ [_]); rw [liveTx_snoc]; exact i.txLive
  rxLive := by
    show (disturb c s.now pw s.rx ++ [_]).map _ = liveRx (s.log ++ [_])
    rw [liveRx_snoc, List.map_append, disturb_map _ _ _ _ (fun _ _ => rfl), i.rxLive]
    rfl
  txIds := i.txIds
  txLt := i.txLt
  rxIds := by
    show ((disturb c s.now pw s.rx ++ [_]).map _).Nodup
    rw [List.map_append, disturb_map _ _ _ _ (fun _ _ => rfl), List.nodup_append]
    refine ⟨i.rxIds, by simp, ?_⟩
    intro x hx y hy
    obtain ⟨r, hr, rfl⟩ := List.mem_map.1 hx
    have := i.rxLt r hr
    simp only [List.map_cons, List.map_nil, List.mem_singleton] at hy
    omega
  rxLt := by
    intro r hr
    show r.id < s.nextRx + 1
    rcases List.mem_append.1 hr with hr | hr
    · obtain ⟨r0, h0, h1, _⟩ := mem_disturb hr
      have := i.rxLt r0 h0
      omega
    · rw [List.mem_singleton.1 hr]; exact Nat.lt_succ_self _
  txSoon := i.txSoon
  rxOld := by
    intro r hr
    rcases List.mem_append.1 hr with hr | hr
    · obtain ⟨r0, h0, _, h1, _⟩ := mem_disturb hr
      rw [h1]; exact i.rxOld r0 h0
    · rw [List.mem_singleton.1 hr]
  txStarts := i.txStarts
  txPend := fun r hr => by
    obtain ⟨tid, h⟩ := i.txPend r hr
    exact ⟨tid, List.mem_append_left _ h⟩
  rxPend := fun r hr => by
    rcases List.mem_append.1 hr with hr | hr
    · obtain ⟨r0, h0, h1, h2, h3, _⟩ := mem_disturb hr
      rw [h1, h2, h3]
      rcases i.rxPend r0 h0 with h | ⟨tid, h⟩
      · exact .inl h
      · exact .inr ⟨tid, List.mem_append_left _ h⟩
    · rw [List.mem_singleton.1 hr]
      exact .inr ⟨s.nextTid, List.mem_append_right _ (by simp)⟩
  insideRx := fun id h => by
    have h' : s.inside = some id := h
    rw [hin] at h'; cases h'
  ends := (i.ignore dur pw).ends
  endsLt := by
    intro e he id h3
    obtain ⟨h4, h5, h6, h7⟩ := (i.ignore dur pw).endsLt e he id h3
    have h6' : notices id (s.log ++ [_]) = [] := h6
    rw [notices_snoc] at h6'
    refine ⟨h4, h5, ?_, ?_⟩
    · show notices id (s.log ++ [_]) = []
      rw [notices_snoc]; exact h6'
    · intro t ht
      rcases List.mem_append.1 ht with ht | ht
      · exact h7 t (List.mem_append_left _ ht)
      · simp at ht
  noticeLt := by
    intro id hid
    obtain ⟨h5, h6⟩ := i.noticeLt id (Nat.le_of_succ_le hid)
    refine ⟨?_, ?_⟩
    · show notices id (s.log ++ [_]) = []
      rw [notices_snoc]; exact h5
    · intro t ht
      rcases List.mem_append.1 ht with ht | ht
      · exact h6 t ht
      · simp at ht
  once := fun id => by
    show (notices id (s.log ++ [_])).length ≤ 1
    rw [notices_snoc]; exact i.once id
  told := by
    intro t id d pw' j h
    show id < s.nextRx + 1 ∧ ((notices id (s.log ++ [_])).length = 1 ∨ (∃ r ∈ disturb c s.now pw s.rx ++ [_], r.id = id) ∧ _)
    rw [notices_snoc]
    rcases List.mem_append.1 h with h | h
    · obtain ⟨h5, h6⟩ := i.told t id d pw' j h
      refine ⟨Nat.lt_succ_of_lt h5, ?_⟩
      rcases h6 with h6 | ⟨⟨r, hr, h7⟩, h8⟩
      · exact .inl h6
      · refine .inr ⟨?_, h8⟩
        have : id ∈ (disturb c s.now pw s.rx).map (·.id) := by
          rw [disturb_map _ _ _ _ (fun _ _ => rfl)]; exact List.mem_map.2 ⟨r, hr, h7⟩
        obtain ⟨r', hr', h9⟩ := List.mem_map.1 this
        exact ⟨r', List.mem_append_left _ hr', h9⟩
    · simp only [List.mem_singleton, Obs.arrived.injEq] at h
      obtain ⟨_, rfl, _⟩ := h
      exact ⟨Nat.lt_succ_self _, .inr ⟨⟨_, List.mem_append_right _ (List.mem_singleton.2 rfl), rfl⟩, by rw [hin]; simp⟩⟩

theorem Inv.erase {s : St P} (i : Inv c s) {a b : List (Nat × ℤ × Ev P)} {tid : Nat} {due start dur : ℤ} {u v : List Tx} {r : Tx}
    (hp : s.pend = a ++ (tid, due, .erase start dur) :: b) (ht : s.tx = u ++ r :: v) (h1 : r.start = start) (_h2 : r.dur = dur) :
    Inv c { s with now := max s.now due, pend := a ++ b, tx := u ++ v, log := s.log ++ [.forgotten (max s.now due) r.id] } := by
  have hnow : s.now ≤ max s.now due := Int.le_max_left _ _
  have hpl : Inv c { s with now := max s.now due, pend := a ++ (tid, due, .erase start dur) :: b } := by
    have := i.wait hnow
    rw [← hp]; exact this
  have hsub : ∀ x ∈ u ++ v, x ∈ s.tx := by
    intro x hx
    rw [ht]
    rcases List.mem_append.1 hx with hx | hx
    · exact List.mem_append_left _ hx
    · exact List.mem_append_right _ (List.mem_cons_of_mem _ hx)
  have hne : ∀ x ∈ u ++ v, x.start ≠ start ∧ x.id ≠ r.id := by
    intro x hx
    have hd := i.txStarts
    have hi := i.txIds
    rw [ht, List.map_append, List.map_cons, List.nodup_append, List.nodup_cons] at hd hi
    rcases List.mem_append.1 hx with hx | hx
    · exact ⟨fun h => hd.2.2 _ (List.mem_map_of_mem hx) _ List.mem_cons_self (h.trans h1.symm),
        fun h => hi.2.2 _ (List.mem_map_of_mem hx) _ List.mem_cons_self h⟩
    · exact ⟨fun h => hd.2.1.1 (by rw [h1, ← h]; exact List.mem_map_of_mem hx),
        fun h => hi.2.1.1 (by rw [← h]; exact List.mem_map_of_mem hx)⟩
  have hpend : ∀ e ∈ a ++ b, e ∈ s.pend := fun e he => by rw [hp]; exact mem_back he
  constructor
  · have := i.tid; rw [hp] at this; exact nodup_drop this
  · exact fun e he => i.tidLt e (hpend e he)
  · show (u ++ v).map _ = liveTx (s.log ++ [_])
    rw [liveTx_snoc]
    show _ = (liveTx s.log).filter _
    rw [← i.txLive, ht, List.filter_map]
    congr 1
    rw [List.filter_append, List.filter_cons_of_neg (by simp)]
    have hk : ∀ w : List Tx, (∀ x ∈ w, x.id ≠ r.id) → w.filter ((fun e : Nat × ℤ => decide (e.1 ≠ r.id)) ∘ fun r => (r.id, r.start)) = w := by
      intro w hw
      refine List.filter_eq_self.2 (fun x hx => ?_)
      simpa using hw x hx
    rw [hk u (fun x hx => (hne x (List.mem_append_left _ hx)).2), hk v (fun x hx => (hne x (List.mem_append_right _ hx)).2)]
  · show s.rx.map _ = liveRx (s.log ++ [_])
    rw [liveRx_snoc]; exact i.rxLive
  · have := i.txIds
    rw [ht] at this
    exact this.sublist (List.Sublist.map _ (List.Sublist.append_left (List.sublist_cons_self _ _) _))
  · exact fun x hx => i.txLt x (hsub x hx)
  · exact i.rxIds
  · exact i.rxLt
  · exact fun x hx => hpl.txSoon x (hsub x hx)
  · exact hpl.rxOld
  · have := i.txStarts
    rw [ht] at this
    exact this.sublist (List.Sublist.map _ (List.Sublist.append_left (List.sublist_cons_self _ _) _))
  · intro x hx
    obtain ⟨tid', h⟩ := i.txPend x (hsub x hx)
    rw [hp] at h
    refine ⟨tid', mem_left h ?_⟩
    intro he
    cases he
    exact (hne x hx).1 rfl
  · intro x hx
    rcases i.rxPend x hx with h | ⟨tid', h⟩
    · exact .inl h
    · rw [hp] at h
      exact .inr ⟨tid', mem_left h (by intro he; cases he)⟩
  · exact i.insideRx
  · exact fun e he e' he' id h5 h6 => i.ends e (hpend e he) e' (hpend e' he') id h5 h6
  · intro e he id h5
    obtain ⟨h6, h7, h8, h9⟩ := i.endsLt e (hpend e he) id h5
    refine ⟨h6, h7, ?_, ?_⟩
    · show notices id (s.log ++ [_]) = []
      rw [notices_snoc]; exact h8
    · intro t ht
      rcases List.mem_append.1 ht with ht | ht
      · exact h9 t ht
      · simp at ht
  · intro id hid
    obtain ⟨h5, h6⟩ := i.noticeLt id hid
    refine ⟨?_, ?_⟩
    · show notices id (s.log ++ [_]) = []
      rw [notices_snoc]; exact h5
    · intro t ht
      rcases List.mem_append.1 ht with ht | ht
      · exact h6 t ht
      · simp at ht
  · intro id
    show (notices id (s.log ++ [_])).length ≤ 1
    rw [notices_snoc]; exact i.once id
  · intro t id d pw j h
    have h' : Obs.arrived t id d pw j ∈ s.log := by
      rcases List.mem_append.1 h with h | h
      · exact h
      · simp at h
    show id < s.nextRx ∧ ((notices id (s.log ++ [_])).length = 1 ∨ _)
    rw [notices_snoc]; exact i.told t id d pw j h'

theorem Inv.noErase {s : St P} (i : Inv c s) {a b : List (Nat × ℤ × Ev P)} {tid : Nat} {due start dur : ℤ}
    (hp : s.pend = a ++ (tid, due, .erase start dur) :: b) (hno : ∀ r ∈ s.tx, ¬ (r.start = start ∧ r.dur = dur)) :
    Inv c { s with now := max s.now due, pend := a ++ b } := by
  have hw := i.wait (Int.le_max_left s.now due)
  have hpend : ∀ e ∈ a ++ b, e ∈ s.pend := fun e he => by rw [hp]; exact mem_back he
  exact { hw with
    tid := by have := i.tid; rw [hp] at this; exact nodup_drop this
    tidLt := fun e he => i.tidLt e (hpend e he)
    txPend := fun x hx => by
      obtain ⟨tid', h⟩ := i.txPend x hx
      rw [hp] at h
      refine ⟨tid', mem_left h ?_⟩
      intro he
      cases he
      exact hno x hx ⟨rfl, rfl⟩
    rxPend := fun x hx => by
      rcases i.rxPend x hx with h | ⟨tid', h⟩
      · exact .inl h
      · rw [hp] at h
        exact .inr ⟨tid', mem_left h (by intro he; cases he)⟩
    ends := fun e he e' he' id h5 h6 => i.ends e (hpend e he) e' (hpend e' he') id h5 h6
    endsLt := fun e he id h5 => i.endsLt e (hpend e he) id h5 }

theorem Inv.notice {s : St P} (i : Inv c s) (hin : s.inside = none) {a b : List (Nat × ℤ × Ev P)} {tid : Nat} {due : ℤ} {r : Rx P}
    (hp : s.pend = a ++ (tid, due, .rxDone r.id) :: b) (hr : r ∈ s.rx) (ok : Bool) :
    Inv c { s with now := max s.now due, pend := a ++ b, inside := some r.id
                   log := s.log ++ [.notice (max s.now due) r.id ok] } := by
  have hw := i.wait (Int.le_max_left s.now due)
  have hpend : ∀ e ∈ a ++ b, e ∈ s.pend := fun e he => by rw [hp]; exact mem_back he
  have hthis : (tid, due, Ev.rxDone r.id) ∈ s.pend := by rw [hp]; simp
  have hgone : ∀ e ∈ a ++ b, ∀ id, e.2.2 = Ev.rxDone id → r.id ≠ id := by
    intro e he id h5 h6
    subst h6
    have := i.ends e (hpend e he) _ hthis r.id h5 rfl
    subst this
    have hd := i.tid
    rw [hp, List.map_append, List.map_cons, List.nodup_append, List.nodup_cons] at hd
    rcases List.mem_append.1 he with he | he
    · exact hd.2.2 _ (List.mem_map_of_mem he) _ List.mem_cons_self rfl
    · exact hd.2.1.1 (List.mem_map_of_mem he)
  have hr0 := i.endsLt _ hthis r.id rfl
  constructor
  · have := i.tid; rw [hp] at this; exact nodup_drop this
  · exact fun e he => i.tidLt e (hpend e he)
  · show s.tx.map _ = liveTx (s.log ++ [_]); rw [liveTx_snoc]; exact i.txLive
  · show s.rx.map _ = liveRx (s.log ++ [_]); rw [liveRx_snoc]; exact i.rxLive
  · exact i.txIds
  · exact i.txLt
  · exact i.rxIds
  · exact i.rxLt
  · exact hw.txSoon
  · exact hw.rxOld
  · exact i.txStarts
  · intro x hx
    obtain ⟨tid', h⟩ := i.txPend x hx
    rw [hp] at h
    exact ⟨tid', mem_left h (by intro he; cases he)⟩
  · intro x hx
    by_cases hid : x.id = r.id
    · exact .inl (congrArg some hid.symm)
    · rcases i.rxPend x hx with h | ⟨tid', h⟩
      · rw [hin] at h; cases h
      · rw [hp] at h
        exact .inr ⟨tid', mem_left h (by intro he; injection he with he; exact hid he)⟩
  · intro id h
    cases h
    exact ⟨r, hr, rfl⟩
  · exact fun e he e' he' id h5 h6 => i.ends e (hpend e he) e' (hpend e' he') id h5 h6
  · intro e he id h5
    obtain ⟨h6, h7, h8, h9⟩ := i.endsLt e (hpend e he) id h5
    have hne := hgone e he id h5
    refine ⟨h6, ?_, ?_, ?_⟩
    · intro h; cases h; exact hne rfl
    · show notices id (s.log ++ [_]) = []
      rw [notices_snoc]
      show (if r.id = id then _ else _) = []
      rw [if_neg hne]; exact h8
    · intro t ht
      rcases List.mem_append.1 ht with ht | ht
      · exact h9 t ht
      · simp at ht
  · intro id hid
    obtain ⟨h5, h6⟩ := i.noticeLt id hid
    refine ⟨?_, ?_⟩
    · show notices id (s.log ++ [_]) = []
      rw [notices_snoc]
      show (if r.id = id then _ else _) = []
      rw [if_neg (fun h => by have := hr0.1; have h' : s.nextRx ≤ id := hid; omega)]; exact h5
    · intro t ht
      rcases List.mem_append.1 ht with ht | ht
      · exact h6 t ht
      · simp at ht
  · intro id
    show (notices id (s.log ++ [_])).length ≤ 1
    rw [notices_snoc]
    show List.length (if r.id = id then _ else _) ≤ 1
    split
    · rename_i h; subst h; rw [hr0.2.2.1]; exact Nat.le_refl _
    · exact i.once id
  · intro t id d pw j h
    have h' : Obs.arrived t id d pw j ∈ s.log := by
      rcases List.mem_append.1 h with h | h
      · exact h
      · simp at h
    show id < s.nextRx ∧ ((notices id (s.log ++ [_])).length = 1 ∨ _ ∧ some r.id ≠ some id)
    rw [notices_snoc]
    show id < s.nextRx ∧ (List.length (if r.id = id then _ else _) = 1 ∨ _ ∧ some r.id ≠ some id)
    obtain ⟨h5, h6⟩ := i.told t id d pw j h'
    refine ⟨h5, ?_⟩
    by_cases hid : r.id = id
    · left; rw [if_pos hid, ← hid, hr0.2.2.1]; rfl
    · rw [if_neg hid]
      rcases h6 with h6 | ⟨h6, _⟩
      · exact .inl h6
      · exact .inr ⟨h6, fun h => hid (Option.some.inj h)⟩

theorem Inv.skip {s : St P} (i : Inv c s) {a b : List (Nat × ℤ × Ev P)} {tid : Nat} {due : ℤ} {id0 : Nat}
    (hp : s.pend = a ++ (tid, due, .rxDone id0) :: b) (hr : ∀ r ∈ s.rx, r.id ≠ id0) :
    Inv c { s with now := max s.now due, pend := a ++ b, log := s.log ++ [.over (max s.now due) id0] } := by
  have hw := i.wait (Int.le_max_left s.now due)
  have hpend : ∀ e ∈ a ++ b, e ∈ s.pend := fun e he => by rw [hp]; exact mem_back he
  have hthis : (tid, due, Ev.rxDone id0) ∈ s.pend := by rw [hp]; simp
  have hgone : ∀ e ∈ a ++ b, ∀ id, e.2.2 = Ev.rxDone id → id0 ≠ id := by
    intro e he id h5 h6
    subst h6
    have := i.ends e (hpend e he) _ hthis id0 h5 rfl
    subst this
    have hd := i.tid
    rw [hp, List.map_append, List.map_cons, List.nodup_append, List.nodup_cons] at hd
    rcases List.mem_append.1 he with he | he
    · exact hd.2.2 _ (List.mem_map_of_mem he) _ List.mem_cons_self rfl
    · exact hd.2.1.1 (List.mem_map_of_mem he)
  have hr0 := i.endsLt _ hthis id0 rfl
  constructor
  · have := i.tid; rw [hp] at this; exact nodup_drop this
  · exact fun e he => i.tidLt e (hpend e he)
  · show s.tx.map _ = liveTx (s.log ++ [_]); rw [liveTx_snoc]; exact i.txLive
  · show s.rx.map _ = liveRx (s.log ++ [_])
    rw [liveRx_snoc]
    show _ = (liveRx s.log).filter _
    rw [← i.rxLive, List.filter_eq_self.2]
    intro x hx
    obtain ⟨r, h1, rfl⟩ := List.mem_map.1 hx
    simpa using hr r h1
  · exact i.txIds
  · exact i.txLt
  · exact i.rxIds
  · exact i.rxLt
  · exact hw.txSoon
  · exact hw.rxOld
  · exact i.txStarts
  · intro x hx
    obtain ⟨tid', h⟩ := i.txPend x hx
    rw [hp] at h
    exact ⟨tid', mem_left h (by intro he; cases he)⟩
  · intro x hx
    rcases i.rxPend x hx with h | ⟨tid', h⟩
    · exact .inl h
    · rw [hp] at h
      exact .inr ⟨tid', mem_left h (by intro he; injection he with he; exact hr x hx he)⟩
  · exact i.insideRx
  · exact fun e he e' he' id h5 h6 => i.ends e (hpend e he) e' (hpend e' he') id h5 h6
  · intro e he id h5
    obtain ⟨h6, h7, h8, h9⟩ := i.endsLt e (hpend e he) id h5
    refine ⟨h6, h7, ?_, ?_⟩
    · show notices id (s.log ++ [_]) = []
      rw [notices_snoc]; exact h8
    · intro t ht
      rcases List.mem_append.1 ht with ht | ht
      · exact h9 t ht
      · simp only [List.mem_singleton, Obs.over.injEq] at ht
        exact hgone e he id h5 ht.2.symm
  · intro id hid
    obtain ⟨h5, h6⟩ := i.noticeLt id hid
    refine ⟨?_, ?_⟩
    · show notices id (s.log ++ [_]) = []
      rw [notices_snoc]; exact h5
    · intro t ht
      rcases List.mem_append.1 ht with ht | ht
      · exact h6 t ht
      · simp only [List.mem_singleton, Obs.over.injEq] at ht
        have := hr0.1
        have h' : s.nextRx ≤ id := hid
        omega
  · intro id
    show (notices id (s.log ++ [_])).length ≤ 1
    rw [notices_snoc]; exact i.once id
  · intro t id d pw j h
    have h' : Obs.arrived t id d pw j ∈ s.log := by
      rcases List.mem_append.1 h with h | h
      · exact h
      · simp at h
    show id < s.nextRx ∧ ((notices id (s.log ++ [_])).length = 1 ∨ _)
    rw [notices_snoc]; exact i.told t id d pw j h'

theorem Inv.ret {s : St P} (i : Inv c s) {id0 : Nat} (hin : s.inside = some id0) :
    Inv c { s with rx := s.rx.eraseP (fun r => r.id = id0), inside := none, log := s.log ++ [.over s.now id0] } := by
  obtain ⟨r, hr, h1⟩ := i.insideRx id0 hin
  have herase : s.rx.eraseP (fun r => decide (r.id = id0)) = s.rx.filter (fun r => decide (r.id ≠ id0)) := by
    have hd := i.rxIds
    generalize s.rx = l at hd ⊢
    induction l with
    | nil => rfl
    | cons x l ih =>
      rw [List.map_cons, List.nodup_cons] at hd
      by_cases hx : x.id = id0
      · rw [List.eraseP_cons_of_pos (by simpa using hx), List.filter_cons_of_neg (by simpa using hx)]
        refine (List.filter_eq_self.2 (fun y hy => ?_)).symm
        have : y.id ≠ id0 := fun h => hd.1 (by rw [hx, ← h]; exact List.mem_map_of_mem hy)
        simpa using this
      · rw [List.eraseP_cons_of_neg (by simpa using hx), List.filter_cons_of_pos (by simpa using hx), ih hd.2]
  have hsub : ∀ x ∈ s.rx.eraseP (fun r => decide (r.id = id0)), x ∈ s.rx ∧ x.id ≠ id0 := by
    intro x hx
    rw [herase, List.mem_filter] at hx
    exact ⟨hx.1, by simpa using hx.2⟩
  constructor
  · exact i.tid
  · exact i.tidLt
  · show s.tx.map _ = liveTx (s.log ++ [_]); rw [liveTx_snoc]; exact i.txLive
  · show (s.rx.eraseP (fun r => decide (r.id = id0))).map _ = liveRx (s.log ++ [_])
    rw [liveRx_snoc, herase]
    show _ = (liveRx s.log).filter _
    rw [← i.rxLive, List.filter_map]
    rfl
  · exact i.txIds
  · exact i.txLt
  · exact i.rxIds.sublist (List.Sublist.map _ List.eraseP_sublist)
  · exact fun x hx => i.rxLt x (hsub x hx).1
  · exact i.txSoon
  · exact fun x hx => i.rxOld x (hsub x hx).1
  · exact i.txStarts
  · exact i.txPend
  · intro x hx
    rcases i.rxPend x (hsub x hx).1 with h | h
    · rw [hin] at h
      exact absurd (Option.some.inj h).symm (hsub x hx).2
    · exact .inr h
  · intro id h; cases h
  · exact i.ends
  · intro e he id h5
    obtain ⟨h6, h7, h8, h9⟩ := i.endsLt e he id h5
    refine ⟨h6, by simp, ?_, ?_⟩
    · show notices id (s.log ++ [_]) = []
      rw [notices_snoc]; exact h8
    · intro t ht
      rcases List.mem_append.1 ht with ht | ht
      · exact h9 t ht
      · simp only [List.mem_singleton, Obs.over.injEq] at ht
        rw [hin] at h7
        exact h7 (by rw [ht.2])
  · intro id hid
    obtain ⟨h5, h6⟩ := i.noticeLt id hid
    refine ⟨?_, ?_⟩
    · show notices id (s.log ++ [_]) = []
      rw [notices_snoc]; exact h5
    · intro t ht
      rcases List.mem_append.1 ht with ht | ht
      · exact h6 t ht
      · simp only [List.mem_singleton, Obs.over.injEq] at ht
        have := i.rxLt r hr
        have h' : s.nextRx ≤ id := hid
        omega
  · intro id
    show (notices id (s.log ++ [_])).length ≤ 1
    rw [notices_snoc]; exact i.once id
  · intro t id d pw j h
    have h' : Obs.arrived t id d pw j ∈ s.log := by
      rcases List.mem_append.1 h with h | h
      · exact h
      · simp at h
    obtain ⟨h5, h6⟩ := i.told t id d pw j h'
    refine ⟨h5, ?_⟩
    show (notices id (s.log ++ [_])).length = 1 ∨ _
    rw [notices_snoc]
    rcases h6 with h6 | ⟨⟨x, hx, h7⟩, h8⟩
    · exact .inl h6
    · refine .inr ⟨⟨x, ?_, h7⟩, by simp⟩
      show x ∈ s.rx.eraseP (fun r => decide (r.id = id0))
      rw [herase, List.mem_filter]
      refine ⟨hx, ?_⟩
      rw [hin] at h8
      simp only [ne_eq, decide_eq_true_eq]
      intro h9
      exact h8 (by rw [← h9, h7])

/-- The packet the MAC is being told of has its result. -/
def Told (s : St P) : Prop := ∀ id, s.inside = some id → (notices id s.log).length = 1

theorem Inv.move (hp : 0 < c.p) (hts : 0 < c.ts) {s s' : St P} (i : Inv c s) (ht : Told s) (m : Move c s s') : Inv c s' ∧ Told s' := by
  have plainTold : ∀ {s' : St P} {o : Obs P}, s'.inside = s.inside → s'.log = s.log ++ [o] → (∀ t id ok, o ≠ .notice t id ok) → Told s' := by
    intro s' o h1 h2 h3 id hid
    rw [h1] at hid
    rw [h2, notices_snoc]
    have := ht id hid
    cases o with
    | notice t i ok => exact absurd rfl (h3 t i ok)
    | _ => exact this
  cases m with
  | wait d _ => exact ⟨i.wait (by omega), ht⟩
  | idle => exact ⟨i, ht⟩
  | direct dur h1 h2 =>
    exact ⟨i.accept dur (by omega) (by rw [h1]; simp), plainTold rfl rfl (by simp)⟩
  | fit dur x h =>
    have hs := mem_starts_lt hts i
    obtain ⟨h1, h2, h3⟩ := gap_spec hp hts hs h
    refine ⟨i.accept dur (by omega) ?_, plainTold rfl rfl (by simp)⟩
    intro r hr he
    have hm : r.start ∈ starts s := List.mem_append_left _ (List.mem_map_of_mem hr)
    obtain ⟨⟨k, hk, hk'⟩, _, h5⟩ := image_spec (c := c) hp hts (hs _ hm)
    have h6 := h3 _ hm
    rw [hk'] at h5 h6
    rcases Int.lt_or_eq_of_le hk with hk | hk
    · have : 1 * c.ts ≤ k * c.ts := Int.mul_le_mul_of_nonneg_right (by omega) (Int.le_of_lt hts)
      omega
    · rw [← hk] at h6; omega
  | refuse h =>
    have := i.plain (o := .refused s.now) (now' := s.now) (pend' := s.pend) (nt := s.nextTid)
      ⟨by rw [liveTx_snoc], by rw [liveRx_snoc], fun id => by rw [notices_snoc], by simp, by simp⟩ (Int.le_refl _) i.tid i.tidLt
      (fun e he _ => he) (fun e he _ _ => he)
    exact ⟨this, plainTold rfl rfl (by simp)⟩
  | wild h => exact absurd h (wild_spec hp hts (mem_starts_lt hts i))
  | launch a b tid due id dur hin hl =>
    have hpend : ∀ e ∈ a ++ b, e ∈ s.pend := fun e he => by rw [hl]; exact mem_back he
    refine ⟨i.plain (o := .onAir (max s.now due) id) (now' := max s.now due)
      (pend' := a ++ b ++ [(s.nextTid, max s.now due + dur, .txDone id)]) (nt := s.nextTid + 1)
      ⟨by rw [liveTx_snoc], by rw [liveRx_snoc], fun id => by rw [notices_snoc], by simp, by simp⟩ (Int.le_max_left _ _) ?_ ?_ ?_ ?_,
      plainTold rfl rfl (by simp)⟩
    · rw [List.map_append, List.nodup_append]
      refine ⟨by have := i.tid; rw [hl] at this; exact nodup_drop this, by simp, ?_⟩
      intro x hx y hy
      obtain ⟨e, he, rfl⟩ := List.mem_map.1 hx
      have := i.tidLt e (hpend e he)
      simp only [List.map_cons, List.map_nil, List.mem_singleton] at hy
      omega
    · intro e he
      rcases List.mem_append.1 he with he | he
      · have := i.tidLt e (hpend e he); omega
      · rw [List.mem_singleton.1 he]; exact Nat.lt_succ_self _
    · intro e he h
      rw [hl] at he
      refine List.mem_append_left _ (mem_left he ?_)
      rintro h1
      rcases h with ⟨_, _, h⟩ | ⟨_, h⟩ <;> rw [h] at h1 <;> cases h1
    · intro e he id' h
      rcases List.mem_append.1 he with he | he
      · exact hpend e he
      · rw [List.mem_singleton.1 he] at h; cases h
  | erase a b tid due start dur u v r hin hl h1 h2 h3 =>
    exact ⟨i.erase hl h1 h2 h3, plainTold rfl rfl (by simp)⟩
  | noErase a b tid due start dur hin hl h1 => exact ⟨i.noErase hl h1, ht⟩
  | sent a b tid due id hin hl =>
    have hpend : ∀ e ∈ a ++ b, e ∈ s.pend := fun e he => by rw [hl]; exact mem_back he
    refine ⟨i.plain (o := .sent (max s.now due) id) (now' := max s.now due) (pend' := a ++ b) (nt := s.nextTid)
      ⟨by rw [liveTx_snoc], by rw [liveRx_snoc], fun id => by rw [notices_snoc], by simp, by simp⟩ (Int.le_max_left _ _) ?_ ?_ ?_ ?_,
      plainTold rfl rfl (by simp)⟩
    · have := i.tid; rw [hl] at this; exact nodup_drop this
    · exact fun e he => i.tidLt e (hpend e he)
    · intro e he h
      rw [hl] at he
      refine mem_left he ?_
      rintro h1
      rcases h with ⟨_, _, h⟩ | ⟨_, h⟩ <;> rw [h] at h1 <;> cases h1
    · exact fun e he _ _ => hpend e he
  | ignore dur pw hin _ => exact ⟨i.ignore dur pw, plainTold rfl rfl (by simp)⟩
  | arrive dur pw junk hin _ => exact ⟨i.arrive hin dur pw junk _, plainTold rfl rfl (by simp)⟩
  | notice a b tid due r hin hl hr =>
    refine ⟨i.notice hin hl hr _, ?_⟩
    intro id hid
    cases hid
    show (notices r.id (s.log ++ [_])).length = 1
    rw [notices_snoc]
    show List.length (if r.id = r.id then _ else _) = 1
    rw [if_pos rfl, (i.endsLt (tid, due, .rxDone r.id) (by rw [hl]; simp) r.id rfl).2.2.1]
    rfl
  | skip a b tid due id hin hl hr => exact ⟨i.skip hl hr, plainTold rfl rfl (by simp)⟩
  | ret id hin =>
    refine ⟨i.ret hin, ?_⟩
    intro id' h; cases h

/-- Induction over histories. -/
theorem reach {Q : St P → Prop} (hp : 0 < c.p) (hts : 0 < c.ts) (h0 : Q (init P))
    (hm : ∀ s s', Inv c s → Q s → Move c s s' → Q s') (ops : List (Op P)) : Inv c (after c ops) ∧ Q (after c ops) := by
  have key : ∀ (ops : List (Op P)) s, Inv c s → Told s → Q s → Inv c (ops.foldl (step c) s) ∧ Q (ops.foldl (step c) s) := by
    intro ops
    induction ops with
    | nil => intro s i _ q; exact ⟨i, q⟩
    | cons o ops ih =>
      intro s i t q
      have m := step_move (c := c) s o i.tid
      have := i.move hp hts t m
      exact ih _ this.1 this.2 (hm s _ i q m)
  exact key ops _ inv_init (by intro id h; cases h) h0

theorem inv_after (hp : 0 < c.p) (hts : 0 < c.ts) (ops : List (Op P)) : Inv c (after c ops) :=
  (reach (Q := fun _ => True) hp hts trivial (fun _ _ _ _ _ => trivial) ops).1

end Thz.PhyNano
