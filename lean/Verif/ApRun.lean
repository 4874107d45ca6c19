import Verif.ApAck

/-!
# Bookkeeping of the access point's events, transmissions and sweep drivers
-/

namespace Thz.Ap

open Thz Thz.Central
open Thz.Nano (Body Kind bcast)

/-! ## What a step schedules -/

/-- The events `l` (due time and event) were scheduled, nothing else happened to the event list. -/
structure News (l : List (ℤ × Ev)) (s s' : St) : Prop where
  pend : s'.pend = s.pend ++ l.mapIdx (fun i p => (s.nextTid + i, p.1, p.2))
  next : s'.nextTid = s.nextTid + l.length

theorem News.refl (s : St) : News [] s s := ⟨by simp, rfl⟩

theorem News.trans {l l' : List (ℤ × Ev)} {s s' s'' : St} (h : News l s s') (h' : News l' s' s'') :
    News (l ++ l') s s'' := by
  refine ⟨?_, ?_⟩
  · rw [h'.pend, h.pend, List.mapIdx_append, List.append_assoc]
    congr 2
    apply List.ext_getElem
    · simp
    · intro i h1 h2
      simp only [List.getElem_mapIdx]
      have := h.next
      refine Prod.ext ?_ rfl
      simp only
      omega
  · rw [h'.next, h.next, List.length_append, Nat.add_assoc]

theorem News.sched (s : St) (d : ℤ) (e : Ev) : News [(s.now + d, e)] s (s.sched d e) := ⟨rfl, rfl⟩

theorem News.mem {l : List (ℤ × Ev)} {s s' : St} (h : News l s s') (x : Nat × ℤ × Ev) (hx : x ∈ s'.pend) :
    x ∈ s.pend ∨ (s.nextTid ≤ x.1 ∧ x.1 < s'.nextTid ∧ x.2 ∈ l) := by
  rw [h.pend] at hx
  rcases List.mem_append.1 hx with hx | hx
  · exact .inl hx
  · right
    obtain ⟨i, hi, rfl⟩ := List.getElem_of_mem hx
    simp only [List.length_mapIdx] at hi
    simp only [List.getElem_mapIdx]
    refine ⟨Nat.le_add_right _ _, by rw [h.next]; omega, ?_⟩
    exact List.getElem_mem hi

/-! ## Event identifiers -/

/-- Identifiers are distinct and the two handles point to events of their kind. -/
structure TidInv (s : St) : Prop where
  nodup : (s.pend.map (fun e => e.1)).Nodup
  lt : ∀ e ∈ s.pend, e.1 < s.nextTid
  sector : ∀ t, s.sectorEv = some t → t < s.nextTid ∧ ∀ e ∈ s.pend, e.1 = t → e.2.2 = .sectorTimeout
  data : ∀ t, s.dataEv = some t → t < s.nextTid ∧ ∀ e ∈ s.pend, e.1 = t → e.2.2 = .dataTimeout

theorem TidInv.news {l : List (ℤ × Ev)} {s s' : St} (h : TidInv s) (k : News l s s')
    (h1 : s'.sectorEv = s.sectorEv ∨ ∃ i, ∃ hi : i < l.length, s'.sectorEv = some (s.nextTid + i) ∧ l[i].2 = .sectorTimeout)
    (h2 : s'.dataEv = s.dataEv ∨ ∃ i, ∃ hi : i < l.length, s'.dataEv = some (s.nextTid + i) ∧ l[i].2 = .dataTimeout) :
    TidInv s' := by
  have hge : ∀ (i : Nat) (hi : i < l.length) (e : Nat × ℤ × Ev), e ∈ s'.pend → e.1 = s.nextTid + i → e.2.2 = l[i].2 := by
    intro i hi e he hei
    rw [k.pend] at he
    rcases List.mem_append.1 he with he | he
    · have := h.lt e he; omega
    · obtain ⟨j, hj, rfl⟩ := List.getElem_of_mem he
      simp only [List.getElem_mapIdx] at hei ⊢
      have : j = i := by omega
      subst this
      rfl
  refine ⟨?_, ?_, ?_, ?_⟩
  · rw [k.pend, List.map_append, List.nodup_append]
    refine ⟨h.nodup, ?_, ?_⟩
    · rw [List.nodup_iff_pairwise_ne, List.pairwise_iff_getElem]
      intro i j hi hj hij
      simp only [List.getElem_map, List.getElem_mapIdx]
      omega
    · intro x hx y hy
      obtain ⟨e, he, rfl⟩ := List.mem_map.1 hx
      obtain ⟨e', he', rfl⟩ := List.mem_map.1 hy
      obtain ⟨j, hj, rfl⟩ := List.getElem_of_mem he'
      simp only [List.getElem_mapIdx]
      have := h.lt e he
      omega
  · intro e he
    rcases k.mem e he with he | he
    · have := h.lt e he; rw [k.next]; omega
    · exact he.2.1
  · intro t ht
    rcases h1 with h1 | ⟨i, hi, h1, h3⟩
    · rw [h1] at ht
      obtain ⟨a, b⟩ := h.sector t ht
      refine ⟨by rw [k.next]; omega, ?_⟩
      intro e he het
      rcases k.mem e he with he | he
      · exact b e he het
      · omega
    · rw [h1] at ht
      obtain rfl := Option.some.inj ht
      refine ⟨by rw [k.next]; omega, ?_⟩
      intro e he het
      rw [hge i hi e he het, h3]
  · intro t ht
    rcases h2 with h2 | ⟨i, hi, h2, h3⟩
    · rw [h2] at ht
      obtain ⟨a, b⟩ := h.data t ht
      refine ⟨by rw [k.next]; omega, ?_⟩
      intro e he het
      rcases k.mem e he with he | he
      · exact b e he het
      · omega
    · rw [h2] at ht
      obtain rfl := Option.some.inj ht
      refine ⟨by rw [k.next]; omega, ?_⟩
      intro e he het
      rw [hge i hi e he het, h3]

/-- Removing events keeps the bookkeeping. -/
theorem TidInv.filter {s s' : St} (h : TidInv s) (p : Nat × ℤ × Ev → Bool) (k : s'.pend = s.pend.filter p)
    (k1 : s'.nextTid = s.nextTid) (k2 : s'.sectorEv = s.sectorEv) (k3 : s'.dataEv = s.dataEv) : TidInv s' := by
  have hsub : ∀ e ∈ s'.pend, e ∈ s.pend := by
    intro e he; rw [k] at he; exact (List.mem_filter.1 he).1
  refine ⟨?_, ?_, ?_, ?_⟩
  · rw [k]
    exact h.nodup.sublist (List.filter_sublist.map _)
  · intro e he; rw [k1]; exact h.lt e (hsub e he)
  · intro t ht; rw [k2] at ht
    obtain ⟨a, b⟩ := h.sector t ht
    exact ⟨by rw [k1]; exact a, fun e he => b e (hsub e he)⟩
  · intro t ht; rw [k3] at ht
    obtain ⟨a, b⟩ := h.data t ht
    exact ⟨by rw [k1]; exact a, fun e he => b e (hsub e he)⟩

/-! ## Transmissions -/

/-- The frame whose transmission an event ends. -/
def phyF : Nat × ℤ × Ev → Option Frame
  | (_, _, .phyDone f) => some f
  | _ => none

/-- MAC, PHY and event list agree about the ongoing transmission. -/
structure TxInv (s : St) : Prop where
  phy : ∀ f, s.phyTx = some f ↔ (s.state = .tx ∧ s.pktTx = some f)
  some : s.state = .tx → s.phyTx ≠ none
  ev : s.pend.filterMap phyF = s.phyTx.toList

/-- Effect of a step that only schedules `l` and may start a transmission. -/
structure Eff (l : List (ℤ × Ev)) (s s' : St) : Prop where
  news : News l s s'
  sector : s'.sectorEv = s.sectorEv
  data : s'.dataEv = s.dataEv
  acks : s'.ackList = s.ackList
  ub : s'.ub = s.ub
  tx : TxInv s → TxInv s'

theorem Eff.refl (s : St) : Eff [] s s := ⟨News.refl s, rfl, rfl, rfl, rfl, id⟩

theorem Eff.trans {l l' : List (ℤ × Ev)} {s s' s'' : St} (h : Eff l s s') (h' : Eff l' s' s'') : Eff (l ++ l') s s'' :=
  ⟨h.news.trans h'.news, h'.sector.trans h.sector, h'.data.trans h.data, h'.acks.trans h.acks, h'.ub.trans h.ub,
    fun x => h'.tx (h.tx x)⟩

/-- Fields that matter here. -/
def core (s : St) : State × Option Nat × Option Nat × Option Frame × Option Frame × List Frame × Bool × Nat × List (Nat × ℤ × Ev) :=
  (s.state, s.sectorEv, s.dataEv, s.pktTx, s.phyTx, s.ackList, s.ub, s.nextTid, s.pend)

theorem Eff.same {s s' : St} (h : core s' = core s) : Eff [] s s' := by
  have e1 : s'.state = s.state := congrArg (fun x => x.1) h
  have e2 : s'.sectorEv = s.sectorEv := congrArg (fun x => x.2.1) h
  have e3 : s'.dataEv = s.dataEv := congrArg (fun x => x.2.2.1) h
  have e4 : s'.pktTx = s.pktTx := congrArg (fun x => x.2.2.2.1) h
  have e5 : s'.phyTx = s.phyTx := congrArg (fun x => x.2.2.2.2.1) h
  have e6 : s'.ackList = s.ackList := congrArg (fun x => x.2.2.2.2.2.1) h
  have e7 : s'.ub = s.ub := congrArg (fun x => x.2.2.2.2.2.2.1) h
  have e8 : s'.nextTid = s.nextTid := congrArg (fun x => x.2.2.2.2.2.2.2.1) h
  have e9 : s'.pend = s.pend := congrArg (fun x => x.2.2.2.2.2.2.2.2) h
  refine ⟨⟨by rw [e9]; simp, by rw [e8]; rfl⟩, e2, e3, e6, e7, ?_⟩
  intro x
  exact ⟨by rw [e1, e4, e5]; exact x.phy, by rw [e1, e5]; exact x.some, by rw [e9, e5]; exact x.ev⟩

theorem Eff.sched (s : St) (d : ℤ) (e : Ev) (h : ∀ f, e ≠ .phyDone f) : Eff [(s.now + d, e)] s (s.sched d e) := by
  refine ⟨News.sched s d e, rfl, rfl, rfl, rfl, ?_⟩
  intro x
  refine ⟨x.phy, x.some, ?_⟩
  show (s.pend ++ [(s.nextTid, s.now + d, e)]).filterMap phyF = s.phyTx.toList
  rw [List.filterMap_append, x.ev]
  cases e <;> simp_all [phyF]

/-- Sending a frame: it goes out and its end is scheduled, or it is blocked by the MAC's state. -/
theorem sendPacket_eff (c : Cfg) (f : Frame) (s : St) (hx : TxInv s) :
    ((s.state = .idle ∨ s.state = .waitTx) ∧ (sendPacket c f s).phyTx = some f ∧
        Eff [(s.now + c.ctrlDur f.kind, .phyDone f)] s (sendPacket c f s)) ∨
      (¬ (s.state = .idle ∨ s.state = .waitTx) ∧ Eff [] s (sendPacket c f s) ∧ .blocked f ∈ (sendPacket c f s).log) := by
  unfold sendPacket
  split
  · rename_i hs
    left
    have hne : s.state ≠ .tx := by rcases hs with h | h <;> rw [h] <;> simp
    have hnone : s.phyTx = none := by
      cases hp : s.phyTx with
      | none => rfl
      | some g => exact absurd ((hx.phy g).1 hp).1 hne
    rw [hnone]
    simp only [Option.isNone_none, if_true]
    refine ⟨hs, rfl, ⟨⟨rfl, rfl⟩, rfl, rfl, rfl, rfl, ?_⟩⟩
    intro _
    refine ⟨?_, ?_, ?_⟩
    · intro g
      show some f = some g ↔ (State.tx = .tx ∧ some f = some g)
      simp
    · intro _ h
      exact absurd h (by show some f ≠ none; simp)
    · show (s.pend ++ [(s.nextTid, s.now + c.ctrlDur f.kind, Ev.phyDone f)]).filterMap phyF = [f]
      rw [List.filterMap_append, hx.ev, hnone]
      simp [phyF]
  · rename_i hs
    right
    refine ⟨hs, ?_, ?_⟩
    · exact Eff.same (by rfl)
    · show Obs.blocked f ∈ s.log ++ [.blocked f]
      simp

theorem core_wrapDown (n : Nat) (s : St) : core (wrapDown n s) = core s := by
  induction n generalizing s with
  | zero => rfl
  | succ n ih =>
    unfold wrapDown
    split
    · exact (ih _).trans (by rfl)
    · rfl

/-- `TurnRxAntenna` in the three-way protocol. -/
theorem turn_eff (c : Cfg) (hw : c.ways = 3) (me : Mac48) (s : St) (hx : TxInv s) :
    ∃ t l, Eff ((t, .waitTime) :: l) s (turn c me s) ∧ (l = [] ∨ ∃ t' f, l = [(t', .phyDone f)] ∧ f.kind = .cta) := by
  unfold turn
  dsimp only
  set a := wrapUp (rounds (s.angle + c.beamwidth)) (s.angle + c.beamwidth)
  have h0 : core { s with angle := a } = core s := rfl
  have h1 : core (wrapDown (rounds a) { s with angle := a }) = core s :=
    (core_wrapDown (rounds a) { s with angle := a }).trans h0
  generalize wrapDown (rounds a) { s with angle := a } = s1 at h1 ⊢
  have h2 : Eff [] s (s1.emit (.turned s1.angle)) := Eff.same h1
  generalize s1.emit (.turned s1.angle) = s2 at h2 ⊢
  rw [if_pos hw]
  unfold sendCta3
  dsimp only
  have h3 : Eff [(s2.now + c.waitTime, .waitTime)] s2 { s2.sched c.waitTime .waitTime with nextId := s2.nextId + 1 } := by
    have := (Eff.sched s2 c.waitTime .waitTime (by simp)).trans
      (Eff.same (s' := { s2.sched c.waitTime .waitTime with nextId := s2.nextId + 1 }) (by rfl))
    simpa using this
  have h4 := h2.trans h3
  simp only [List.nil_append] at h4
  have key : ∀ s3 f, Eff [(s2.now + c.waitTime, .waitTime)] s s3 → f.kind = .cta →
      ∃ t l, Eff ((t, .waitTime) :: l) s (sendPacket c f s3) ∧
        (l = [] ∨ ∃ t' f, l = [(t', .phyDone f)] ∧ f.kind = .cta) := by
    intro s3 f h4 hf
    rcases sendPacket_eff c f s3 (h4.tx hx) with h5 | h5
    · exact ⟨_, _, h4.trans h5.2.2, .inr ⟨_, _, rfl, hf⟩⟩
    · exact ⟨_, _, h4.trans h5.2.1, .inl rfl⟩
  exact key _ _ h4 rfl

theorem answer_eff (c : Cfg) (i : Nat) (w : ℤ) (L : List (Frame × ℚ)) (s : St) :
    ∃ l, Eff l s (answer c i w L s) ∧ ∀ x ∈ l, ∃ d q v g, x.2 = .sendCts d q v g := by
  induction L generalizing i w s with
  | nil => exact ⟨[], Eff.refl s, by simp⟩
  | cons r rest ih =>
    unfold answer
    dsimp only
    have h1 := Eff.sched s ((c.ctrlDur .cts + c.ps 1) * i) (.sendCts r.1.src r.1.seq w (flagOf c r.2)) (by simp)
    obtain ⟨l, h2, h3⟩ := ih (i + 1) (w + c.dataDur c.packetSize (flagOf c r.2) + c.maxBo)
      (s.sched ((c.ctrlDur .cts + c.ps 1) * i) (.sendCts r.1.src r.1.seq w (flagOf c r.2)))
    refine ⟨_, h1.trans h2, ?_⟩
    intro x hx
    rcases List.mem_append.1 hx with hx | hx
    · rw [List.mem_singleton.1 hx]; exact ⟨_, _, _, _, rfl⟩
    · exact h3 x hx

theorem assign_eff (c : Cfg) (i : Nat) (L : List (Mac48 × List (ℚ × ℚ))) (s : St) :
    ∃ l, Eff l s (assign c i L s) ∧ ∀ x ∈ l, ∃ a d, x.2 = .feedback a d := by
  induction L generalizing i s with
  | nil => exact ⟨[], Eff.refl s, by simp⟩
  | cons e rest ih =>
    unfold assign
    dsimp only
    have h0 : Eff [] s ({ s with whiteList := mapUpsert ltQ (bestSector e.2) [] (· ++ [e.1]) s.whiteList }.emit
      (.listed e.1 (bestSector e.2))) := Eff.same (by rfl)
    generalize ({ s with whiteList := mapUpsert ltQ (bestSector e.2) [] (· ++ [e.1]) s.whiteList }.emit
      (.listed e.1 (bestSector e.2)) : St) = s1 at h0 ⊢
    have h1 := Eff.sched s1 (i * (c.ctrlDur .cts + c.ns 1)) (.feedback (bestSector e.2) e.1) (by simp)
    obtain ⟨l, h2, h3⟩ := ih (i + 1) (s1.sched (i * (c.ctrlDur .cts + c.ns 1)) (.feedback (bestSector e.2) e.1))
    refine ⟨_, (h0.trans h1).trans h2, ?_⟩
    intro x hx
    rcases List.mem_append.1 hx with hx | hx
    · simp only [List.nil_append] at hx
      rw [List.mem_singleton.1 hx]; exact ⟨_, _, rfl⟩
    · exact h3 x hx

theorem forward_core (f : Frame) (s : St) : core (forwardIfNew f s) = core s := by
  unfold forwardIfNew
  dsimp only
  split <;> rfl

/-! ## Sweep drivers -/

/-- A pending event that leads to the next turn of the antenna: the turn itself, the end of a collection or
data window, and the ACKs in between. -/
def drives : Nat × ℤ × Ev → Bool
  | (_, _, .turn) => true
  | (_, _, .waitTime) => true
  | (_, _, .sectorTimeout) => true
  | (_, _, .sendAck) => true
  | (_, _, .phyDone f) => decide (f.kind = .ack)
  | _ => false

/-- Invariant: `n` drivers are pending, everything else is in order. -/
structure Drv (n : Nat) (s : St) : Prop where
  tid : TidInv s
  noData : s.dataEv = none ∧ ∀ e ∈ s.pend, e.2.2 ≠ .dataTimeout
  tx : TxInv s
  count : s.pend.countP drives = n
  ack : (∃ e ∈ s.pend, e.2.2 = .sendAck) → s.ackList ≠ []
  ub : s.ub = false

/-- Number of drivers among newly scheduled events. -/
def drivesNew (l : List (ℤ × Ev)) : Nat := l.countP (fun p => drives (0, p))

theorem countP_news (k : Nat) (l : List (ℤ × Ev)) :
    (l.mapIdx (fun i p => (k + i, p.1, p.2))).countP drives = drivesNew l := by
  unfold drivesNew
  induction l generalizing k with
  | nil => rfl
  | cons p rest ih =>
    rw [List.mapIdx_cons, List.countP_cons, List.countP_cons]
    have e : (fun (i : Nat) (p : ℤ × Ev) => (k + (i + 1), p.1, p.2)) = (fun i p => (k + 1 + i, p.1, p.2)) := by
      funext i p; congr 1; omega
    rw [e, ih (k + 1)]
    congr 1
    obtain ⟨d, e⟩ := p
    cases e <;> rfl

theorem Drv.eff {n : Nat} {l : List (ℤ × Ev)} {s s' : St} (h : Drv n s) (k : Eff l s s')
    (h1 : ∀ x ∈ l, x.2 ≠ .dataTimeout ∧ (x.2 = .sendAck → s.ackList ≠ [])) : Drv (n + drivesNew l) s' := by
  refine ⟨h.tid.news k.news (.inl k.sector) (.inl k.data), ⟨by rw [k.data]; exact h.noData.1, ?_⟩, k.tx h.tx, ?_, ?_, ?_⟩
  · intro e he
    rcases k.news.mem e he with he | he
    · exact h.noData.2 e he
    · exact (h1 _ he.2.2).1
  · rw [k.news.pend, List.countP_append, h.count, countP_news]
  · rintro ⟨e, he, hs⟩
    rw [k.acks]
    rcases k.news.mem e he with he | he
    · exact h.ack ⟨e, he, hs⟩
    · exact (h1 _ he.2.2).2 hs
  · rw [k.ub]; exact h.ub

/-- Taking an event out of the list. -/
theorem pop_split {l : List (Nat × ℤ × Ev)} {x : Nat × ℤ × Ev} {tid : Nat} (hn : (l.map (fun e => e.1)).Nodup)
    (h : x ∈ l) (hx : x.1 = tid) : ∃ a b, l = a ++ x :: b ∧ l.filter (fun e => e.1 ≠ tid) = a ++ b := by
  obtain ⟨a, b, rfl⟩ := List.append_of_mem h
  refine ⟨a, b, rfl, ?_⟩
  rw [List.map_append, List.map_cons, List.nodup_append] at hn
  obtain ⟨-, h2, h3⟩ := hn
  rw [List.nodup_cons] at h2
  rw [List.filter_append, List.filter_cons_of_neg (by simp [hx])]
  congr 1
  · apply List.filter_eq_self.2
    intro e he
    have := h3 e.1 (List.mem_map.2 ⟨e, he, rfl⟩) x.1 (by simp)
    simpa [hx] using this
  · apply List.filter_eq_self.2
    intro e he
    have : e.1 ≠ x.1 := by
      intro heq
      exact h2.1 (List.mem_map.2 ⟨e, he, heq⟩)
    simpa [hx] using this

/-- The invariant without the part about the transmission, which the end of a transmission breaks briefly. -/
structure Drv0 (n : Nat) (s : St) : Prop where
  tid : TidInv s
  noData : s.dataEv = none ∧ ∀ e ∈ s.pend, e.2.2 ≠ .dataTimeout
  count : s.pend.countP drives = n
  ack : (∃ e ∈ s.pend, e.2.2 = .sendAck) → s.ackList ≠ []
  ub : s.ub = false

theorem Drv.pop {n : Nat} {s : St} (h : Drv n s) {x : Nat × ℤ × Ev} {tid : Nat} (hm : x ∈ s.pend) (hx : x.1 = tid)
    (due : ℤ) :
    Drv0 (n - (if drives x then 1 else 0)) { s with pend := s.pend.filter (fun e => e.1 ≠ tid), now := max s.now due } ∧
    (phyF x = none → TxInv { s with pend := s.pend.filter (fun e => e.1 ≠ tid), now := max s.now due }) ∧
    (∀ f, phyF x = some f → s.state = .tx ∧ s.pktTx = some f ∧
      (s.pend.filter (fun e => e.1 ≠ tid)).filterMap phyF = []) := by
  obtain ⟨a, b, h1, h2⟩ := pop_split h.tid.nodup hm hx
  refine ⟨⟨?_, ⟨h.noData.1, ?_⟩, ?_, ?_, h.ub⟩, ?_, ?_⟩
  · exact h.tid.filter (fun e => e.1 ≠ tid) rfl rfl rfl rfl
  · intro e he
    exact h.noData.2 e (List.mem_filter.1 he).1
  · have := h.count
    show (s.pend.filter (fun e => e.1 ≠ tid)).countP drives = _
    rw [h2]
    rw [h1] at this
    simp only [List.countP_append, List.countP_cons] at this ⊢
    split at this <;> simp_all <;> omega
  · rintro ⟨e, he, hs⟩
    exact h.ack ⟨e, (List.mem_filter.1 he).1, hs⟩
  · intro hn
    refine ⟨h.tx.phy, h.tx.some, ?_⟩
    show (s.pend.filter (fun e => e.1 ≠ tid)).filterMap phyF = s.phyTx.toList
    rw [h2, ← h.tx.ev, h1, List.filterMap_append, List.filterMap_append, List.filterMap_cons_none hn]
  · intro f hf
    have he := h.tx.ev
    rw [h1, List.filterMap_append, List.filterMap_cons_some hf] at he
    cases hp : s.phyTx with
    | none => rw [hp] at he; simp at he
    | some g =>
      rw [hp] at he
      simp only [Option.toList_some] at he
      have hl := congrArg List.length he
      simp only [List.length_append, List.length_cons, List.length_nil] at hl
      have ha : a.filterMap phyF = [] := List.eq_nil_of_length_eq_zero (by omega)
      have hb : b.filterMap phyF = [] := List.eq_nil_of_length_eq_zero (by omega)
      rw [ha, hb] at he
      simp only [List.nil_append, List.cons.injEq, and_true] at he
      subst he
      obtain ⟨k1, k2⟩ := (h.tx.phy f).1 hp
      refine ⟨k1, k2, ?_⟩
      rw [h2, List.filterMap_append, ha, hb]; rfl

theorem Drv0.full {n : Nat} {s : St} (h : Drv0 n s) (k : TxInv s) : Drv n s :=
  ⟨h.tid, h.noData, k, h.count, h.ack, h.ub⟩

/-! ## Steps -/

/-- `SendPacket` with a frame that is not an ACK. -/
theorem Drv.sendPacket {n : Nat} {s : St} (h : Drv n s) (c : Cfg) (f : Frame) (hf : f.kind ≠ .ack) :
    Drv n (sendPacket c f s) := by
  rcases sendPacket_eff c f s h.tx with ⟨-, -, k⟩ | ⟨-, k, -⟩
  · have := h.eff k (by simp)
    simpa [drivesNew, drives, hf] using this
  · have := h.eff k (by simp)
    simpa [drivesNew] using this

theorem Drv.turn {n : Nat} {s : St} (h : Drv n s) (c : Cfg) (hw : c.ways = 3) (me : Mac48) : Drv (n + 1) (turn c me s) := by
  obtain ⟨t, l, k, hl⟩ := turn_eff c hw me s h.tx
  have hd : drivesNew ((t, .waitTime) :: l) = 1 := by
    rcases hl with rfl | ⟨t', f, rfl, hf⟩
    · rfl
    · simp [drivesNew, drives, hf]
  have := h.eff k (by
    rcases hl with rfl | ⟨t', f, rfl, hf⟩ <;> simp)
  rwa [hd] at this

/-- No ACK was lost. -/
def AcksOk (s : St) : Prop := ∀ f, f.kind = .ack → .blocked f ∉ s.log

theorem drivesNew_zero (l : List (ℤ × Ev)) (h : ∀ x ∈ l, drives (0, x) = false) : drivesNew l = 0 := by
  unfold drivesNew
  rw [List.countP_eq_zero]
  intro x hx
  rw [h x hx]
  simp

/-- `SendAck` with a nonempty list. -/
theorem Drv.sendAck {n : Nat} {s : St} (h : Drv n s) (c : Cfg) (hl : s.ackList ≠ []) (hk : AkInv s)
    (hno : ∀ e ∈ s.pend, e.2.2 ≠ .sendAck) (hok : AcksOk (sendAck c s)) : Drv (n + 1) (sendAck c s) := by
  unfold Ap.sendAck at hok ⊢
  cases hc : s.ackList with
  | nil => exact absurd hc hl
  | cons a rest =>
    rw [hc] at hok
    dsimp only at hok ⊢
    have ha : a.kind = .ack := hk.kinds a (by rw [hc]; simp)
    rcases sendPacket_eff c a s h.tx with ⟨-, hphy, k⟩ | ⟨-, -, hb⟩
    · have h1 := h.eff k (by simp)
      have hd : drivesNew [(s.now + c.ctrlDur a.kind, Ev.phyDone a)] = 1 := by simp [drivesNew, drives, ha]
      rw [hd] at h1
      refine ⟨?_, h1.noData, ?_, h1.count, ?_, h1.ub⟩
      · exact h1.tid.filter (fun _ => true) (by simp) rfl rfl rfl
      · exact ⟨h1.tx.phy, h1.tx.some, h1.tx.ev⟩
      · rintro ⟨e, he, hs⟩
        exfalso
        rcases k.news.mem e he with he | he
        · exact hno e he hs
        · rw [List.mem_singleton.1 he.2.2] at hs
          simp at hs
    · exact absurd hb (hok a ha)

theorem Drv.noneLeft {s : St} (h : Drv 0 s) : ∀ e ∈ s.pend, drives e = false := by
  intro e he
  have := h.count
  rw [List.countP_eq_zero] at this
  simpa using this e he

theorem Drv.noAck {s : St} (h : Drv 0 s) : ∀ e ∈ s.pend, e.2.2 ≠ .sendAck := by
  intro e he hs
  have := h.noneLeft e he
  obtain ⟨t, d, v⟩ := e
  simp only at hs
  subst hs
  simp [drives] at this

theorem Drv.initNodeMap {s2 : St} (h1 : Drv 0 s2) (c : Cfg) : Drv 1 (initNodeMap c s2) := by
  unfold Ap.initNodeMap
  dsimp only
  have h2 : Drv 0 { s2 with nodeMap := byNode s2.sectorMap s2.nodeMap } := by
    have := h1.eff (Eff.same (s := s2)
      (s' := { s2 with nodeMap := byNode s2.sectorMap s2.nodeMap }) (by rfl)) (by simp)
    simpa [drivesNew] using this
  obtain ⟨l, k, hl⟩ := assign_eff c 0 (byNode s2.sectorMap s2.nodeMap)
    { s2 with nodeMap := byNode s2.sectorMap s2.nodeMap }
  have h3 := h2.eff k (by
    intro x hx
    obtain ⟨a, d, e⟩ := hl x hx
    rw [e]; simp)
  rw [drivesNew_zero l (by
    intro x hx
    obtain ⟨a, d, e⟩ := hl x hx
    obtain ⟨t, v⟩ := x
    simp only at e
    subst e
    rfl)] at h3
  have := h3.eff (Eff.sched _ ((byNode s2.sectorMap s2.nodeMap).length * (c.ctrlDur .cts + c.ns 1)) .turn (by simp))
    (by simp)
  simpa [drivesNew, drives] using this

theorem Drv.waitTime {s : St} (h : Drv 0 s) (c : Cfg) (hw : c.ways = 3) (me : Mac48) :
    Drv 1 (waitTimeExpired c me s) := by
  unfold waitTimeExpired
  dsimp only
  have h0 : Drv 0 (s.emit .closed) := by
    have := h.eff (Eff.same (s := s) (s' := s.emit .closed) (by rfl)) (by simp)
    simpa [drivesNew] using this
  generalize s.emit .closed = s1 at h0 ⊢
  split
  · exact h0.turn c hw me
  · split
    · have h1 : Drv 0 { s1 with sectorMap := record s1.angle s1.rtsList s1.sectorMap, rtsList := [] } := by
        have := h0.eff (Eff.same (s := s1)
          (s' := { s1 with sectorMap := record s1.angle s1.rtsList s1.sectorMap, rtsList := [] }) (by rfl)) (by simp)
        simpa [drivesNew] using this
      split
      · refine Drv.initNodeMap ?_ c
        have := h1.eff (Eff.same (s' := { s1 with sectorMap := record s1.angle s1.rtsList s1.sectorMap, rtsList := [], recording := false }) (by rfl)) (by simp)
        simpa [drivesNew] using this
      · exact h1.turn c hw me
    · obtain ⟨l, k, hl⟩ := answer_eff c 0 (s1.rtsList.length * c.ctrlDur .cts) s1.rtsList s1
      have h3 := h0.eff k (by
        intro x hx
        obtain ⟨a, b, d, g, e⟩ := hl x hx
        rw [e]; simp)
      rw [drivesNew_zero l (by
        intro x hx
        obtain ⟨a, b, d, g, e⟩ := hl x hx
        obtain ⟨t, v⟩ := x
        simp only at e
        subst e
        rfl)] at h3
      generalize answer c 0 (s1.rtsList.length * c.ctrlDur .cts) s1.rtsList s1 = s2 at h3 ⊢
      have h4 := h3.eff (Eff.sched s2 (c.sectorTime (UInt16.ofNat s1.rtsList.length)) .sectorTimeout (by simp)) (by simp)
      have hd : drivesNew [(s2.now + c.sectorTime (UInt16.ofNat s1.rtsList.length), Ev.sectorTimeout)] = 1 := rfl
      rw [hd] at h4
      refine ⟨?_, h4.noData, ⟨h4.tx.phy, h4.tx.some, h4.tx.ev⟩, h4.count, h4.ack, h4.ub⟩
      refine h3.tid.news (l := [(s2.now + c.sectorTime (UInt16.ofNat s1.rtsList.length), .sectorTimeout)]) ⟨rfl, rfl⟩ ?_ (.inl rfl)
      exact .inr ⟨0, by simp, rfl, rfl⟩

/-- What the PHY and the clients are assumed to do: no reception ends during a transmission, and intact data
frames arrive while the end of a data window is pending. -/
def okOp (s : St) : Op → Bool
  | .rxDone f ok _ => s.phyTx.isNone &&
      (!ok || decide (f.kind ≠ .data) || s.sectorEv.any (fun t => s.pend.any (fun e => decide (e.1 = t))))
  | _ => true

theorem Drv.phyDone {s s0 : St} (c : Cfg) (f : Frame) (n : Nat) (h : Drv0 n s0) (hs : s0.state = .tx)
    (hp : s0.pktTx = some f) (he : s0.pend.filterMap phyF = []) (hs0 : s = s0) (m : Nat)
    (hm : f.kind = .ack → m = n + 1) (hm' : f.kind ≠ .ack → m = n) : Drv m (sendPacketDone c f s) := by
  subst hs0
  unfold sendPacketDone
  dsimp only
  have e1 : (({ s with phyTx := none } : St).emit (.txEnd f)).state = .tx := hs
  have e2 : (({ s with phyTx := none } : St).emit (.txEnd f)).pktTx = some f := hp
  rw [if_neg (by
    rintro (h1 | h1)
    · exact h1 e1
    · exact h1 e2)]
  have base : Drv n { ({ s with phyTx := none } : St).emit (.txEnd f) with state := .idle } := by
    refine ⟨?_, h.noData, ⟨?_, ?_, ?_⟩, h.count, h.ack, h.ub⟩
    · exact h.tid.filter (fun _ => true) (by show s.pend = _; simp) rfl rfl rfl
    · intro g
      show (none : Option Frame) = some g ↔ (State.idle = .tx ∧ s.pktTx = some g)
      simp
    · intro hh
      exact absurd hh (by show State.idle ≠ .tx; simp)
    · exact he
  by_cases hk : f.kind = .ack
  · rw [hm hk, hk]
    dsimp only
    split
    · have := base.eff (Eff.sched _ (c.ns 1) .turn (by simp)) (by simp)
      simpa [drivesNew, drives] using this
    · rename_i hne
      have := base.eff (Eff.sched _ (c.ps 1) .sendAck (by simp)) (by
        intro x hx
        rw [List.mem_singleton.1 hx]
        exact ⟨by simp, fun _ => hne⟩)
      simpa [drivesNew, drives] using this
  · rw [hm' hk]
    split
    · rename_i hk'
      exact absurd hk' hk
    · exact base

theorem Drv.step {s : St} (c : Cfg) (hw : c.ways = 3) (me : Mac48) (op : Op) (h : Drv 1 s) (hk : AkInv s)
    (ho : okOp s op = true) (hok : AcksOk (step c me s op)) : Drv 1 (step c me s op) := by
  cases op with
  | advance d =>
    exact ⟨h.tid.filter (fun _ => true) (by show s.pend = _; simp) rfl rfl rfl, h.noData,
      ⟨h.tx.phy, h.tx.some, h.tx.ev⟩, h.count, h.ack, h.ub⟩
  | rxStart =>
    show Drv 1 (receivePacket s)
    unfold receivePacket
    dsimp only
    rw [h.noData.1]
    show Drv 1 (match s.state with | .tx => s | .coll => s | _ => { s with state := .rx })
    split
    · exact h
    · exact h
    · rename_i h1 h2
      refine ⟨h.tid.filter (fun _ => true) (by show s.pend = _; simp) rfl rfl rfl, h.noData, ?_, h.count, h.ack, h.ub⟩
      refine ⟨?_, ?_, h.tx.ev⟩
      · intro f
        show s.phyTx = some f ↔ (State.rx = .tx ∧ s.pktTx = some f)
        constructor
        · intro hf; exact absurd ((h.tx.phy f).1 hf).1 h1
        · intro hf; simp at hf
      · intro hh; exact absurd hh (by show State.rx ≠ .tx; simp)
  | rxDone f ok p =>
    have hphy : s.phyTx = none := by
      simp only [okOp, Bool.and_eq_true, Option.isNone_iff_eq_none] at ho
      exact ho.1
    have hdat : ok = true → f.kind = .data → ∃ t, s.sectorEv = some t ∧ ∃ e ∈ s.pend, e.1 = t := by
      intro h1 h2
      simp only [okOp, h1, h2, Bool.and_eq_true] at ho
      have := ho.2
      simp only [Bool.not_true, ne_eq, not_true_eq_false, decide_false, Bool.or_self, Bool.false_or] at this
      cases hs : s.sectorEv with
      | none => rw [hs] at this; simp at this
      | some t =>
        rw [hs] at this
        simp only [Option.any_some, List.any_eq_true, decide_eq_true_eq] at this
        exact ⟨t, rfl, this⟩
    show Drv 1 (receivePacketDone c me f ok p s)
    have hidle : ∀ s' : St, s'.pend = s.pend → s'.nextTid = s.nextTid → s'.sectorEv = s.sectorEv → s'.dataEv = s.dataEv →
        s'.phyTx = s.phyTx → s'.state ≠ .tx → (s.ackList ≠ [] → s'.ackList ≠ []) → s'.ub = s.ub → Drv 1 s' := by
      intro s' a1 a2 a3 a4 a5 a6 a7 a8
      refine ⟨h.tid.filter (fun _ => true) (by rw [a1]; simp) a2 a3 a4, ⟨by rw [a4]; exact h.noData.1, by rw [a1]; exact h.noData.2⟩, ⟨?_, ?_, ?_⟩, by rw [a1]; exact h.count, by rw [a1]; exact fun x => a7 (h.ack x), by rw [a8]; exact h.ub⟩
      · intro g
        rw [a5, hphy]
        constructor
        · intro hh; simp at hh
        · intro hh; exact absurd hh.1 a6
      · intro hh; exact absurd hh a6
      · rw [a1, a5]; exact h.tx.ev
    show Drv 1 (receivePacketDone c me f ok p s)
    have hok' : AcksOk (receivePacketDone c me f ok p s) := hok
    unfold receivePacketDone at hok' ⊢
    dsimp only at hok' ⊢
    by_cases hb : ok = true
    · rw [hb] at hok' ⊢
      simp only [Bool.not_true, Bool.false_eq_true, if_false] at hok' ⊢
      cases hkd : f.kind with
      | data =>
        rw [hkd] at hok'
        simp only at hok' ⊢
        unfold receiveData at hok' ⊢
        dsimp only at hok' ⊢
        obtain ⟨t, ht, x, hx, hxt⟩ := hdat hb hkd
        set s1 : St := { (({ s with state := .idle } : St).emit (.rx f p)) with
          ackList := s.ackList ++ [ackFrame me s.nextId f], nextId := s.nextId + 1, state := .idle } with hs1
        have h1 : Drv 1 s1 := hidle s1 rfl rfl rfl rfl rfl (by show State.idle ≠ .tx; simp) (by intro _; show s.ackList ++ _ ≠ []; simp) rfl
        have hk1 : AkInv s1 := by
          have := hk.receive c me f false p
          refine ⟨?_, ?_, ?_, ?_⟩
          · show ackTries (s.log ++ [.rx f p]) ++ (s.ackList ++ [ackFrame me s.nextId f]).map _ = dataOf (s.log ++ [.rx f p])
            have e1 : ackTries (s.log ++ [.rx f p]) = ackTries s.log := by simp [ackTries, ackTry]
            have e2 : dataOf (s.log ++ [.rx f p]) = dataOf s.log ++ [(f.src, f.seq)] := by simp [dataOf, hkd]
            rw [e1, e2, ← hk.order]
            simp [ackFrame]
          · intro a ha
            rcases List.mem_append.1 ha with ha | ha
            · exact hk.kinds a ha
            · rw [List.mem_singleton.1 ha]; rfl
          · intro a ha
            rcases List.mem_append.1 ha with ha | ha
            · exact Nat.lt_succ_of_lt (hk.ids a ha)
            · rw [List.mem_singleton.1 ha]; exact Nat.lt_succ_self _
          · show ((s.ackList ++ [ackFrame me s.nextId f]).map _).Nodup
            rw [List.map_append, List.nodup_append]
            refine ⟨hk.nodup, by simp, ?_⟩
            intro x hx y hy
            obtain ⟨a, ha, rfl⟩ := List.mem_map.1 hx
            simp only [List.map_cons, List.map_nil, List.mem_singleton] at hy
            rw [hy]
            exact ne_of_lt (hk.ids a ha)
        have ht1 : s1.sectorEv = some t := ht
        have hx1 : x ∈ s1.pend := hx
        have hfw : ∀ u : St, Drv 1 u → Drv 1 (forwardIfNew f u) := by
          intro u hu
          have := hu.eff (Eff.same (forward_core f u)) (by simp)
          simpa [drivesNew] using this
        have hlogfw : ∀ u : St, AcksOk (forwardIfNew f u) → AcksOk u := by
          intro u hu g hg hm
          apply hu g hg
          unfold forwardIfNew
          dsimp only
          split
          · exact List.mem_append_left _ hm
          · exact hm
        apply hfw
        have hok2 := hlogfw _ hok'
        split
        · rename_i hcond
          rw [if_pos hcond] at hok2
          have hc : s1.cancel s1.sectorEv = { s1 with pend := s1.pend.filter (fun e => e.1 ≠ t) } := by
            conv_lhs => rw [ht1]
            rfl
          have hsec := (h1.tid.sector t ht1).2 x hx1 hxt
          have hdx : drives x = true := by
            obtain ⟨a, b, v⟩ := x
            simp only at hsec
            subst hsec
            rfl
          have hpx : phyF x = none := by
            obtain ⟨a, b, v⟩ := x
            simp only at hsec
            subst hsec
            rfl
          obtain ⟨p1, p2, -⟩ := h1.pop hx1 hxt s1.now
          rw [hdx] at p1
          have p2 := p2 hpx
          have h2 : Drv 0 { s1.cancel s1.sectorEv with state := .waitTx } := by
            rw [hc]
            refine ⟨p1.tid.filter (fun _ => true) (by simp) rfl rfl rfl, p1.noData, ⟨?_, ?_, p2.ev⟩, p1.count, p1.ack, p1.ub⟩
            · intro g
              show s.phyTx = some g ↔ (State.waitTx = .tx ∧ _)
              rw [hphy]; simp
            · intro hh; exact absurd hh (by show State.waitTx ≠ .tx; simp)
          have hk2 : AkInv { s1.cancel s1.sectorEv with state := .waitTx } := by
            rw [hc]
            exact ⟨hk1.order, hk1.kinds, hk1.ids, hk1.nodup⟩
          refine h2.sendAck c ?_ hk2 h2.noAck hok2
          rw [hc]
          show s.ackList ++ _ ≠ []
          simp
        · exact h1
      | rts => exact hidle _ rfl rfl rfl rfl rfl (by show State.idle ≠ .tx; simp) id rfl
      | cts => exact hidle _ rfl rfl rfl rfl rfl (by show State.idle ≠ .tx; simp) id rfl
      | ack => exact hidle _ rfl rfl rfl rfl rfl (by show State.idle ≠ .tx; simp) id rfl
      | cta => exact hidle _ rfl rfl rfl rfl rfl (by show State.idle ≠ .tx; simp) id rfl
    · have hb' : ok = false := by simpa using hb
      rw [hb'] at hok' ⊢
      exact hidle _ rfl rfl rfl rfl rfl (by show State.idle ≠ .tx; simp) id rfl
  | fire tid =>
    show Drv 1 (fire c me tid s)
    have hok' : AcksOk (fire c me tid s) := hok
    unfold fire at hok' ⊢
    split
    · exact h
    · rename_i t' due e hfind
      rw [hfind] at hok'
      dsimp only at hok' ⊢
      have hm := List.mem_of_find?_eq_some hfind
      have ht : t' = tid := by simpa using List.find?_some hfind
      obtain ⟨p1, p2, p3⟩ := h.pop hm ht due
      have hk0 : AkInv { s with pend := s.pend.filter (fun e => e.1 ≠ tid), now := max s.now due } :=
        ⟨hk.order, hk.kinds, hk.ids, hk.nodup⟩
      have hst : ({ s with pend := s.pend.filter (fun e => e.1 ≠ tid), now := max s.now due } : St).ackList = s.ackList := rfl
      cases e with
      | turn => exact (p1.full (p2 rfl)).turn c hw me
      | dataTimeout => exact absurd rfl (h.noData.2 _ hm)
      | waitTime => exact (p1.full (p2 rfl)).waitTime c hw me
      | sectorTimeout =>
        have h0 : Drv 0 _ := p1.full (p2 rfl)
        dsimp only at hok' ⊢
        unfold sectorTimeout at hok' ⊢
        split
        · rename_i hne
          rw [if_pos hne] at hok'
          exact h0.sendAck c hne hk0 h0.noAck hok'
        · exact h0.turn c hw me
      | sendCts d q v g =>
        have h0 : Drv 1 _ := p1.full (p2 rfl)
        refine Drv.sendPacket ?_ c _ (by simp [ctsFrame])
        have := h0.eff (Eff.same (s' := { ({ s with pend := s.pend.filter (fun e => e.1 ≠ tid), now := max s.now due } : St) with
          nextId := s.nextId + 1 }) (by rfl)) (by simp)
        simpa [drivesNew] using this
      | sendAck =>
        have h0 : Drv 0 _ := p1.full (p2 rfl)
        exact h0.sendAck c (h.ack ⟨_, hm, rfl⟩) hk0 h0.noAck hok'
      | feedback a d =>
        have h0 : Drv 1 _ := p1.full (p2 rfl)
        refine Drv.sendPacket ?_ c _ (by simp [ctaFrame])
        have := h0.eff (Eff.same (s' := { ({ s with pend := s.pend.filter (fun e => e.1 ≠ tid), now := max s.now due } : St) with
          nextId := s.nextId + 1 }) (by rfl)) (by simp)
        simpa [drivesNew] using this
      | phyDone f =>
        obtain ⟨k1, k2, k3⟩ := p3 f rfl
        refine Drv.phyDone c f _ p1 k1 k2 k3 rfl 1 ?_ ?_
        · intro hf; simp [drives, hf]
        · intro hf; simp [drives, hf]

end Thz.Ap
