import Verif.Central
import Mathlib.Data.List.Nodup

/-!
# What a MAC of the centralised scenario does to its PHY (helper lemmas)

The part of the state of an access point (`Ap`) or a client (`Client`) that concerns its transmitter, and the effects one operation
can have on it: the transmitter is left alone, or one frame is handed over while it is free.
-/

namespace Thz.TxV

open Thz Thz.Central

/-- Clock, the frame being transmitted, pending events (with the frame if it is the end of a transmission), the next event number,
the event numbers the MAC may cancel, and the frames handed over. -/
structure View where
  now : ℤ
  phy : Option Frame
  pend : List (Nat × ℤ × Option Frame)
  next : Nat
  can : List Nat
  out : List (ℤ × Frame)

/-- The scheduled ends of transmissions. -/
def txs (l : List (Nat × ℤ × Option Frame)) : List (Nat × ℤ × Frame) := l.filterMap (fun e => e.2.2.map (fun f => (e.1, e.2.1, f)))

theorem txs_append (a b : List (Nat × ℤ × Option Frame)) : txs (a ++ b) = txs a ++ txs b := List.filterMap_append

theorem mem_txs {l : List (Nat × ℤ × Option Frame)} {t : Nat} {d : ℤ} {f : Frame} : (t, d, f) ∈ txs l ↔ (t, d, some f) ∈ l := by
  unfold txs
  rw [List.mem_filterMap]
  constructor
  · rintro ⟨⟨t', d', e⟩, ho, h⟩
    cases e with
    | none => simp at h
    | some g =>
      simp only [Option.map_some, Option.some.injEq, Prod.mk.injEq] at h
      obtain ⟨rfl, rfl, rfl⟩ := h
      exact ho
  · intro h
    exact ⟨_, h, rfl⟩

/-- Removing other events leaves the ends of transmissions. -/
theorem txs_filter {l : List (Nat × ℤ × Option Frame)} {q : Nat × ℤ × Option Frame → Bool}
    (h : ∀ t d f, (t, d, some f) ∈ l → q (t, d, some f) = true) : txs (l.filter q) = txs l := by
  induction l with
  | nil => rfl
  | cons e l ih =>
    have ih' := ih (fun t d f hm => h t d f (List.mem_cons_of_mem _ hm))
    obtain ⟨t, d, e⟩ := e
    by_cases hq : q (t, d, e) = true
    · rw [List.filter_cons_of_pos hq]
      show txs ([(t, d, e)] ++ l.filter q) = txs ([(t, d, e)] ++ l)
      rw [txs_append, txs_append, ih']
    · rw [List.filter_cons_of_neg hq, ih']
      show txs l = txs ([(t, d, e)] ++ l)
      rw [txs_append]
      have : txs [(t, d, e)] = [] := by
        cases e with
        | none => rfl
        | some f => exact absurd (h t d f List.mem_cons_self) hq
      rw [this]; rfl

/-- Event numbers are below the counter and unique, and those the MAC may cancel are not ends of transmissions. -/
structure Ok (v : View) : Prop where
  lt : ∀ e ∈ v.pend, e.1 < v.next
  uniq : (v.pend.map (·.1)).Nodup
  can : ∀ t ∈ v.can, t < v.next ∧ ∀ d f, (t, d, some f) ∉ v.pend

/-- The transmitter is left alone. -/
structure Tq (v v' : View) : Prop where
  now : v'.now = v.now
  phy : v'.phy = v.phy
  out : v'.out = v.out
  ok : Ok v → Ok v' ∧ txs v'.pend = txs v.pend

/-- One frame is handed over; `D f d` says that it may take the time `d`. -/
structure Th (D : Frame → ℤ → Prop) (f : Frame) (v v' : View) : Prop where
  now : v'.now = v.now
  free : v.phy = none
  phy : v'.phy = some f
  out : v'.out = v.out ++ [(v.now, f)]
  ok : Ok v → Ok v' ∧ ∃ t d, D f d ∧ txs v'.pend = txs v.pend ++ [(t, v.now + d, f)]

/-- Either. -/
def Tx (D : Frame → ℤ → Prop) (v v' : View) : Prop := Tq v v' ∨ ∃ f, Th D f v v'

variable {D : Frame → ℤ → Prop} {a b c v v' : View}

theorem Tq.refl : Tq v v := ⟨rfl, rfl, rfl, fun h => ⟨h, rfl⟩⟩

theorem Tq.of (h : v' = v) : Tq v v' := h ▸ .refl

theorem Tq.trans (h : Tq a b) (h' : Tq b c) : Tq a c :=
  ⟨h'.now.trans h.now, h'.phy.trans h.phy, h'.out.trans h.out, fun hp =>
    ⟨(h'.ok (h.ok hp).1).1, (h'.ok (h.ok hp).1).2.trans (h.ok hp).2⟩⟩

theorem Th.before {f : Frame} (h : Tq a b) (h' : Th D f b c) : Th D f a c := by
  refine ⟨h'.now.trans h.now, by rw [← h.phy]; exact h'.free, h'.phy, by rw [h'.out, h.out, h.now], fun hp => ?_⟩
  obtain ⟨h1, e1⟩ := h.ok hp
  obtain ⟨h2, t, d, hd, e2⟩ := h'.ok h1
  exact ⟨h2, t, d, hd, by rw [e2, e1, h.now]⟩

theorem Th.after {f : Frame} (h : Th D f a b) (h' : Tq b c) : Th D f a c := by
  refine ⟨h'.now.trans h.now, h.free, h'.phy.trans h.phy, h'.out.trans h.out, fun hp => ?_⟩
  obtain ⟨h1, t, d, hd, e1⟩ := h.ok hp
  obtain ⟨h2, e2⟩ := h'.ok h1
  exact ⟨h2, t, d, hd, e2.trans e1⟩

theorem Tx.before (h : Tq a b) (h' : Tx D b c) : Tx D a c := by
  rcases h' with h' | ⟨f, h'⟩
  · exact .inl (h.trans h')
  · exact .inr ⟨f, h'.before h⟩

theorem Tx.after (h : Tx D a b) (h' : Tq b c) : Tx D a c := by
  rcases h with h | ⟨f, h⟩
  · exact .inl (h.trans h')
  · exact .inr ⟨f, h.after h'⟩

/-- The events that may be cancelled become fewer. -/
theorem Tq.less (h1 : v'.now = v.now) (h2 : v'.phy = v.phy) (h3 : v'.out = v.out) (h4 : v'.pend = v.pend) (h5 : v'.next = v.next)
    (h6 : ∀ t ∈ v'.can, t ∈ v.can) : Tq v v' :=
  ⟨h1, h2, h3, fun hp => ⟨⟨by rw [h4, h5]; exact hp.lt, by rw [h4]; exact hp.uniq, fun t ht => by
    rw [h4, h5]; exact hp.can t (h6 t ht)⟩, by rw [h4]⟩⟩

theorem Ok.sched (hp : Ok v) (d : ℤ) (e : Option Frame) (h4 : v'.pend = v.pend ++ [(v.next, v.now + d, e)]) (h5 : v'.next = v.next + 1)
    (h6 : ∀ t ∈ v'.can, t ∈ v.can ∨ (t = v.next ∧ e = none)) : Ok v' := by
  refine ⟨?_, ?_, ?_⟩
  · intro x hx
    rw [h4] at hx
    rw [h5]
    rcases List.mem_append.1 hx with h1 | h1
    · exact Nat.lt_succ_of_lt (hp.lt x h1)
    · rw [List.mem_singleton.1 h1]; exact Nat.lt_succ_self _
  · rw [h4, List.map_append]
    refine List.nodup_append.2 ⟨hp.uniq, by simp, ?_⟩
    rintro x hx y hy rfl
    obtain ⟨z, hz, rfl⟩ := List.mem_map.1 hx
    have := hp.lt z hz
    simp only [List.map_cons, List.map_nil, List.mem_singleton] at hy
    omega
  · intro t ht
    rw [h4, h5]
    rcases h6 t ht with h7 | ⟨rfl, rfl⟩
    · obtain ⟨h1, h2⟩ := hp.can t h7
      refine ⟨Nat.lt_succ_of_lt h1, fun x f hx => ?_⟩
      rcases List.mem_append.1 hx with h3 | h3
      · exact h2 x f h3
      · have h4 : t = v.next := congrArg Prod.fst (List.mem_singleton.1 h3)
        omega
    · refine ⟨Nat.lt_succ_self _, fun x f hx => ?_⟩
      rcases List.mem_append.1 hx with h3 | h3
      · have h4 : v.next < v.next := hp.lt _ h3
        omega
      · have := List.mem_singleton.1 h3
        simp at this

/-- Something else is scheduled; it may be one the MAC may cancel. -/
theorem Tq.sched (d : ℤ) (h1 : v'.now = v.now) (h2 : v'.phy = v.phy) (h3 : v'.out = v.out)
    (h4 : v'.pend = v.pend ++ [(v.next, v.now + d, none)]) (h5 : v'.next = v.next + 1)
    (h6 : ∀ t ∈ v'.can, t ∈ v.can ∨ t = v.next) : Tq v v' :=
  ⟨h1, h2, h3, fun hp => ⟨hp.sched d none h4 h5 (fun t ht => (h6 t ht).imp id (fun h => ⟨h, rfl⟩)), by
    rw [h4, txs_append]; exact List.append_nil _⟩⟩

/-- An event the MAC may cancel is cancelled. -/
theorem Tq.cancel (t : Nat) (ht : t ∈ v.can) (h1 : v'.now = v.now) (h2 : v'.phy = v.phy) (h3 : v'.out = v.out)
    (h4 : v'.pend = v.pend.filter (fun e => e.1 ≠ t)) (h5 : v'.next = v.next) (h6 : ∀ t ∈ v'.can, t ∈ v.can) : Tq v v' := by
  refine ⟨h1, h2, h3, fun hp => ⟨⟨?_, ?_, ?_⟩, ?_⟩⟩
  · rw [h4, h5]; exact fun e he => hp.lt e (List.mem_filter.1 he).1
  · rw [h4]; exact hp.uniq.sublist (List.filter_sublist.map _)
  · intro x hx
    rw [h4, h5]
    exact ⟨(hp.can x (h6 x hx)).1, fun d f h => (hp.can x (h6 x hx)).2 d f (List.mem_filter.1 h).1⟩
  · rw [h4]
    refine txs_filter (fun t' d f h => ?_)
    have : t' ≠ t := by
      rintro rfl
      exact (hp.can t' ht).2 d f h
    simpa using this

/-- A frame is handed over. -/
theorem Th.hand (f : Frame) (d : ℤ) (hd : D f d) (h0 : v.phy = none) (h1 : v'.now = v.now) (h2 : v'.phy = some f)
    (h3 : v'.out = v.out ++ [(v.now, f)]) (h4 : v'.pend = v.pend ++ [(v.next, v.now + d, some f)]) (h5 : v'.next = v.next + 1)
    (h6 : v'.can = v.can) : Th D f v v' :=
  ⟨h1, h0, h2, h3, fun hp => ⟨hp.sched d (some f) h4 h5 (fun t ht => .inl (h6 ▸ ht)), v.next, d, hd, by rw [h4, txs_append]; rfl⟩⟩

/-- An event that is not the end of a transmission is taken out; time does not pass. -/
theorem Tq.take {t : Nat} {due : ℤ} (hm : (t, due, none) ∈ v.pend) (h1 : v'.now = v.now) (h2 : v'.phy = v.phy) (h3 : v'.out = v.out)
    (h4 : v'.pend = v.pend.filter (fun e => e.1 ≠ t)) (h5 : v'.next = v.next) (h6 : v'.can = v.can) : Tq v v' := by
  refine ⟨h1, h2, h3, fun hp => ⟨⟨?_, ?_, ?_⟩, ?_⟩⟩
  · rw [h4, h5]; exact fun e he => hp.lt e (List.mem_filter.1 he).1
  · rw [h4]; exact hp.uniq.sublist (List.filter_sublist.map _)
  · intro x hx
    rw [h4, h5]
    rw [h6] at hx
    exact ⟨(hp.can x hx).1, fun d f h => (hp.can x hx).2 d f (List.mem_filter.1 h).1⟩
  · rw [h4]
    refine txs_filter (fun t' d f h => ?_)
    have : t' ≠ t := by
      rintro rfl
      have := List.inj_on_of_nodup_map hp.uniq h hm rfl
      simp at this
    simpa using this

end Thz.TxV
