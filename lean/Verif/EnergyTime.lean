import Verif.EnergyProps
import Mathlib.Data.List.Perm.Basic
import Mathlib.Data.List.Range
import Mathlib.Tactic.Ring

/-!
# The energy model in time (C111, C112)

Model of the events of `THzEnergyModel` (model/thz-energy-model.cc): when it starts to harvest and how often.  The class overrides the virtual
`Object::DoInitialize` of ns-3 (model/thz-energy-model.h:115).  `THzEnergyModelHelper::Install` (helper/thz-energy-model-helper.cc:57-68)
aggregates the object to its node, so that ns-3 calls `DoInitialize` when the node is initialised, at time 0; the constructor schedules another
call.
-/

namespace Thz.EnergyTime

/-- The attributes (model/thz-energy-model.cc:51-86), the update interval (67-71) in ticks, and the number of ticks in a microsecond. -/
structure Cfg where
  par : EParams
  interval : ℤ
  us : ℤ

/-- The two events of the class: the call of `DoInitialize` scheduled by the constructor (model/thz-energy-model.cc:99), and the periodic
harvest (model/thz-energy-model.cc:164). -/
inductive Ev
  | init
  | harvest
  deriving DecidableEq

/-- What happens to the store, with the time. -/
inductive Obs
  | start (t : ℤ)                            -- `DoInitialize`
  | gain (t : ℤ) (callback : Bool)           -- `HarvestEnergy`
  | book (t : ℤ) (ok : Bool) (tx rx : ℚ)     -- `BookEnergy`
  | ret (t : ℤ) (tx rx : ℚ)                  -- `ReturnEnergy`
  deriving DecidableEq

/-- The object (model/thz-energy-model.h:121-135) with its scheduled events; `inited` is ns-3's `Object::m_initialized`. -/
structure St where
  now : ℤ := 0
  rem : ℚ := 0                               -- `TracedValue<double>` starts as 0
  pend : List (Nat × ℤ × Ev) := []
  nextTid : Nat := 0
  inited : Bool := false
  log : List Obs := []

def St.sched (d : ℤ) (e : Ev) (s : St) : St :=
  { s with pend := s.pend ++ [(s.nextTid, s.now + d, e)], nextTid := s.nextTid + 1 }

/-- The constructor (model/thz-energy-model.cc:94-100): `DoInitialize` is scheduled after `8 k` microseconds.  `k` is drawn from 0 to a member
that is not initialised yet, so it may be any 32-bit number. -/
def create (c : Cfg) (k : UInt32) : St := St.sched (8 * k.toNat * c.us) .init {}

/-- `HarvestEnergy` (model/thz-energy-model.cc:149-168), before the simulation is finished.  What the callback does to the store is a booking of
its own. -/
def harvest (c : Cfg) (s : St) : St :=
  let r := c.par.harvestStep s.rem
  St.sched c.interval .harvest { s with rem := r.2, log := s.log ++ [.gain s.now r.1] }

/-- `DoInitialize` (model/thz-energy-model.cc:170-177). -/
def doInitialize (c : Cfg) (s : St) : St :=
  harvest c { s with rem := c.par.initial, log := s.log ++ [.start s.now] }

/-- Operations: time passes, a due event runs, ns-3 initialises the node (`Object::Initialize`, which calls `DoInitialize` of an aggregated object
once), the MAC books or returns energy. -/
inductive Op
  | tick (d : Nat)
  | fire (tid : Nat)
  | nodeInit
  | book (tx rx : ℚ)
  | ret (tx rx : ℚ)

/-- One operation.  Time does not pass beyond a pending event, as in the simulator; an event runs when it is due. -/
def step (c : Cfg) (s : St) : Op → St
  | .tick d => if s.pend.all (fun e => decide (s.now + d ≤ e.2.1)) then { s with now := s.now + d } else s
  | .fire tid =>
    match s.pend.find? (fun e => e.1 = tid) with
    | none => s
    | some e =>
      if e.2.1 ≤ s.now then
        let s := { s with pend := s.pend.filter (fun e => e.1 ≠ tid) }
        match e.2.2 with
        | .init => doInitialize c s
        | .harvest => harvest c s
      else s
  | .nodeInit => if s.inited = true then s else doInitialize c { s with inited := true }
  | .book tx rx =>
    let r := c.par.book s.rem tx rx
    { s with rem := r.2, log := s.log ++ [.book s.now r.1 tx rx] }
  | .ret tx rx => { s with rem := c.par.ret s.rem tx rx, log := s.log ++ [.ret s.now tx rx] }

/-- The state after a history. -/
def after (c : Cfg) (k : UInt32) (ops : List Op) : St := ops.foldl (step c) (create c k)

/-! ## Specification -/

/-- When energy was gained. -/
def gains : List Obs → List ℤ
  | [] => []
  | .gain t _ :: l => t :: gains l
  | _ :: l => gains l

/-- When harvesting was started. -/
def starts : List Obs → List ℤ
  | [] => []
  | .start t :: l => t :: starts l
  | _ :: l => starts l

/-! ## Proof -/

theorem gains_append (a b : List Obs) : gains (a ++ b) = gains a ++ gains b := by
  induction a with
  | nil => rfl
  | cons o a ih => cases o <;> simp [gains, ih]

theorem starts_append (a b : List Obs) : starts (a ++ b) = starts a ++ starts b := by
  induction a with
  | nil => rfl
  | cons o a ih => cases o <;> simp [starts, ih]

/-- When the pending harvests are due. -/
def dues : List (Nat × ℤ × Ev) → List ℤ
  | [] => []
  | (_, t, .harvest) :: l => t :: dues l
  | _ :: l => dues l

theorem dues_append (a b : List (Nat × ℤ × Ev)) : dues (a ++ b) = dues a ++ dues b := by
  induction a with
  | nil => rfl
  | cons o a ih =>
    obtain ⟨i, t, e⟩ := o
    cases e <;> simp [dues, ih]

theorem mem_dues {t : ℤ} (l : List (Nat × ℤ × Ev)) (h : t ∈ dues l) : ∃ i, (i, t, Ev.harvest) ∈ l := by
  induction l with
  | nil => cases h
  | cons o l ih =>
    obtain ⟨i, t', e⟩ := o
    cases e with
    | init => obtain ⟨j, hj⟩ := ih h; exact ⟨j, List.mem_cons_of_mem _ hj⟩
    | harvest =>
      rcases List.mem_cons.1 h with rfl | h
      · exact ⟨i, List.mem_cons_self⟩
      · obtain ⟨j, hj⟩ := ih h; exact ⟨j, List.mem_cons_of_mem _ hj⟩

/-- The first `m` times of a series of harvests. -/
def times (I : ℤ) (x : ℤ × ℕ) : List ℤ := (List.range x.2).map (fun i : ℕ => x.1 + i * I)

/-- A series for each start, each with one pending event. -/
def Books (I : ℤ) (s : St) (L : List (ℤ × ℕ)) : Prop :=
  (L.map Prod.fst).Perm (starts s.log) ∧ (L.map (fun x : ℤ × ℕ => x.1 + x.2 * I)).Perm (dues s.pend) ∧
  (L.flatMap (times I)).Perm (gains s.log)

structure Inv (c : Cfg) (s : St) : Prop where
  books : ∃ L, Books c.interval s L
  ahead : ∀ e ∈ s.pend, s.now ≤ e.2.1
  tids : (s.pend.map Prod.fst).Nodup ∧ ∀ e ∈ s.pend, e.1 < s.nextTid

theorem times_succ (I t : ℤ) (m : ℕ) : times I (t, m + 1) = times I (t, m) ++ [t + m * I] := by
  unfold times
  rw [List.range_succ, List.map_append]
  rfl

theorem sched_facts {c : Cfg} {s : St} {d : ℤ} {e : Ev} (hd : 0 ≤ d) (h : Inv c s) :
    (∀ x ∈ (s.sched d e).pend, s.now ≤ x.2.1) ∧ ((s.sched d e).pend.map Prod.fst).Nodup ∧ ∀ x ∈ (s.sched d e).pend, x.1 < (s.sched d e).nextTid := by
  unfold St.sched
  refine ⟨fun x hx => ?_, ?_, fun x hx => ?_⟩
  · rcases List.mem_append.1 hx with hx | hx
    · exact h.ahead x hx
    · rw [List.mem_singleton.1 hx]; dsimp only; omega
  · dsimp only
    rw [List.map_append, List.nodup_append]
    refine ⟨h.tids.1, by simp, ?_⟩
    intro a ha b hb hab
    simp at hb
    obtain ⟨x, hx, rfl⟩ := List.mem_map.1 ha
    have := h.tids.2 x hx
    omega
  · rcases List.mem_append.1 hx with hx | hx
    · have := h.tids.2 x hx; dsimp only; omega
    · rw [List.mem_singleton.1 hx]; dsimp only; omega

/-- `HarvestEnergy` continues a series that has no pending event. -/
theorem harvest_inv {c : Cfg} (hI : 0 ≤ c.interval) {s : St} {t : ℤ} {m : ℕ} {L : List (ℤ × ℕ)}
    (h1 : (t :: L.map Prod.fst).Perm (starts s.log))
    (h2 : (L.map (fun x : ℤ × ℕ => x.1 + x.2 * c.interval)).Perm (dues s.pend))
    (h3 : (times c.interval (t, m) ++ L.flatMap (times c.interval)).Perm (gains s.log)) (ht : s.now = t + m * c.interval)
    (ha : ∀ e ∈ s.pend, s.now ≤ e.2.1) (hk : (s.pend.map Prod.fst).Nodup ∧ ∀ e ∈ s.pend, e.1 < s.nextTid) : Inv c (harvest c s) := by
  unfold harvest
  dsimp only
  refine ⟨⟨(t, m + 1) :: L, ?_, ?_, ?_⟩, fun x hx => ?_, ?_, fun x hx => ?_⟩
  · show List.Perm _ (starts (s.log ++ _))
    rw [starts_append]
    simpa [starts] using h1
  · show List.Perm _ (dues (s.pend ++ _))
    rw [dues_append]
    refine (List.perm_append_singleton _ _).symm.trans ?_
    have e : t + ((m + 1 : ℕ) : ℤ) * c.interval = s.now + c.interval := by rw [ht]; push_cast; ring
    dsimp only
    rw [e]
    exact h2.append_right _
  · show List.Perm _ (gains (s.log ++ _))
    rw [gains_append, List.flatMap_cons, times_succ, ← ht]
    refine List.Perm.trans ?_ (h3.append_right _)
    rw [List.append_assoc, List.append_assoc]
    exact (List.perm_append_comm).append_left _
  · unfold St.sched at hx
    rcases List.mem_append.1 hx with hx | hx
    · exact ha x hx
    · rw [List.mem_singleton.1 hx]; show s.now ≤ s.now + c.interval; omega
  · show ((s.pend ++ _).map Prod.fst).Nodup
    rw [List.map_append, List.nodup_append]
    refine ⟨hk.1, by simp, ?_⟩
    intro a ha b hb hab
    simp at hb
    obtain ⟨x, hx, rfl⟩ := List.mem_map.1 ha
    have := hk.2 x hx
    omega
  · unfold St.sched at hx ⊢
    rcases List.mem_append.1 hx with hx | hx
    · have := hk.2 x hx; dsimp only; omega
    · rw [List.mem_singleton.1 hx]; dsimp only; omega

theorem init_inv {c : Cfg} (hI : 0 ≤ c.interval) {s : St} {L : List (ℤ × ℕ)} (hL : Books c.interval s L)
    (ha : ∀ e ∈ s.pend, s.now ≤ e.2.1) (hk : (s.pend.map Prod.fst).Nodup ∧ ∀ e ∈ s.pend, e.1 < s.nextTid) : Inv c (doInitialize c s) := by
  obtain ⟨h1, h2, h3⟩ := hL
  unfold doInitialize
  refine harvest_inv hI (t := s.now) (m := 0) (L := L) ?_ h2 ?_ (by simp) ha hk
  · show List.Perm _ (starts (s.log ++ _))
    rw [starts_append]
    exact (List.perm_append_singleton _ _).symm.trans (h1.append_right _)
  · show List.Perm _ (gains (s.log ++ _))
    rw [gains_append]
    simpa [times, gains] using h3

theorem dues_split {a b : List (Nat × ℤ × Ev)} {i : Nat} {t : ℤ} : (dues (a ++ (i, t, .harvest) :: b)).Perm (t :: dues (a ++ b)) := by
  rw [dues_append, dues_append]
  exact List.perm_middle

theorem filter_tid {a b : List (Nat × ℤ × Ev)} {e : Nat × ℤ × Ev} (h : ((a ++ e :: b).map Prod.fst).Nodup) :
    (a ++ e :: b).filter (fun x => x.1 ≠ e.1) = a ++ b := by
  rw [List.map_append, List.map_cons, List.nodup_append] at h
  obtain ⟨h1, h2, h3⟩ := h
  rw [List.nodup_cons] at h2
  rw [List.filter_append, List.filter_cons_of_neg (by simp)]
  congr 1
  · rw [List.filter_eq_self]
    intro x hx
    have := h3 x.1 (List.mem_map.2 ⟨x, hx, rfl⟩) e.1 (by simp)
    simpa using this
  · rw [List.filter_eq_self]
    intro x hx
    have : x.1 ≠ e.1 := fun he => h2.1 (by rw [← he]; exact List.mem_map.2 ⟨x, hx, rfl⟩)
    simpa using this

theorem Inv.step {c : Cfg} (hI : 0 ≤ c.interval) {s : St} (h : Inv c s) (o : Op) : Inv c (step c s o) := by
  obtain ⟨⟨L, hL⟩, ha, hk⟩ := h
  cases o with
  | tick d =>
    unfold EnergyTime.step
    dsimp only
    split
    · rename_i hd
      rw [List.all_eq_true] at hd
      exact ⟨⟨L, hL⟩, fun e he => by simpa using hd e he, hk⟩
    · exact ⟨⟨L, hL⟩, ha, hk⟩
  | nodeInit =>
    unfold EnergyTime.step
    dsimp only
    split
    · exact ⟨⟨L, hL⟩, ha, hk⟩
    · exact init_inv hI (s := { s with inited := true }) hL ha hk
  | book tx rx =>
    refine ⟨⟨L, ?_⟩, ha, hk⟩
    unfold EnergyTime.step Books
    dsimp only
    rw [starts_append, gains_append]
    simpa [starts, gains, Books] using hL
  | ret tx rx =>
    refine ⟨⟨L, ?_⟩, ha, hk⟩
    unfold EnergyTime.step Books
    dsimp only
    rw [starts_append, gains_append]
    simpa [starts, gains, Books] using hL
  | fire tid =>
    unfold EnergyTime.step
    dsimp only
    split
    · exact ⟨⟨L, hL⟩, ha, hk⟩
    · rename_i e hf
      split
      · rename_i hdue
        have hm := List.mem_of_find?_eq_some hf
        have htid : e.1 = tid := by simpa using List.find?_some hf
        obtain ⟨a, b, hab⟩ := List.append_of_mem hm
        have hfil : s.pend.filter (fun x => x.1 ≠ tid) = a ++ b := by
          rw [← htid, hab]
          exact filter_tid (by rw [← hab]; exact hk.1)
        have hsub : (a ++ b).Sublist s.pend := by rw [← hfil]; exact List.filter_sublist
        have ha' : ∀ x ∈ a ++ b, s.now ≤ x.2.1 := fun x hx => ha x (hsub.subset hx)
        have hk' : ((a ++ b).map Prod.fst).Nodup ∧ ∀ x ∈ a ++ b, x.1 < s.nextTid :=
          ⟨hk.1.sublist (hsub.map _), fun x hx => hk.2 x (hsub.subset hx)⟩
        rw [hfil]
        obtain ⟨i, t, ev⟩ := e
        obtain ⟨h1, h2, h3⟩ := hL
        cases ev with
        | init =>
          refine init_inv (L := L) hI ⟨h1, ?_, h3⟩ ha' hk'
          show List.Perm _ (dues (a ++ b))
          rw [hab, dues_append] at h2
          rw [dues_append]
          exact h2
        | harvest =>
          have hnow : t = s.now := le_antisymm hdue (ha _ hm)
          rw [hab] at h2
          have h4 := h2.trans dues_split
          have h5 : t ∈ L.map (fun x : ℤ × ℕ => x.1 + x.2 * c.interval) := h4.symm.subset List.mem_cons_self
          obtain ⟨x, hx, hxt⟩ := List.mem_map.1 h5
          obtain ⟨L1, L2, rfl⟩ := List.append_of_mem hx
          have hp : (L1 ++ x :: L2).Perm (x :: (L1 ++ L2)) := List.perm_middle
          refine harvest_inv (t := x.1) (m := x.2) (L := L1 ++ L2) hI ?_ ?_ ?_ ?_ ha' hk'
          · exact (hp.map _).symm.trans h1
          · have h6 := (hp.map (fun x : ℤ × ℕ => x.1 + x.2 * c.interval)).symm.trans h4
            rw [List.map_cons, hxt] at h6
            exact h6.cons_inv
          · have h6 := (hp.flatMap_right (times c.interval)).symm.trans h3
            rw [List.flatMap_cons] at h6
            exact h6
          · show s.now = _
            rw [hxt, hnow]
      · exact ⟨⟨L, hL⟩, ha, hk⟩

theorem inv_create {c : Cfg} (hus : 0 ≤ c.us) (k : UInt32) : Inv c (create c k) := by
  refine ⟨⟨[], ?_, ?_, ?_⟩, fun e he => ?_, ?_, fun e he => ?_⟩
  · exact List.Perm.refl _
  · exact List.Perm.refl _
  · exact List.Perm.refl _
  · simp only [create, St.sched, List.nil_append, List.mem_singleton] at he
    subst he
    show (0 : ℤ) ≤ 0 + 8 * k.toNat * c.us
    positivity
  · simp [create, St.sched]
  · simp only [create, St.sched, List.nil_append, List.mem_singleton] at he
    subst he
    show 0 < 1
    omega

theorem inv_after {c : Cfg} (hI : 0 ≤ c.interval) (hus : 0 ≤ c.us) (k : UInt32) (ops : List Op) : Inv c (after c k ops) := by
  unfold after
  have : ∀ (l : List Op) s, Inv c s → Inv c (l.foldl (step c) s) := by
    intro l
    induction l with
    | nil => exact fun s h => h
    | cons o l ih => exact fun s h => ih _ (h.step hI o)
  exact this ops _ (inv_create hus k)

theorem count_times {I : ℤ} (hI : 0 < I) {t0 t : ℤ} {m : ℕ} (h : t < t0 + m * I) :
    (times I (t0, m)).count t = if t0 ≤ t ∧ I ∣ t - t0 then 1 else 0 := by
  have hnd : (times I (t0, m)).Nodup := by
    unfold times
    refine List.Nodup.map ?_ List.nodup_range
    intro i j hij
    dsimp only at hij
    have : (i : ℤ) * I = j * I := by omega
    exact_mod_cast mul_right_cancel₀ hI.ne' this
  have hmem : t ∈ times I (t0, m) ↔ t0 ≤ t ∧ I ∣ t - t0 := by
    unfold times
    rw [List.mem_map]
    constructor
    · rintro ⟨i, _, rfl⟩
      refine ⟨by have : (0 : ℤ) ≤ i * I := by positivity
                 omega, i, by ring⟩
    · rintro ⟨h1, q, hq⟩
      have hq0 : 0 ≤ q := by
        by_contra hn
        have : I * q < 0 := mul_neg_of_pos_of_neg hI (by omega)
        omega
      refine ⟨q.toNat, ?_, ?_⟩
      · rw [List.mem_range]
        have : I * q < m * I := by omega
        have : q < m := by
          by_contra hn
          have : (m : ℤ) * I ≤ I * q := by rw [mul_comm]; exact mul_le_mul_of_nonneg_left (by omega) hI.le
          omega
        omega
      · rw [Int.toNat_of_nonneg hq0, mul_comm]; omega
  split
  · rename_i h2
    exact List.count_eq_one_of_mem hnd (hmem.2 h2)
  · rename_i h2
    exact List.count_eq_zero_of_not_mem (fun h3 => h2 (hmem.1 h3))

/-- **C111, exactly.**  At any time in the past energy was gained once for every earlier (or simultaneous) start that is a whole number of
intervals away. -/
theorem C111_gains_follow_starts (c : Cfg) (hI : 0 < c.interval) (hus : 0 ≤ c.us) (k : UInt32) (ops : List Op) (t : ℤ)
    (ht : t < (after c k ops).now) :
    (gains (after c k ops).log).count t =
      (starts (after c k ops).log).countP (fun t0 => decide (t0 ≤ t ∧ c.interval ∣ t - t0)) := by
  obtain ⟨⟨L, h1, h2, h3⟩, ha, -⟩ := inv_after hI.le hus k ops
  rw [← h3.count_eq, ← h1.countP_eq]
  have hL : ∀ x ∈ L, t < x.1 + x.2 * c.interval := by
    intro x hx
    obtain ⟨i, hi⟩ := mem_dues _ (h2.subset (List.mem_map.2 ⟨x, hx, rfl⟩))
    exact lt_of_lt_of_le ht (ha _ hi)
  clear h1 h2 h3 ha
  induction L with
  | nil => rfl
  | cons x L ih =>
    rw [List.flatMap_cons, List.count_append, ih (fun y hy => hL y (List.mem_cons_of_mem _ hy)), List.map_cons, List.countP_cons]
    obtain ⟨t0, m⟩ := x
    rw [count_times hI (hL _ List.mem_cons_self)]
    simp only [decide_eq_true_eq]
    omega

theorem window_times {I : ℤ} (hI : 0 < I) {t0 t : ℤ} {m : ℕ} (h0 : t0 ≤ t) (h : t + I ≤ t0 + m * I) :
    (times I (t0, m)).countP (fun x => decide (t ≤ x ∧ x < t + I)) = 1 := by
  have e1 := Int.emod_nonneg (t0 - t) hI.ne'
  have e2 := Int.emod_lt_of_pos (t0 - t) hI
  have e3 := Int.emod_add_mul_ediv (t0 - t) I
  obtain ⟨u, hu⟩ : ∃ u, u = t + (t0 - t) % I := ⟨_, rfl⟩
  have h1 : (times I (t0, m)).countP (fun x => decide (t ≤ x ∧ x < t + I)) = (times I (t0, m)).count u := by
    unfold List.count
    refine List.countP_congr fun x hx => ?_
    unfold times at hx
    obtain ⟨i, _, rfl⟩ := List.mem_map.1 hx
    simp only [decide_eq_true_eq, beq_iff_eq]
    constructor
    · rintro ⟨h2, h3⟩
      have h4 : (t0 + i * I - t) % I = t0 + i * I - t := Int.emod_eq_of_lt (by omega) (by omega)
      have h5 : (t0 + i * I - t) % I = (t0 - t) % I := by
        rw [show t0 + i * I - t = (t0 - t) + i * I by ring, Int.add_mul_emod_self_right]
      omega
    · intro h2
      omega
  rw [h1, count_times hI (by omega), if_pos]
  refine ⟨by omega, -((t0 - t) / I), ?_⟩
  rw [mul_neg]
  omega

/-- **C111, the rate.**  From the last start on, in every period of one interval energy is gained as many times as harvesting was started. -/
theorem C111_rate (c : Cfg) (hI : 0 < c.interval) (hus : 0 ≤ c.us) (k : UInt32) (ops : List Op) (t : ℤ)
    (h0 : ∀ t0 ∈ starts (after c k ops).log, t0 ≤ t) (ht : t + c.interval ≤ (after c k ops).now) :
    (gains (after c k ops).log).countP (fun x => decide (t ≤ x ∧ x < t + c.interval)) = (starts (after c k ops).log).length := by
  obtain ⟨⟨L, h1, h2, h3⟩, ha, -⟩ := inv_after hI.le hus k ops
  rw [← h3.countP_eq, ← h1.length_eq]
  have hL : ∀ x ∈ L, x.1 ≤ t ∧ t + c.interval ≤ x.1 + x.2 * c.interval := by
    intro x hx
    obtain ⟨i, hi⟩ := mem_dues _ (h2.subset (List.mem_map.2 ⟨x, hx, rfl⟩))
    exact ⟨h0 _ (h1.subset (List.mem_map.2 ⟨x, hx, rfl⟩)), le_trans ht (ha _ hi)⟩
  clear h1 h2 h3 ha
  induction L with
  | nil => rfl
  | cons x L ih =>
    have h4 := ih (fun y hy => hL y (List.mem_cons_of_mem _ hy))
    obtain ⟨h5, h6⟩ := hL x List.mem_cons_self
    rw [List.flatMap_cons, List.countP_append, h4, window_times (t0 := x.1) (m := x.2) hI h5 h6]
    simp only [List.length_map, List.length_cons]
    omega

/-- **C111, the part that holds.**  If harvesting was started once, energy is gained exactly once in every period of one interval. -/
theorem C111_rate_partial (c : Cfg) (hI : 0 < c.interval) (hus : 0 ≤ c.us) (k : UInt32) (ops : List Op) (t t0 : ℤ)
    (hs : starts (after c k ops).log = [t0]) (h0 : t0 ≤ t) (ht : t + c.interval ≤ (after c k ops).now) :
    (gains (after c k ops).log).countP (fun x => decide (t ≤ x ∧ x < t + c.interval)) = 1 := by
  rw [C111_rate c hI hus k ops t (by rw [hs]; intro x hx; rw [List.mem_singleton.1 hx]; exact h0) ht, hs]
  rfl

/-- How often harvesting was started: by the constructor's event once it has run, and by the node's initialisation. -/
def Started (c : Cfg) (k : UInt32) (s : St) : Prop :=
  ((∃ i, (i, 8 * (k.toNat : ℤ) * c.us, Ev.init) ∈ s.pend) ∧ (∀ e ∈ s.pend, e.2.2 = .init → e.2.1 = 8 * (k.toNat : ℤ) * c.us) ∧
    (starts s.log).length = if s.inited = true then 1 else 0) ∨
  ((∀ e ∈ s.pend, e.2.2 ≠ .init) ∧ (starts s.log).length = 1 + if s.inited = true then 1 else 0)

theorem started_harvest (c : Cfg) (s : St) : (harvest c s).pend = s.pend ++ [(s.nextTid, s.now + c.interval, .harvest)] ∧
    starts (harvest c s).log = starts s.log ∧ (harvest c s).inited = s.inited := by
  refine ⟨rfl, ?_, rfl⟩
  show starts (s.log ++ _) = _
  rw [starts_append]
  simp [starts]

theorem started_init (c : Cfg) (s : St) : (doInitialize c s).pend = s.pend ++ [(s.nextTid, s.now + c.interval, .harvest)] ∧
    (starts (doInitialize c s).log).length = (starts s.log).length + 1 ∧ (doInitialize c s).inited = s.inited := by
  unfold doInitialize
  obtain ⟨h1, h2, h3⟩ := started_harvest c { s with rem := c.par.initial, log := s.log ++ [.start s.now] }
  refine ⟨h1, ?_, h3⟩
  rw [h2]
  show (starts (s.log ++ _)).length = _
  rw [starts_append]
  simp [starts]

theorem Started.grow {c : Cfg} {k : UInt32} {s s' : St} (h : Started c k s) {i : Nat} {t : ℤ} {n : ℕ}
    (hp : s'.pend = s.pend ++ [(i, t, .harvest)]) (hl : (starts s'.log).length = (starts s.log).length + n)
    (hn : (if s'.inited = true then 1 else 0) = (if s.inited = true then 1 else 0) + n) : Started c k s' := by
  rcases h with ⟨⟨j, h1⟩, h2, h3⟩ | ⟨h1, h2⟩
  · refine .inl ⟨⟨j, by rw [hp]; exact List.mem_append_left _ h1⟩, fun e he => ?_, by omega⟩
    rw [hp] at he
    rcases List.mem_append.1 he with he | he
    · exact h2 e he
    · rw [List.mem_singleton.1 he]; simp
  · refine .inr ⟨fun e he => ?_, by omega⟩
    rw [hp] at he
    rcases List.mem_append.1 he with he | he
    · exact h1 e he
    · rw [List.mem_singleton.1 he]; simp

theorem Started.step {c : Cfg} {k : UInt32} {s : St} (hi : Inv c s) (hone : (s.pend.filter (fun e => e.2.2 = .init)).length ≤ 1)
    (h : Started c k s) (o : Op) :
    Started c k (EnergyTime.step c s o) ∧ ((EnergyTime.step c s o).pend.filter (fun e => e.2.2 = .init)).length ≤ 1 := by
  have same : ∀ s' : St, s'.pend = s.pend → starts s'.log = starts s.log → s'.inited = s.inited →
      Started c k s' ∧ (s'.pend.filter (fun e => e.2.2 = .init)).length ≤ 1 := by
    intro s' h1 h2 h3
    refine ⟨?_, by rw [h1]; exact hone⟩
    unfold Started
    rw [h1, h2, h3]
    exact h
  have grown : ∀ (l : List (Nat × ℤ × Ev)) (i : Nat) (t : ℤ), (l.filter (fun e => e.2.2 = .init)).length ≤ 1 →
      ((l ++ [(i, t, Ev.harvest)]).filter (fun e => e.2.2 = .init)).length ≤ 1 := by
    intro l i t h
    rw [List.filter_append]
    simpa using h
  cases o with
  | tick d =>
    unfold EnergyTime.step
    dsimp only
    split
    · exact same _ rfl rfl rfl
    · exact same _ rfl rfl rfl
  | nodeInit =>
    unfold EnergyTime.step
    dsimp only
    split
    · exact same _ rfl rfl rfl
    · rename_i hn
      obtain ⟨h1, h2, h3⟩ := started_init c { s with inited := true }
      refine ⟨Started.grow (n := 1) h h1 h2 ?_, by rw [h1]; exact grown _ _ _ hone⟩
      rw [h3, if_pos rfl, if_neg hn]
  | book tx rx => exact same _ rfl (by show starts (s.log ++ _) = _; rw [starts_append]; simp [starts]) rfl
  | ret tx rx => exact same _ rfl (by show starts (s.log ++ _) = _; rw [starts_append]; simp [starts]) rfl
  | fire tid =>
    unfold EnergyTime.step
    dsimp only
    split
    · exact same _ rfl rfl rfl
    · rename_i e hf
      split
      · have hm := List.mem_of_find?_eq_some hf
        have htid : e.1 = tid := by simpa using List.find?_some hf
        obtain ⟨a, b, hab⟩ := List.append_of_mem hm
        have hfil : s.pend.filter (fun x => x.1 ≠ tid) = a ++ b := by
          rw [← htid, hab]
          exact filter_tid (by rw [← hab]; exact hi.tids.1)
        rw [hfil]
        obtain ⟨i, t, ev⟩ := e
        have hone' : ((a ++ b).filter (fun e => e.2.2 = .init)).length ≤ 1 := by
          refine le_trans (List.Sublist.length_le (List.Sublist.filter _ ?_)) hone
          rw [hab]
          exact List.Sublist.append_left (List.sublist_cons_self _ _) _
        cases ev with
        | init =>
          obtain ⟨h1, h2, h3⟩ := started_init c { s with pend := a ++ b }
          refine ⟨?_, by rw [h1]; exact grown _ _ _ hone'⟩
          rcases h with ⟨_, _, h4⟩ | ⟨h4, _⟩
          · have hno : ∀ e ∈ a ++ b, e.2.2 ≠ .init := by
              intro e he hev
              rw [hab] at hone
              have h5 : ((a ++ (i, t, Ev.init) :: b).filter (fun e => e.2.2 = .init)).length =
                  ((a ++ b).filter (fun e => e.2.2 = .init)).length + 1 := by
                rw [List.filter_append, List.filter_append, List.filter_cons_of_pos (by simp)]
                simp
                omega
              have h6 : 0 < ((a ++ b).filter (fun e => e.2.2 = .init)).length :=
                List.length_pos_of_mem (List.mem_filter.2 ⟨he, by simpa using hev⟩)
              omega
            refine .inr ⟨fun e he => ?_, ?_⟩
            · rw [h1] at he
              rcases List.mem_append.1 he with he | he
              · exact hno e he
              · rw [List.mem_singleton.1 he]; simp
            · rw [h2, h3]
              dsimp only
              omega
          · exact absurd rfl (h4 _ hm)
        | harvest =>
          obtain ⟨h1, h2, h3⟩ := started_harvest c { s with pend := a ++ b }
          refine ⟨Started.grow (n := 0) (s := { s with pend := a ++ b }) ?_ h1 (by rw [h2]; rfl) (by rw [h3, Nat.add_zero]), by rw [h1]; exact grown _ _ _ hone'⟩
          have hsub : ∀ e, e ∈ a ++ b ∨ e = (i, t, Ev.harvest) ↔ e ∈ s.pend := by
            intro e
            rw [hab]
            simp only [List.mem_append, List.mem_cons]
            tauto
          rcases h with ⟨⟨j, h4⟩, h5, h6⟩ | ⟨h4, h5⟩
          · refine .inl ⟨⟨j, ?_⟩, fun e he => h5 e ((hsub e).1 (.inl he)), h6⟩
            rcases (hsub _).2 h4 with h7 | h7
            · exact h7
            · simp at h7
          · exact .inr ⟨fun e he => h4 e ((hsub e).1 (.inl he)), h5⟩
      · exact same _ rfl rfl rfl

theorem started_after {c : Cfg} (hI : 0 ≤ c.interval) (hus : 0 ≤ c.us) (k : UInt32) (ops : List Op) : Started c k (after c k ops) := by
  have : ∀ (l : List Op) s, Inv c s → Started c k s → (s.pend.filter (fun e => e.2.2 = .init)).length ≤ 1 →
      Started c k (l.foldl (step c) s) := by
    intro l
    induction l with
    | nil => exact fun s _ h _ => h
    | cons o l ih =>
      intro s h1 h2 h3
      obtain ⟨h4, h5⟩ := h2.step h1 h3 o
      exact ih _ (h1.step hI o) h4 h5
  refine this ops _ (inv_create hus k) (.inl ⟨⟨0, ?_⟩, fun e he _ => ?_, rfl⟩) ?_
  · simp [create, St.sched]
  · simp only [create, St.sched, List.nil_append, List.mem_singleton] at he
    subst he
    simp
  · simp [create, St.sched]

/-- **C111 is violated by every energy model that is aggregated to a node**, as `THzEnergyModelHelper::Install` does: once the constructor's
event has run too, energy is gained twice in every interval, whatever the attributes. -/
theorem C111_double_violated (c : Cfg) (hI : 0 < c.interval) (hus : 0 ≤ c.us) (k : UInt32) (ops : List Op) (t : ℤ)
    (hn : (after c k ops).inited = true) (hk : 8 * (k.toNat : ℤ) * c.us < (after c k ops).now)
    (h0 : ∀ t0 ∈ starts (after c k ops).log, t0 ≤ t) (ht : t + c.interval ≤ (after c k ops).now) :
    (gains (after c k ops).log).countP (fun x => decide (t ≤ x ∧ x < t + c.interval)) = 2 := by
  rw [C111_rate c hI hus k ops t h0 ht]
  rcases started_after hI.le hus k ops with ⟨⟨i, h1⟩, _⟩ | ⟨_, h2⟩
  · have := (inv_after hI.le hus k ops).ahead _ h1
    dsimp only at this
    omega
  · rw [h2, hn]
    rfl

/-! ## C112: stored energy is kept until it is booked -/

/-- The energy gained (lost, if negative) by what is in the log, apart from starts. -/
def flows (p : EParams) : List Obs → ℚ
  | [] => 0
  | .gain _ _ :: l => p.harvest + flows p l
  | .book _ ok tx rx :: l => (if ok = true then - energyFor p tx rx else 0) + flows p l
  | .ret _ tx rx :: l => energyFor p tx rx + flows p l
  | .start _ :: l => flows p l

theorem flows_append (p : EParams) (a b : List Obs) : flows p (a ++ b) = flows p a + flows p b := by
  induction a with
  | nil => simp [flows]
  | cons o a ih => cases o <;> simp [flows, ih] <;> ring

/-- The ledger since the last start. -/
def Ledger (c : Cfg) (s : St) : Prop :=
  (starts s.log = [] ∧ s.rem = flows c.par s.log) ∨
  ∃ a t b, s.log = a ++ .start t :: b ∧ starts b = [] ∧ s.rem = c.par.initial + flows c.par b

theorem Ledger.add {c : Cfg} {s s' : St} (h : Ledger c s) {o : Obs} (ho : starts [o] = []) (hl : s'.log = s.log ++ [o])
    (hr : s'.rem = s.rem + flows c.par [o]) : Ledger c s' := by
  rcases h with ⟨h1, h2⟩ | ⟨a, t, b, h1, h2, h3⟩
  · refine .inl ⟨by rw [hl, starts_append, h1, ho]; rfl, ?_⟩
    rw [hr, hl, flows_append, h2]
  · refine .inr ⟨a, t, b ++ [o], by rw [hl, h1]; simp, by rw [starts_append, h2, ho]; rfl, ?_⟩
    rw [hr, h3, flows_append]
    ring

theorem ledger_harvest {c : Cfg} {s : St} (h : Ledger c s) : Ledger c (harvest c s) := by
  unfold harvest
  refine h.add (o := .gain s.now (c.par.harvestStep s.rem).1) rfl rfl ?_
  show s.rem + c.par.harvest = _
  simp [flows]

theorem ledger_init {c : Cfg} (s : St) : Ledger c (doInitialize c s) := by
  unfold doInitialize
  refine ledger_harvest (.inr ⟨s.log, s.now, [], rfl, rfl, ?_⟩)
  simp [flows]

theorem Ledger.step {c : Cfg} {s : St} (h : Ledger c s) (o : Op) : Ledger c (step c s o) := by
  cases o with
  | tick d => unfold EnergyTime.step; dsimp only; split <;> exact h
  | nodeInit =>
    unfold EnergyTime.step
    dsimp only
    split
    · exact h
    · exact ledger_init _
  | book tx rx =>
    refine h.add (o := .book s.now (c.par.book s.rem tx rx).1 tx rx) rfl rfl ?_
    show (c.par.book s.rem tx rx).2 = _
    obtain ⟨_, h2, h3⟩ := C08_book_all_or_nothing c.par s.rem tx rx
    cases hb : (c.par.book s.rem tx rx).1 with
    | true => rw [h2 hb]; simp [flows]; ring
    | false => rw [(h3 hb).1]; simp [flows]
  | ret tx rx =>
    refine h.add (o := .ret s.now tx rx) rfl rfl ?_
    show s.rem + c.par.cost tx rx = _
    rw [cost_eq]
    simp [flows]
  | fire tid =>
    unfold EnergyTime.step
    dsimp only
    split
    · exact h
    · split
      · rename_i e _ _
        obtain ⟨i, t, ev⟩ := e
        cases ev with
        | init => exact ledger_init _
        | harvest => exact ledger_harvest (s := { s with pend := s.pend.filter (fun e => e.1 ≠ tid) }) h
      · exact h

/-- **C112, the part that holds.**  Since the last start, the stored energy is the initial energy plus what was gained and returned minus what was
booked; before the first start, what was returned minus what was booked. -/
theorem C112_ledger_partial (c : Cfg) (k : UInt32) (ops : List Op) :
    (starts (after c k ops).log = [] ∧ (after c k ops).rem = flows c.par (after c k ops).log) ∨
    ∃ a t b, (after c k ops).log = a ++ .start t :: b ∧ starts b = [] ∧ (after c k ops).rem = c.par.initial + flows c.par b := by
  have : ∀ (l : List Op) s, Ledger c s → Ledger c (l.foldl (step c) s) := by
    intro l
    induction l with
    | nil => exact fun s h => h
    | cons o l ih => exact fun s h => ih _ (h.step o)
  exact this ops _ (.inl ⟨rfl, rfl⟩)

/-! ## Cases -/

/-- Default attributes, in nanoseconds; energy for a packet is there after 65 harvests. -/
def exCfg : Cfg := ⟨EParams.default, 8000, 1000⟩

/-- The node is initialised; then the simulator runs `n` intervals, with one or two harvests each. -/
def exRounds : Nat → Nat → List Op
  | 0, _ => []
  | n + 1, t => .tick 8000 :: .fire t :: exRounds n (t + 1)

/-- The constructor drew 60: after 480 microseconds `DoInitialize` runs again. -/
def exOps : List Op := .nodeInit :: exRounds 60 1 ++ [.fire 0]

set_option maxRecDepth 10000 in
/-- **C112 is violated.**  Default attributes, harvesting started by the initialisation of the node: the 61 units harvested in 480 microseconds are
gone when the constructor's event runs; nothing was booked.  (Another unit is harvested at once.) -/
theorem C112_reset_violated : (after exCfg 60 (.nodeInit :: exRounds 60 1)).rem = 61 ∧
    (after exCfg 60 exOps).rem = 1 ∧ (after exCfg 60 exOps).now = 480000 ∧
    (∀ o ∈ (after exCfg 60 exOps).log, ∀ t ok tx rx, o ≠ .book t ok tx rx) := by
  refine ⟨by decide +kernel, by decide +kernel, by decide +kernel, ?_⟩
  have : (after exCfg 60 exOps).log.all (fun o => match o with | .book _ _ _ _ => false | _ => true) = true := by decide +kernel
  intro o ho t ok tx rx e
  have := List.all_eq_true.1 this o ho
  rw [e] at this
  simp at this

-- C111: a history with a node that has been initialised; 8 us later two units have been gained
example : (after exCfg 0 [.nodeInit, .fire 0, .tick 8000, .fire 1, .fire 2, .tick 8000]).inited = true ∧
    (after exCfg 0 [.nodeInit, .fire 0, .tick 8000, .fire 1, .fire 2, .tick 8000]).now = 16000 ∧
    starts (after exCfg 0 [.nodeInit, .fire 0, .tick 8000, .fire 1, .fire 2, .tick 8000]).log = [0, 0] ∧
    gains (after exCfg 0 [.nodeInit, .fire 0, .tick 8000, .fire 1, .fire 2, .tick 8000]).log = [0, 0, 8000, 8000] := by decide +kernel

example : (gains (after exCfg 0 [.nodeInit, .fire 0, .tick 8000, .fire 1, .fire 2, .tick 8000]).log).countP
    (fun x => decide (8000 ≤ x ∧ x < 8000 + exCfg.interval)) = 2 :=
  C111_double_violated exCfg (by decide) (by decide) 0 _ 8000 (by decide +kernel) (by decide +kernel) (by decide +kernel) (by decide +kernel)

-- an object that is not aggregated to a node harvests at the right rate
example : (gains (after exCfg 0 [.fire 0, .tick 8000, .fire 1, .tick 8000]).log).countP
    (fun x => decide (8000 ≤ x ∧ x < 8000 + exCfg.interval)) = 1 :=
  C111_rate_partial exCfg (by decide) (by decide) 0 _ 8000 0 (by decide +kernel) (by decide) (by decide +kernel)

-- C112: with a booking and a refund after the start
example : (after exCfg 0 [.fire 0, .tick 8000, .fire 1, .book 1 0, .ret 1 0, .book 1000 0]).rem = 2 := by decide +kernel

end Thz.EnergyTime
