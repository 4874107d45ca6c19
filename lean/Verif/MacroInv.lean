import Verif.MacroMicro

/-! # Invariants of the macro MAC: packets, outcomes, timeouts, transmissions -/

namespace Thz.Macro

open Thz
open Thz.Nano (Body Kind bcast)

variable {c : Cfg} {me : Mac48} {A : Frame → Prop}

/-! ## Reading the log -/

/-- The packet whose outcome an observation reports. -/
def Obs.doneUid : Obs → Option Nat
  | .done _ p => some p.uid
  | _ => none

/-- Is this a timeout charged to the packet? -/
def Obs.isTimeout (u : Nat) : Obs → Bool
  | .timedOut p _ => p.uid = u
  | _ => false

/-- The packets whose outcomes were reported. -/
def doneUids (l : List Obs) : List Nat := l.filterMap Obs.doneUid

/-- The number of timeouts charged to a packet. -/
def numTO (u : Nat) (l : List Obs) : Nat := l.countP (Obs.isTimeout u)

theorem doneUids_append (a b : List Obs) : doneUids (a ++ b) = doneUids a ++ doneUids b :=
  List.filterMap_append

theorem numTO_append (u : Nat) (a b : List Obs) : numTO u (a ++ b) = numTO u a + numTO u b :=
  List.countP_append

/-- Observations that say nothing about acceptance, outcomes or timeouts. -/
def Neutral : Obs → Prop
  | .accepted _ => False
  | .done _ _ => False
  | .timedOut _ _ => False
  | _ => True

theorem doneUids_neutral {l : List Obs} (h : ∀ o ∈ l, Neutral o) : doneUids l = [] := by
  induction l with
  | nil => rfl
  | cons o l ih =>
    have := ih (fun x hx => h x (List.mem_cons_of_mem _ hx))
    have ho := h o List.mem_cons_self
    cases o <;> first | exact ho.elim | exact this

theorem numTO_neutral {u : Nat} {l : List Obs} (h : ∀ o ∈ l, Neutral o) : numTO u l = 0 := by
  unfold numTO
  rw [List.countP_eq_zero]
  intro o ho
  have := h o ho
  cases o <;> first | exact this.elim | simp [Obs.isTimeout]

/-- What a micro-step does to packets, records and the log. -/
inductive Eff (me : Mac48) (v w : SV) : Prop
  | silent (l : List Obs) : w.queue = v.queue → w.recs = v.recs → w.nextUid = v.nextUid → w.seq = v.seq →
      w.log = v.log ++ l → (∀ o ∈ l, Neutral o) → Eff me v w
  | accept (b : Body) (dst : Mac48) (g : UInt16) (t : ℤ) :
      w.queue = v.queue ++ [⟨v.nextUid, v.seq + 1, dst, g, b⟩] →
      w.recs = v.recs ++ [⟨v.seq + 1, t, UInt16.ofNat (b.size + 17), 0, ⟨v.nextUid, v.seq + 1, dst, g, b⟩⟩] →
      w.nextUid = v.nextUid + 1 → w.seq = v.seq + 1 →
      w.log = v.log ++ [.accepted ⟨v.nextUid, v.seq + 1, dst, g, b⟩] → Eff me v w
  | settle (ok : Bool) (pre : List Rec) (r : Rec) (rest : List Rec) :
      v.recs = pre ++ r :: rest → DoneOK me v ok r.seq →
      w.queue = (if ok then v.queue.filter (fun p => p.uid ≠ r.pkt.uid) else v.queue) →
      w.recs = pre ++ rest → w.nextUid = v.nextUid → w.seq = v.seq →
      w.log = v.log ++ [.done ok r.pkt] → Eff me v w
  | charge (pre : List Rec) (r : Rec) (rest : List Rec) :
      v.recs = pre ++ r :: rest → r.retry + 1 < 5 → Tried v r.seq →
      w.queue = v.queue → w.recs = pre ++ { r with retry := r.retry + 1 } :: rest → w.nextUid = v.nextUid →
      w.seq = v.seq → w.log = v.log ++ [.timedOut r.pkt (r.retry + 1)] → Eff me v w
  | giveUp (pre : List Rec) (r : Rec) (rest : List Rec) :
      v.recs = pre ++ r :: rest → 5 ≤ r.retry + 1 → Tried v r.seq →
      w.queue = v.queue.filter (fun p => p.uid ≠ r.pkt.uid) →
      w.recs = pre ++ { r with retry := r.retry + 1 } :: rest → w.nextUid = v.nextUid →
      w.seq = v.seq → w.log = v.log ++ [.timedOut r.pkt (r.retry + 1)] → Eff me v w

theorem Mi.eff {v w : SV} (h : Mi c me A v w) : Eff me v w := by
  cases h with
  | accept b dst g t _ => exact .accept b dst g t rfl rfl rfl rfl rfl
  | settle ok q pre r rest h1 h2 h3 h4 => exact .settle ok pre r rest h1 (h2 ▸ h3) rfl rfl rfl rfl rfl
  | charge q pre r rest h1 h2 h3 h4 => exact .charge pre r rest h1 h3 (h2 ▸ h4) rfl rfl rfl rfl rfl
  | giveUp q pre r rest h1 h2 h3 h4 => exact .giveUp pre r rest h1 h3 (h2 ▸ h4) rfl rfl rfl rfl rfl
  | note o ho =>
    refine .silent [o] rfl rfl rfl rfl rfl ?_
    intro x hx; rw [List.mem_singleton.1 hx]
    cases o <;> first | exact ho.elim | trivial
  | rx f _ => exact .silent [.rx f] rfl rfl rfl rfl rfl (by intro x hx; rw [List.mem_singleton.1 hx]; trivial)
  | handRts p _ _ _ _ =>
    exact .silent [.handed (rtsFrame me p)] rfl rfl rfl rfl rfl
      (by intro x hx; rw [List.mem_singleton.1 hx]; trivial)
  | handData p _ _ _ =>
    exact .silent [.handed (dataFrame me p)] rfl rfl rfl rfl rfl
      (by intro x hx; rw [List.mem_singleton.1 hx]; trivial)
  | handBcast p _ _ _ =>
    exact .silent [.handed (dataFrame me p)] rfl rfl rfl rfl rfl
      (by intro x hx; rw [List.mem_singleton.1 hx]; trivial)
  | handCts d t q _ _ =>
    exact .silent [.handed (ctsFrame c me d t q)] rfl rfl rfl rfl rfl
      (by intro x hx; rw [List.mem_singleton.1 hx]; trivial)
  | handAck d q _ _ =>
    exact .silent [.handed (ackFrame me d q)] rfl rfl rfl rfl rfl
      (by intro x hx; rw [List.mem_singleton.1 hx]; trivial)
  | txEnd t f _ =>
    exact .silent [.txEnd f] rfl rfl rfl rfl rfl (by intro x hx; rw [List.mem_singleton.1 hx]; trivial)
  | fwd f _ _ _ =>
    unfold SV.fwd
    dsimp only
    split
    · exact .silent [.up f.body f.src f.dst f.seq] rfl rfl rfl rfl rfl
        (by intro x hx; rw [List.mem_singleton.1 hx]; trivial)
    · exact .silent [] rfl rfl rfl rfl (List.append_nil _).symm (by simp)
  | benign e _ => exact .silent [] rfl rfl rfl rfl (List.append_nil _).symm (by simp)
  | bo => exact .silent [] rfl rfl rfl rfl (List.append_nil _).symm (by simp)
  | dropBo => exact .silent [] rfl rfl rfl rfl (List.append_nil _).symm (by simp)
  | pktData p _ => exact .silent [] rfl rfl rfl rfl (List.append_nil _).symm (by simp)
  | pop t e _ _ => exact .silent [] rfl rfl rfl rfl (List.append_nil _).symm (by simp)
  | eraseCts q => exact .silent [] rfl rfl rfl rfl (List.append_nil _).symm (by simp)
  | eraseAck q => exact .silent [] rfl rfl rfl rfl (List.append_nil _).symm (by simp)
  | cts d t q _ => exact .silent [] rfl rfl rfl rfl (List.append_nil _).symm (by simp)
  | ack d q _ => exact .silent [] rfl rfl rfl rfl (List.append_nil _).symm (by simp)
  | ackIn t q _ _ => exact .silent [] rfl rfl rfl rfl (List.append_nil _).symm (by simp)
  | ctsIn t p q _ _ => exact .silent [] rfl rfl rfl rfl (List.append_nil _).symm (by simp)

/-! ## Packets, records, outcomes -/

/-- The packet invariant. -/
structure PkInv (seq0 : UInt16) (v : SV) : Prop where
  seqEq : v.seq = seq0 + UInt16.ofNat v.nextUid
  recLt : ∀ r ∈ v.recs, r.pkt.uid < v.nextUid
  recSorted : v.recs.Pairwise (fun a b => a.pkt.uid < b.pkt.uid)
  qLt : ∀ p ∈ v.queue, p.uid < v.nextUid
  qSorted : v.queue.Pairwise (fun a b => a.uid < b.uid)
  accLt : ∀ p, Obs.accepted p ∈ v.log → p.uid < v.nextUid ∧ p.seq = seq0 + UInt16.ofNat (p.uid + 1)
  accUniq : ∀ p p', Obs.accepted p ∈ v.log → Obs.accepted p' ∈ v.log → p.uid = p'.uid → p = p'
  doneGone : ∀ ok p, Obs.done ok p ∈ v.log → Obs.accepted p ∈ v.log ∧ ∀ r ∈ v.recs, r.pkt.uid ≠ p.uid
  doneNodup : (doneUids v.log).Nodup
  tout : ∀ p k, Obs.timedOut p k ∈ v.log → Obs.accepted p ∈ v.log ∧ k.toNat ≤ numTO p.uid v.log
  cnt : ∀ r ∈ v.recs, r.retry = UInt16.ofNat (numTO r.pkt.uid v.log)
  kept : ∀ p, Obs.accepted p ∈ v.log → (∃ r ∈ v.recs, r.pkt = p) ∨ ∃ ok, Obs.done ok p ∈ v.log
  gone : ∀ p k, Obs.timedOut p k ∈ v.log → 5 ≤ k → ∀ x ∈ v.queue, x.uid ≠ p.uid
  loc : ∀ p, Obs.accepted p ∈ v.log → p ∈ v.queue ∨ (∃ ok, Obs.done ok p ∈ v.log) ∨
    ∃ k, Obs.timedOut p k ∈ v.log ∧ 5 ≤ k

theorem mem_doneUids {u : Nat} {l : List Obs} (h : u ∈ doneUids l) : ∃ ok p, Obs.done ok p ∈ l ∧ p.uid = u := by
  unfold doneUids at h
  obtain ⟨o, h1, h2⟩ := List.mem_filterMap.1 h
  cases o with
  | done ok p => exact ⟨ok, p, h1, Option.some.inj h2⟩
  | _ => cases h2

theorem PkInv.init (seq0 : UInt16) : PkInv seq0 (init seq0).sv := by
  constructor <;> simp [Macro.init, St.sv, doneUids, numTO]

theorem PkInv.mi {seq0 : UInt16} {v w : SV} (hb : Basic c me v) (i : PkInv seq0 v) (h : Mi c me A v w) :
    PkInv seq0 w := by
  cases h.eff with
  | silent l hq hr hu hs hl hn =>
    have hmem : ∀ o, ¬ Neutral o → (o ∈ w.log ↔ o ∈ v.log) := by
      intro o ho
      rw [hl, List.mem_append]
      exact ⟨fun h => h.elim id (fun h => absurd (hn o h) ho), .inl⟩
    have hA : ∀ p, (Obs.accepted p ∈ w.log ↔ Obs.accepted p ∈ v.log) := fun p => hmem _ (fun h => h)
    have hD : ∀ ok p, (Obs.done ok p ∈ w.log ↔ Obs.done ok p ∈ v.log) := fun ok p => hmem _ (fun h => h)
    have hT : ∀ p k, (Obs.timedOut p k ∈ w.log ↔ Obs.timedOut p k ∈ v.log) := fun p k => hmem _ (fun h => h)
    have hdn : doneUids w.log = doneUids v.log := by
      rw [hl, doneUids_append, doneUids_neutral hn, List.append_nil]
    have hnt : ∀ u, numTO u w.log = numTO u v.log := by
      intro u; rw [hl, numTO_append, numTO_neutral hn, Nat.add_zero]
    constructor
    · rw [hs, hu]; exact i.seqEq
    · rw [hr, hu]; exact i.recLt
    · rw [hr]; exact i.recSorted
    · rw [hq, hu]; exact i.qLt
    · rw [hq]; exact i.qSorted
    · rw [hu]; simp only [hA]; exact i.accLt
    · simp only [hA]; exact i.accUniq
    · rw [hr]; simp only [hA, hD]; exact i.doneGone
    · rw [hdn]; exact i.doneNodup
    · simp only [hA, hT, hnt]; exact i.tout
    · rw [hr]; simp only [hnt]; exact i.cnt
    · rw [hr]; simp only [hA, hD]; exact i.kept
    · rw [hq]; simp only [hT]; exact i.gone
    · rw [hq]; simp only [hA, hD, hT]; exact i.loc
  | accept b dst g t hq hr hu hs hl =>
    set p0 : Pkt := ⟨v.nextUid, v.seq + 1, dst, g, b⟩ with hp0
    have hA : ∀ p, (Obs.accepted p ∈ w.log ↔ Obs.accepted p ∈ v.log ∨ p = p0) := by
      intro p; rw [hl]; simp
    have hD : ∀ ok p, (Obs.done ok p ∈ w.log ↔ Obs.done ok p ∈ v.log) := by
      intro ok p; rw [hl]; simp
    have hT : ∀ p k, (Obs.timedOut p k ∈ w.log ↔ Obs.timedOut p k ∈ v.log) := by
      intro p k; rw [hl]; simp
    have hdn : doneUids w.log = doneUids v.log := by
      rw [hl, doneUids_append]; exact List.append_nil _
    have hnt : ∀ u, numTO u w.log = numTO u v.log := by
      intro u; rw [hl, numTO_append]; rfl
    have hfresh : ∀ p, Obs.accepted p ∈ v.log → p.uid ≠ v.nextUid := fun p hp => (i.accLt p hp).1.ne
    have hs1 : v.seq + 1 = seq0 + UInt16.ofNat (v.nextUid + 1) := by
      rw [i.seqEq, UInt16.ofNat_add, ← UInt16.add_assoc]; rfl
    constructor
    · rw [hs, hu]; exact hs1
    · rw [hr, hu]; intro r hr'
      rcases List.mem_append.1 hr' with h | h
      · exact Nat.lt_succ_of_lt (i.recLt r h)
      · rw [List.mem_singleton.1 h]; exact Nat.lt_succ_self _
    · rw [hr, List.pairwise_append]
      refine ⟨i.recSorted, List.pairwise_singleton _ _, ?_⟩
      intro a ha b' hb'
      rw [List.mem_singleton.1 hb']; exact i.recLt a ha
    · rw [hq, hu]; intro p hp
      rcases List.mem_append.1 hp with h | h
      · exact Nat.lt_succ_of_lt (i.qLt p h)
      · rw [List.mem_singleton.1 h]; exact Nat.lt_succ_self _
    · rw [hq, List.pairwise_append]
      refine ⟨i.qSorted, List.pairwise_singleton _ _, ?_⟩
      intro a ha b' hb'
      rw [List.mem_singleton.1 hb']; exact i.qLt a ha
    · rw [hu]; intro p hp
      rcases (hA p).1 hp with h | h
      · exact ⟨Nat.lt_succ_of_lt (i.accLt p h).1, (i.accLt p h).2⟩
      · rw [h]; exact ⟨Nat.lt_succ_self _, hs1⟩
    · intro p p' hp hp' he
      rcases (hA p).1 hp with h | h <;> rcases (hA p').1 hp' with h' | h'
      · exact i.accUniq p p' h h' he
      · rw [h'] at he; exact absurd he (hfresh p h)
      · rw [h] at he; exact absurd he.symm (hfresh p' h')
      · rw [h, h']
    · intro ok p hp
      obtain ⟨h1, h2⟩ := i.doneGone ok p ((hD ok p).1 hp)
      refine ⟨(hA p).2 (.inl h1), ?_⟩
      rw [hr]; intro r hr'
      rcases List.mem_append.1 hr' with h | h
      · exact h2 r h
      · rw [List.mem_singleton.1 h]; exact fun he => hfresh p h1 he.symm
    · rw [hdn]; exact i.doneNodup
    · intro p k hp
      rw [hnt]
      obtain ⟨h1, h2⟩ := i.tout p k ((hT p k).1 hp)
      exact ⟨(hA p).2 (.inl h1), h2⟩
    · rw [hr]; intro r hr'
      rw [hnt]
      rcases List.mem_append.1 hr' with h | h
      · exact i.cnt r h
      · rw [List.mem_singleton.1 h]
        show (0 : UInt16) = UInt16.ofNat (numTO v.nextUid v.log)
        have : numTO v.nextUid v.log = 0 := by
          unfold numTO
          rw [List.countP_eq_zero]
          intro o ho
          cases o with
          | timedOut p k =>
            have := hfresh p (i.tout p k ho).1
            simpa [Obs.isTimeout] using this
          | _ => simp [Obs.isTimeout]
        rw [this]; rfl
    · intro p hp
      rw [hr]
      rcases (hA p).1 hp with h | h
      · rcases i.kept p h with ⟨r, h1, h2⟩ | ⟨ok, h1⟩
        · exact .inl ⟨r, List.mem_append_left _ h1, h2⟩
        · exact .inr ⟨ok, (hD ok p).2 h1⟩
      · exact .inl ⟨_, List.mem_append_right _ (List.mem_singleton.2 rfl), h.symm⟩
    · intro p k hp hk x hx
      have hp' := (hT p k).1 hp
      rw [hq] at hx
      rcases List.mem_append.1 hx with h | h
      · exact i.gone p k hp' hk x h
      · rw [List.mem_singleton.1 h]; exact fun he => hfresh p (i.tout p k hp').1 he.symm
    · intro p hp
      rw [hq]
      rcases (hA p).1 hp with h | h
      · rcases i.loc p h with h1 | ⟨ok, h1⟩ | ⟨k, h1, h2⟩
        · exact .inl (List.mem_append_left _ h1)
        · exact .inr (.inl ⟨ok, (hD ok p).2 h1⟩)
        · exact .inr (.inr ⟨k, (hT p k).2 h1, h2⟩)
      · exact .inl (List.mem_append_right _ (List.mem_singleton.2 h))
  | settle ok pre r rest h1 hd hq hr hu hs hl =>
    have hA : ∀ p, (Obs.accepted p ∈ w.log ↔ Obs.accepted p ∈ v.log) := by
      intro p; rw [hl]; simp
    have hD : ∀ ok' p, (Obs.done ok' p ∈ w.log ↔ Obs.done ok' p ∈ v.log ∨ (ok' = ok ∧ p = r.pkt)) := by
      intro ok' p; rw [hl]; simp
    have hT : ∀ p k, (Obs.timedOut p k ∈ w.log ↔ Obs.timedOut p k ∈ v.log) := by
      intro p k; rw [hl]; simp
    have hdn : doneUids w.log = doneUids v.log ++ [r.pkt.uid] := by
      rw [hl, doneUids_append]; rfl
    have hnt : ∀ u, numTO u w.log = numTO u v.log := by
      intro u; rw [hl, numTO_append]; rfl
    have hsub : ∀ x ∈ pre ++ rest, x ∈ v.recs := by
      intro x hx; rw [h1]
      rcases List.mem_append.1 hx with h | h
      · exact List.mem_append_left _ h
      · exact List.mem_append_right _ (List.mem_cons_of_mem _ h)
    have hrm : r ∈ v.recs := by rw [h1]; exact List.mem_append_right _ List.mem_cons_self
    have hne : ∀ x ∈ pre ++ rest, x.pkt.uid ≠ r.pkt.uid := by
      intro x hx
      have hp := i.recSorted
      rw [h1, List.pairwise_append] at hp
      rcases List.mem_append.1 hx with h | h
      · exact (hp.2.2 x h r List.mem_cons_self).ne
      · exact ((List.pairwise_cons.1 hp.2.1).1 x h).ne'
    have hqs : ∀ x ∈ w.queue, x ∈ v.queue := by
      rw [hq]; intro x hx
      cases ok
      · exact hx
      · exact (List.mem_filter.1 hx).1
    constructor
    · rw [hs, hu]; exact i.seqEq
    · rw [hr, hu]; exact fun x hx => i.recLt x (hsub x hx)
    · rw [hr]
      have hp := i.recSorted
      rw [h1] at hp
      exact hp.sublist (List.Sublist.append (List.Sublist.refl _) (List.sublist_cons_self _ _))
    · rw [hu]; exact fun x hx => i.qLt x (hqs x hx)
    · rw [hq]
      cases ok
      · exact i.qSorted
      · exact i.qSorted.sublist List.filter_sublist
    · rw [hu]; simp only [hA]; exact i.accLt
    · simp only [hA]; exact i.accUniq
    · intro ok' p hp
      rw [hA, hr]
      rcases (hD ok' p).1 hp with h | ⟨_, h⟩
      · exact ⟨(i.doneGone ok' p h).1, fun x hx => (i.doneGone ok' p h).2 x (hsub x hx)⟩
      · rw [h]; exact ⟨(hb.recs r hrm).1, hne⟩
    · rw [hdn, List.nodup_append]
      refine ⟨i.doneNodup, by simp, ?_⟩
      intro a ha b' hb' he
      rw [List.mem_singleton.1 hb'] at he
      obtain ⟨ok', p, h2, h3⟩ := mem_doneUids ha
      exact (i.doneGone ok' p h2).2 r hrm (by rw [h3, he])
    · simp only [hA, hT, hnt]; exact i.tout
    · rw [hr]; simp only [hnt]; exact fun x hx => i.cnt x (hsub x hx)
    · intro p hp
      rw [hr]
      rcases i.kept p ((hA p).1 hp) with ⟨x, h2, h3⟩ | ⟨ok', h2⟩
      · rw [h1] at h2
        rcases List.mem_append.1 h2 with h | h
        · exact .inl ⟨x, List.mem_append_left _ h, h3⟩
        · rcases List.mem_cons.1 h with h | h
          · exact .inr ⟨ok, (hD ok p).2 (.inr ⟨rfl, by rw [← h3, h]⟩)⟩
          · exact .inl ⟨x, List.mem_append_right _ h, h3⟩
      · exact .inr ⟨ok', (hD ok' p).2 (.inl h2)⟩
    · intro p k hp hk x hx
      exact i.gone p k ((hT p k).1 hp) hk x (hqs x hx)
    · intro p hp
      have hp' := (hA p).1 hp
      rcases i.loc p hp' with h2 | ⟨ok', h2⟩ | ⟨k, h2, h3⟩
      · by_cases he : p.uid = r.pkt.uid
        · have : p = r.pkt := i.accUniq _ _ hp' (hb.recs r hrm).1 he
          exact .inr (.inl ⟨ok, (hD ok p).2 (.inr ⟨rfl, this⟩)⟩)
        · left
          rw [hq]
          cases ok
          · exact h2
          · exact List.mem_filter.2 ⟨h2, by simpa using he⟩
      · exact .inr (.inl ⟨ok', (hD ok' p).2 (.inl h2)⟩)
      · exact .inr (.inr ⟨k, (hT p k).2 h2, h3⟩)
  | charge pre r rest h1 h5 ht hq hr hu hs hl =>
    have hA : ∀ p, (Obs.accepted p ∈ w.log ↔ Obs.accepted p ∈ v.log) := by
      intro p; rw [hl]; simp
    have hD : ∀ ok' p, (Obs.done ok' p ∈ w.log ↔ Obs.done ok' p ∈ v.log) := by
      intro ok' p; rw [hl]; simp
    have hT : ∀ p k, (Obs.timedOut p k ∈ w.log ↔ Obs.timedOut p k ∈ v.log ∨ (p = r.pkt ∧ k = r.retry + 1)) := by
      intro p k; rw [hl]; simp
    have hdn : doneUids w.log = doneUids v.log := by
      rw [hl, doneUids_append]; exact List.append_nil _
    have hnt : ∀ u, numTO u w.log = numTO u v.log + (if r.pkt.uid = u then 1 else 0) := by
      intro u; rw [hl, numTO_append]
      congr 1
      unfold numTO
      rw [List.countP_singleton]
      by_cases h : r.pkt.uid = u <;> simp [Obs.isTimeout, h]
    have hrm : r ∈ v.recs := by rw [h1]; exact List.mem_append_right _ List.mem_cons_self
    have hpw := i.recSorted
    rw [h1] at hpw
    have hne : ∀ x ∈ pre ++ rest, x.pkt.uid ≠ r.pkt.uid := by
      intro x hx
      rw [List.pairwise_append] at hpw
      rcases List.mem_append.1 hx with h | h
      · exact (hpw.2.2 x h r List.mem_cons_self).ne
      · exact ((List.pairwise_cons.1 hpw.2.1).1 x h).ne'
    have hmemW : ∀ x ∈ w.recs, x = { r with retry := r.retry + 1 } ∨ (x ∈ v.recs ∧ x.pkt.uid ≠ r.pkt.uid) := by
      rw [hr]; intro x hx
      rcases List.mem_append.1 hx with h | h
      · exact .inr ⟨by rw [h1]; exact List.mem_append_left _ h, hne x (List.mem_append_left _ h)⟩
      · rcases List.mem_cons.1 h with h | h
        · exact .inl h
        · exact .inr ⟨by rw [h1]; exact List.mem_append_right _ (List.mem_cons_of_mem _ h),
            hne x (List.mem_append_right _ h)⟩
    have hcnt : r.retry + 1 = UInt16.ofNat (numTO r.pkt.uid v.log + 1) := by
      rw [i.cnt r hrm, UInt16.ofNat_add]; rfl
    constructor
    · rw [hs, hu]; exact i.seqEq
    · rw [hu]; intro x hx
      rcases hmemW x hx with h | h
      · rw [h]; exact i.recLt r hrm
      · exact i.recLt x h.1
    · rw [hr]
      rw [List.pairwise_append, List.pairwise_cons] at hpw ⊢
      exact ⟨hpw.1, hpw.2.1, fun a ha b' hb' => by
        rcases List.mem_cons.1 hb' with h | h
        · rw [h]; exact hpw.2.2 a ha r List.mem_cons_self
        · exact hpw.2.2 a ha b' (List.mem_cons_of_mem _ h)⟩
    · rw [hq, hu]; exact i.qLt
    · rw [hq]; exact i.qSorted
    · rw [hu]; simp only [hA]; exact i.accLt
    · simp only [hA]; exact i.accUniq
    · intro ok' p hp
      obtain ⟨h2, h3⟩ := i.doneGone ok' p ((hD ok' p).1 hp)
      refine ⟨(hA p).2 h2, ?_⟩
      intro x hx
      rcases hmemW x hx with h | h
      · rw [h]; exact h3 r hrm
      · exact h3 x h.1
    · rw [hdn]; exact i.doneNodup
    · intro p k hp
      rw [hnt, hA]
      rcases (hT p k).1 hp with h | ⟨h, hk⟩
      · exact ⟨(i.tout p k h).1, (i.tout p k h).2.trans (Nat.le_add_right _ _)⟩
      · rw [h]
        refine ⟨(hb.recs r hrm).1, ?_⟩
        rw [hk, hcnt, if_pos rfl]
        rw [UInt16.toNat_ofNat']
        exact Nat.mod_le _ _
    · intro x hx
      rw [hnt]
      rcases hmemW x hx with h | h
      · rw [h, if_pos rfl]; exact hcnt
      · rw [if_neg (fun he => h.2 he.symm)]; exact i.cnt x h.1
    · intro p hp
      rcases i.kept p ((hA p).1 hp) with ⟨x, h2, h3⟩ | ⟨ok', h2⟩
      · left
        rw [hr]
        rw [h1] at h2
        rcases List.mem_append.1 h2 with h | h
        · exact ⟨x, List.mem_append_left _ h, h3⟩
        · rcases List.mem_cons.1 h with h | h
          · exact ⟨_, List.mem_append_right _ List.mem_cons_self, by rw [← h3, h]⟩
          · exact ⟨x, List.mem_append_right _ (List.mem_cons_of_mem _ h), h3⟩
      · exact .inr ⟨ok', (hD ok' p).2 h2⟩
    · intro p k hp hk x hx
      rw [hq] at hx
      rcases (hT p k).1 hp with h | ⟨h, hk'⟩
      · exact i.gone p k h hk x hx
      · rw [hk'] at hk; exact absurd h5 (by simpa using hk)
    · intro p hp
      rw [hq]
      rcases i.loc p ((hA p).1 hp) with h2 | ⟨ok', h2⟩ | ⟨k, h2, h3⟩
      · exact .inl h2
      · exact .inr (.inl ⟨ok', (hD ok' p).2 h2⟩)
      · exact .inr (.inr ⟨k, (hT p k).2 (.inl h2), h3⟩)
  | giveUp pre r rest h1 h5 ht hq hr hu hs hl =>
    have hA : ∀ p, (Obs.accepted p ∈ w.log ↔ Obs.accepted p ∈ v.log) := by
      intro p; rw [hl]; simp
    have hD : ∀ ok' p, (Obs.done ok' p ∈ w.log ↔ Obs.done ok' p ∈ v.log) := by
      intro ok' p; rw [hl]; simp
    have hT : ∀ p k, (Obs.timedOut p k ∈ w.log ↔ Obs.timedOut p k ∈ v.log ∨ (p = r.pkt ∧ k = r.retry + 1)) := by
      intro p k; rw [hl]; simp
    have hdn : doneUids w.log = doneUids v.log := by
      rw [hl, doneUids_append]; exact List.append_nil _
    have hnt : ∀ u, numTO u w.log = numTO u v.log + (if r.pkt.uid = u then 1 else 0) := by
      intro u; rw [hl, numTO_append]
      congr 1
      unfold numTO
      rw [List.countP_singleton]
      by_cases h : r.pkt.uid = u <;> simp [Obs.isTimeout, h]
    have hrm : r ∈ v.recs := by rw [h1]; exact List.mem_append_right _ List.mem_cons_self
    have hpw := i.recSorted
    rw [h1] at hpw
    have hne : ∀ x ∈ pre ++ rest, x.pkt.uid ≠ r.pkt.uid := by
      intro x hx
      rw [List.pairwise_append] at hpw
      rcases List.mem_append.1 hx with h | h
      · exact (hpw.2.2 x h r List.mem_cons_self).ne
      · exact ((List.pairwise_cons.1 hpw.2.1).1 x h).ne'
    have hmemW : ∀ x ∈ w.recs, x = { r with retry := r.retry + 1 } ∨ (x ∈ v.recs ∧ x.pkt.uid ≠ r.pkt.uid) := by
      rw [hr]; intro x hx
      rcases List.mem_append.1 hx with h | h
      · exact .inr ⟨by rw [h1]; exact List.mem_append_left _ h, hne x (List.mem_append_left _ h)⟩
      · rcases List.mem_cons.1 h with h | h
        · exact .inl h
        · exact .inr ⟨by rw [h1]; exact List.mem_append_right _ (List.mem_cons_of_mem _ h),
            hne x (List.mem_append_right _ h)⟩
    have hcnt : r.retry + 1 = UInt16.ofNat (numTO r.pkt.uid v.log + 1) := by
      rw [i.cnt r hrm, UInt16.ofNat_add]; rfl
    constructor
    · rw [hs, hu]; exact i.seqEq
    · rw [hu]; intro x hx
      rcases hmemW x hx with h | h
      · rw [h]; exact i.recLt r hrm
      · exact i.recLt x h.1
    · rw [hr]
      rw [List.pairwise_append, List.pairwise_cons] at hpw ⊢
      exact ⟨hpw.1, hpw.2.1, fun a ha b' hb' => by
        rcases List.mem_cons.1 hb' with h | h
        · rw [h]; exact hpw.2.2 a ha r List.mem_cons_self
        · exact hpw.2.2 a ha b' (List.mem_cons_of_mem _ h)⟩
    · rw [hq, hu]; exact fun x hx => i.qLt x (List.mem_filter.1 hx).1
    · rw [hq]; exact i.qSorted.sublist List.filter_sublist
    · rw [hu]; simp only [hA]; exact i.accLt
    · simp only [hA]; exact i.accUniq
    · intro ok' p hp
      obtain ⟨h2, h3⟩ := i.doneGone ok' p ((hD ok' p).1 hp)
      refine ⟨(hA p).2 h2, ?_⟩
      intro x hx
      rcases hmemW x hx with h | h
      · rw [h]; exact h3 r hrm
      · exact h3 x h.1
    · rw [hdn]; exact i.doneNodup
    · intro p k hp
      rw [hnt, hA]
      rcases (hT p k).1 hp with h | ⟨h, hk⟩
      · exact ⟨(i.tout p k h).1, (i.tout p k h).2.trans (Nat.le_add_right _ _)⟩
      · rw [h]
        refine ⟨(hb.recs r hrm).1, ?_⟩
        rw [hk, hcnt, if_pos rfl]
        rw [UInt16.toNat_ofNat']
        exact Nat.mod_le _ _
    · intro x hx
      rw [hnt]
      rcases hmemW x hx with h | h
      · rw [h, if_pos rfl]; exact hcnt
      · rw [if_neg (fun he => h.2 he.symm)]; exact i.cnt x h.1
    · intro p hp
      rcases i.kept p ((hA p).1 hp) with ⟨x, h2, h3⟩ | ⟨ok', h2⟩
      · left
        rw [hr]
        rw [h1] at h2
        rcases List.mem_append.1 h2 with h | h
        · exact ⟨x, List.mem_append_left _ h, h3⟩
        · rcases List.mem_cons.1 h with h | h
          · exact ⟨_, List.mem_append_right _ List.mem_cons_self, by rw [← h3, h]⟩
          · exact ⟨x, List.mem_append_right _ (List.mem_cons_of_mem _ h), h3⟩
      · exact .inr ⟨ok', (hD ok' p).2 h2⟩
    · intro p k hp hk x hx
      rw [hq] at hx
      obtain ⟨hx1, hx2⟩ := List.mem_filter.1 hx
      rcases (hT p k).1 hp with h | ⟨h, hk'⟩
      · exact i.gone p k h hk x hx1
      · rw [h]; simpa using hx2
    · intro p hp
      have hp' := (hA p).1 hp
      rcases i.loc p hp' with h2 | ⟨ok', h2⟩ | ⟨k, h2, h3⟩
      · by_cases he : p.uid = r.pkt.uid
        · have : p = r.pkt := i.accUniq _ _ hp' (hb.recs r hrm).1 he
          exact .inr (.inr ⟨r.retry + 1, (hT _ _).2 (.inr ⟨this, rfl⟩), h5⟩)
        · left
          rw [hq]; exact List.mem_filter.2 ⟨h2, by simpa using he⟩
      · exact .inr (.inl ⟨ok', (hD ok' p).2 h2⟩)
      · exact .inr (.inr ⟨k, (hT p k).2 (.inl h2), h3⟩)

theorem PkInv.after (c : Cfg) (me : Mac48) (seq0 : UInt16) (ops : List Op) :
    PkInv seq0 (after c me seq0 ops).sv :=
  inv_after c me seq0 (.init seq0) (fun _ _ hb i h => i.mi hb h) ops

/-- Sequence numbers of packets identify them as long as at most 65536 packets were accepted. -/
theorem PkInv.seq_inj {seq0 : UInt16} {v : SV} (i : PkInv seq0 v) (hn : v.nextUid ≤ 65536) {p p' : Pkt}
    (h : Obs.accepted p ∈ v.log) (h' : Obs.accepted p' ∈ v.log) (he : p.seq = p'.seq) : p = p' := by
  obtain ⟨h1, h2⟩ := i.accLt p h
  obtain ⟨h3, h4⟩ := i.accLt p' h'
  rw [h2, h4] at he
  have h5 : UInt16.ofNat (p.uid + 1) = UInt16.ofNat (p'.uid + 1) := by
    simpa only [UInt16.add_right_inj] using he
  have h6 : (p.uid + 1) % 65536 = (p'.uid + 1) % 65536 := by
    have := congrArg UInt16.toNat h5
    rwa [UInt16.toNat_ofNat', UInt16.toNat_ofNat'] at this
  exact i.accUniq p p' h h' (by omega)

/-! ## The number of accepted packets -/

/-- Number of packets accepted in a log. -/
def numAccepted (l : List Obs) : Nat := l.countP (fun o => match o with | .accepted _ => true | _ => false)

theorem numAccepted_append (a b : List Obs) : numAccepted (a ++ b) = numAccepted a + numAccepted b :=
  List.countP_append

theorem numAccepted_neutral {l : List Obs} (h : ∀ o ∈ l, Neutral o) : numAccepted l = 0 := by
  unfold numAccepted
  rw [List.countP_eq_zero]
  intro o ho
  have := h o ho
  cases o <;> first | exact this.elim | simp

theorem numAccepted_after (c : Cfg) (me : Mac48) (seq0 : UInt16) (ops : List Op) :
    numAccepted (after c me seq0 ops).log = (after c me seq0 ops).nextUid :=
  inv_after (I := fun v => numAccepted v.log = v.nextUid) c me seq0 rfl (fun v w _ i h => by
    cases h.eff with
    | silent l _ _ hu _ hl hn => rw [hl, hu, numAccepted_append, numAccepted_neutral hn]; exact i
    | accept b dst g t _ _ hu _ hl => rw [hl, hu, numAccepted_append, i]; rfl
    | settle ok pre r rest _ _ _ _ hu _ hl => rw [hl, hu, numAccepted_append]; exact i
    | charge pre r rest _ _ _ _ _ hu _ hl => rw [hl, hu, numAccepted_append]; exact i
    | giveUp pre r rest _ _ _ _ _ hu _ hl => rw [hl, hu, numAccepted_append]; exact i) ops

/-! ## The reasons for outcomes, and what is transmitted -/

/-- Why packets were reported as delivered or discarded, and where transmitted frames come from. -/
structure OutInv (me : Mac48) (v : SV) : Prop where
  data : ∀ f, Obs.handed f ∈ v.log → f.kind = .data → ∃ p, Obs.accepted p ∈ v.log ∧ f = dataFrame me p
  rts : ∀ f, Obs.handed f ∈ v.log → f.kind = .rts → ∃ p, Obs.accepted p ∈ v.log ∧ f = rtsFrame me p
  reason : ∀ ok p, Obs.done ok p ∈ v.log → DoneOK me v ok p.seq
  fifth : ∀ p, Obs.accepted p ∈ v.log → 5 ≤ numTO p.uid v.log → Obs.timedOut p 5 ∈ v.log

theorem OutInv.init (seq0 : UInt16) : OutInv me (init seq0).sv := by
  constructor <;> simp [Macro.init, St.sv]

theorem Src.known {v : SV} {p : Pkt} (h : Src v p) (b : Basic c me v) : Known v p := by
  rcases h with h | ⟨r, h, rfl⟩ | h | h
  · exact b.queue p h
  · exact (b.recs r h).1
  · exact b.pktData p h
  · exact h

/-- Only frames of accepted packets are handed over, beside CTS and ACK. -/
theorem Mi.handed {v w : SV} (h : Mi c me A v w) (hb : Basic c me v) {f : Frame} (hf : Obs.handed f ∈ w.log) :
    Obs.handed f ∈ v.log ∨ (∃ p, Known v p ∧ f = dataFrame me p) ∨ (∃ p, Known v p ∧ f = rtsFrame me p) ∨
      f.kind = .cts ∨ f.kind = .ack := by
  cases h with
  | handRts p h1 _ _ _ =>
    rcases List.mem_append.1 hf with h | h
    · exact .inl h
    · have e : f = rtsFrame me p := Obs.handed.inj (List.mem_singleton.1 h)
      exact .inr (.inr (.inl ⟨p, hb.queue p (List.mem_of_mem_head? h1), e⟩))
  | handData p h1 _ _ =>
    rcases List.mem_append.1 hf with h | h
    · exact .inl h
    · have e : f = dataFrame me p := Obs.handed.inj (List.mem_singleton.1 h)
      rcases h1 with h1 | h1
      · exact .inr (.inl ⟨p, hb.queue p (List.mem_of_mem_head? h1), e⟩)
      · exact .inr (.inl ⟨p, h1.2.known hb, e⟩)
  | handBcast p h1 _ _ =>
    rcases List.mem_append.1 hf with h | h
    · exact .inl h
    · have e : f = dataFrame me p := Obs.handed.inj (List.mem_singleton.1 h)
      rcases h1 with h1 | h1
      · exact .inr (.inl ⟨p, hb.queue p (List.mem_of_mem_head? h1), e⟩)
      · exact .inr (.inl ⟨p, h1.2.known hb, e⟩)
  | handCts d t q _ _ =>
    rcases List.mem_append.1 hf with h | h
    · exact .inl h
    · have e : f = ctsFrame c me d t q := Obs.handed.inj (List.mem_singleton.1 h)
      rw [e]; exact .inr (.inr (.inr (.inl rfl)))
  | handAck d q _ _ =>
    rcases List.mem_append.1 hf with h | h
    · exact .inl h
    · have e : f = ackFrame me d q := Obs.handed.inj (List.mem_singleton.1 h)
      rw [e]; exact .inr (.inr (.inr (.inr rfl)))
  | note o ho =>
    rcases List.mem_append.1 hf with h | h
    · exact .inl h
    · rw [← List.mem_singleton.1 h] at ho; exact ho.elim
  | fwd g _ _ _ =>
    unfold SV.fwd at hf
    dsimp only at hf
    split at hf
    · rcases List.mem_append.1 hf with h | h
      · exact .inl h
      · cases List.mem_singleton.1 h
    · exact .inl hf
  | rx g _ =>
    rcases List.mem_append.1 hf with h | h
    · exact .inl h
    · cases List.mem_singleton.1 h
  | accept b dst g t _ =>
    rcases List.mem_append.1 hf with h | h
    · exact .inl h
    · cases List.mem_singleton.1 h
  | txEnd t g _ =>
    rcases List.mem_append.1 hf with h | h
    · exact .inl h
    · cases List.mem_singleton.1 h
  | settle ok q pre r rest _ _ _ _ =>
    rcases List.mem_append.1 hf with h | h
    · exact .inl h
    · cases List.mem_singleton.1 h
  | charge q pre r rest _ _ _ _ =>
    rcases List.mem_append.1 hf with h | h
    · exact .inl h
    · cases List.mem_singleton.1 h
  | giveUp q pre r rest _ _ _ _ =>
    rcases List.mem_append.1 hf with h | h
    · exact .inl h
    · cases List.mem_singleton.1 h
  | benign e _ => exact .inl hf
  | bo => exact .inl hf
  | dropBo => exact .inl hf
  | pktData p _ => exact .inl hf
  | pop t e _ _ => exact .inl hf
  | eraseCts q => exact .inl hf
  | eraseAck q => exact .inl hf
  | cts d t q _ => exact .inl hf
  | ack d q _ => exact .inl hf
  | ackIn t q _ _ => exact .inl hf
  | ctsIn t p q _ _ => exact .inl hf

theorem OutInv.mi {seq0 : UInt16} {v w : SV} (hb : Basic c me v) (k : PkInv seq0 v) (i : OutInv me v)
    (h : Mi c me A v w) : OutInv me w := by
  have hlog : ∃ l, w.log = v.log ++ l := h.log
  have hmem : ∀ o, o ∈ v.log → o ∈ w.log := fun o ho => by
    obtain ⟨l, hl⟩ := hlog; rw [hl]; exact List.mem_append_left _ ho
  refine ⟨?_, ?_, ?_, ?_⟩
  · intro f hf hk
    rcases h.handed hb hf with h1 | ⟨p, h1, h2⟩ | ⟨p, h1, h2⟩ | h1 | h1
    · obtain ⟨p, h2, h3⟩ := i.data f h1 hk
      exact ⟨p, hmem _ h2, h3⟩
    · exact ⟨p, hmem _ h1, h2⟩
    · rw [h2] at hk; cases hk
    · rw [h1] at hk; cases hk
    · rw [h1] at hk; cases hk
  · intro f hf hk
    rcases h.handed hb hf with h1 | ⟨p, h1, h2⟩ | ⟨p, h1, h2⟩ | h1 | h1
    · obtain ⟨p, h2, h3⟩ := i.rts f h1 hk
      exact ⟨p, hmem _ h2, h3⟩
    · rw [h2] at hk; cases hk
    · exact ⟨p, hmem _ h1, h2⟩
    · rw [h1] at hk; cases hk
    · rw [h1] at hk; cases hk
  · intro ok p hp
    cases h.eff with
    | silent l _ _ _ _ hl hn =>
      rw [hl] at hp
      rcases List.mem_append.1 hp with h1 | h1
      · exact (i.reason ok p h1).mono hlog
      · exact (hn _ h1).elim
    | accept b dst g t _ _ _ _ hl =>
      rw [hl] at hp
      rcases List.mem_append.1 hp with h1 | h1
      · exact (i.reason ok p h1).mono hlog
      · cases List.mem_singleton.1 h1
    | settle ok' pre r rest h1 hd _ _ _ _ hl =>
      rw [hl] at hp
      rcases List.mem_append.1 hp with h2 | h2
      · exact (i.reason ok p h2).mono hlog
      · have h3 := List.mem_singleton.1 h2
        have h4 : ok = ok' ∧ p = r.pkt := by cases h3; exact ⟨rfl, rfl⟩
        have hr : r ∈ v.recs := by rw [h1]; exact List.mem_append_right _ List.mem_cons_self
        rw [h4.1, h4.2, ← (hb.recs r hr).2]
        exact hd.mono hlog
    | charge pre r rest _ _ _ _ _ _ _ hl =>
      rw [hl] at hp
      rcases List.mem_append.1 hp with h2 | h2
      · exact (i.reason ok p h2).mono hlog
      · cases List.mem_singleton.1 h2
    | giveUp pre r rest _ _ _ _ _ _ _ hl =>
      rw [hl] at hp
      rcases List.mem_append.1 hp with h2 | h2
      · exact (i.reason ok p h2).mono hlog
      · cases List.mem_singleton.1 h2
  · intro p hp h5
    have charged : ∀ (pre rest : List Rec) (r : Rec), v.recs = pre ++ r :: rest →
        w.log = v.log ++ [.timedOut r.pkt (r.retry + 1)] → Obs.timedOut p 5 ∈ w.log := by
      intro pre rest r h1 hl
      have hr : r ∈ v.recs := by rw [h1]; exact List.mem_append_right _ List.mem_cons_self
      have hp' : Obs.accepted p ∈ v.log := by
        rw [hl] at hp
        rcases List.mem_append.1 hp with h | h
        · exact h
        · cases List.mem_singleton.1 h
      have hn : numTO p.uid w.log = numTO p.uid v.log + (if r.pkt.uid = p.uid then 1 else 0) := by
        rw [hl, numTO_append]
        congr 1
        unfold numTO
        rw [List.countP_singleton]
        by_cases h : r.pkt.uid = p.uid <;> simp [Obs.isTimeout, h]
      by_cases he : r.pkt.uid = p.uid
      · rw [if_pos he] at hn
        by_cases h4 : numTO p.uid v.log = 4
        · have hq : r.pkt = p := k.accUniq _ _ (hb.recs r hr).1 hp' he
          have hc := k.cnt r hr
          rw [hq, h4] at hc
          rw [hl, hq, hc]
          exact List.mem_append_right _ (List.mem_singleton.2 rfl)
        · exact hmem _ (i.fifth p hp' (by omega))
      · rw [if_neg he] at hn
        exact hmem _ (i.fifth p hp' (by omega))
    cases h.eff with
    | silent l _ _ _ _ hl hn =>
      have hp' : Obs.accepted p ∈ v.log := by
        rw [hl] at hp
        rcases List.mem_append.1 hp with h1 | h1
        · exact h1
        · exact (hn _ h1).elim
      rw [hl, numTO_append, numTO_neutral hn] at h5
      exact hmem _ (i.fifth p hp' h5)
    | accept b dst g t _ _ _ _ hl =>
      have hn : numTO p.uid w.log = numTO p.uid v.log := by rw [hl, numTO_append]; rfl
      rw [hn] at h5
      rw [hl] at hp
      rcases List.mem_append.1 hp with h1 | h1
      · exact hmem _ (i.fifth p h1 h5)
      · have he : p.uid = v.nextUid := by cases List.mem_singleton.1 h1; rfl
        exfalso
        have : numTO p.uid v.log = 0 := by
          unfold numTO
          rw [List.countP_eq_zero]
          intro o ho
          cases o with
          | timedOut p' k' =>
            have := (k.accLt p' (k.tout p' k' ho).1).1
            simp only [Obs.isTimeout]
            intro hh
            have := of_decide_eq_true hh
            omega
          | _ => simp [Obs.isTimeout]
        omega
    | settle ok' pre r rest h1 hd _ _ _ _ hl =>
      have hn : numTO p.uid w.log = numTO p.uid v.log := by rw [hl, numTO_append]; rfl
      rw [hn] at h5
      rw [hl] at hp
      rcases List.mem_append.1 hp with h1 | h1
      · exact hmem _ (i.fifth p h1 h5)
      · cases List.mem_singleton.1 h1
    | charge pre r rest h1 _ _ _ _ _ _ hl => exact charged pre rest r h1 hl
    | giveUp pre r rest h1 _ _ _ _ _ _ hl => exact charged pre rest r h1 hl

theorem OutInv.after (c : Cfg) (me : Mac48) (seq0 : UInt16) (ops : List Op) :
    OutInv me (after c me seq0 ops).sv :=
  (inv_after (I := fun v => PkInv seq0 v ∧ OutInv me v) c me seq0 ⟨.init seq0, .init seq0⟩
    (fun _ _ hb i h => ⟨i.1.mi hb h, i.2.mi hb i.1 h⟩) ops).2

/-! ## Transmissions do not overlap -/

/-- What a micro-step does to the transmitter. -/
inductive PEff (v w : SV) : Prop
  | quiet (l : List Obs) : w.phyTx = v.phyTx → v.nextTid ≤ w.nextTid →
      (∀ e ∈ w.pend, e ∈ v.pend ∨ (v.nextTid ≤ e.1 ∧ e.1 < w.nextTid ∧ ∀ f, e.2 ≠ .phyDone f)) →
      w.log = v.log ++ l → l.length ≤ 1 → (∀ f, Obs.handed f ∉ l) → (∀ f, Obs.txEnd f ∉ l) → PEff v w
  | hand (f : Frame) : v.phyTx = none → w.phyTx = some f → v.nextTid < w.nextTid →
      (∀ e ∈ w.pend, e ∈ v.pend ∨ e = (v.nextTid, .phyDone f) ∨
        (v.nextTid ≤ e.1 ∧ e.1 < w.nextTid ∧ ∀ f, e.2 ≠ .phyDone f)) →
      w.log = v.log ++ [.handed f] → PEff v w
  | txEnd (t : Nat) (f : Frame) : (t, Ev.phyDone f) ∈ v.pend → w.phyTx = none → w.nextTid = v.nextTid →
      w.pend = v.pend.filter (fun e => e.1 ≠ t) → w.log = v.log ++ [.txEnd f] → PEff v w

theorem push_pend {v : SV} {e : Ev} (he : ∀ f, e ≠ .phyDone f) :
    ∀ x ∈ (v.push e).pend, x ∈ v.pend ∨ (v.nextTid ≤ x.1 ∧ x.1 < (v.push e).nextTid ∧ ∀ f, x.2 ≠ .phyDone f) := by
  intro x hx
  rcases List.mem_append.1 hx with h | h
  · exact .inl h
  · rw [List.mem_singleton.1 h]
    exact .inr ⟨le_refl _, Nat.lt_succ_self _, he⟩

theorem push_drop_pend {v : SV} {t : Nat} {e : Ev} (he : ∀ f, e ≠ .phyDone f) :
    ∀ x ∈ ((v.drop t).push e).pend, x ∈ v.pend ∨
      (v.nextTid ≤ x.1 ∧ x.1 < ((v.drop t).push e).nextTid ∧ ∀ f, x.2 ≠ .phyDone f) := by
  intro x hx
  rcases push_pend (v := v.drop t) he x hx with h | h
  · exact .inl (List.mem_filter.1 h).1
  · exact .inr h

theorem hand_pend {v : SV} {f : Frame} :
    ∀ x ∈ (v.hand f).pend, x ∈ v.pend ∨ x = (v.nextTid, .phyDone f) ∨
      (v.nextTid ≤ x.1 ∧ x.1 < (v.hand f).nextTid ∧ ∀ f, x.2 ≠ .phyDone f) := by
  intro x hx
  rcases List.mem_append.1 hx with h | h
  · exact .inl h
  · exact .inr (.inl (List.mem_singleton.1 h))

theorem hand_push_pend {v : SV} {f : Frame} {e : Ev} (he : ∀ f, e ≠ .phyDone f) :
    ∀ x ∈ ((v.hand f).push e).pend, x ∈ v.pend ∨ x = (v.nextTid, .phyDone f) ∨
      (v.nextTid ≤ x.1 ∧ x.1 < ((v.hand f).push e).nextTid ∧ ∀ f, x.2 ≠ .phyDone f) := by
  intro x hx
  rcases push_pend (v := v.hand f) he x hx with h | h
  · rcases hand_pend x h with h | h | h
    · exact .inl h
    · exact .inr (.inl h)
    · exact .inr (.inr ⟨h.1, Nat.lt_succ_of_lt h.2.1, h.2.2⟩)
  · exact .inr (.inr ⟨(Nat.le_succ _).trans h.1, h.2⟩)

theorem Mi.peff {v w : SV} (h : Mi c me A v w) : PEff v w := by
  have nil : ∀ {v w : SV}, w.log = v.log → w.log = v.log ++ [] := fun h => h.trans (List.append_nil _).symm
  cases h with
  | benign e he =>
    refine .quiet [] rfl (Nat.le_succ _) (push_pend ?_) (nil rfl) (by simp) (by simp) (by simp)
    intro f hf; rw [hf] at he; exact he
  | bo => exact .quiet [] rfl (Nat.le_succ _) (push_pend (by simp)) (nil rfl) (by simp) (by simp) (by simp)
  | dropBo =>
    exact .quiet [] rfl (le_refl _) (fun e he => .inl (List.mem_filter.1 he).1) (nil rfl) (by simp) (by simp)
      (by simp)
  | note o ho =>
    refine .quiet [o] rfl (le_refl _) (fun e he => .inl he) rfl (by simp) ?_ ?_
    · intro f hf; rw [← List.mem_singleton.1 hf] at ho; exact ho
    · intro f hf; rw [← List.mem_singleton.1 hf] at ho; exact ho
  | rx f _ => exact .quiet [.rx f] rfl (le_refl _) (fun e he => .inl he) rfl (by simp) (by simp) (by simp)
  | pktData p _ =>
    exact .quiet [] rfl (le_refl _) (fun e he => .inl he) (nil rfl) (by simp) (by simp) (by simp)
  | accept b dst g t _ =>
    exact .quiet [.accepted ⟨v.nextUid, v.seq + 1, dst, g, b⟩] rfl (Nat.le_succ _)
      (push_pend (v := { v with
            seq := v.seq + 1, nextUid := v.nextUid + 1
            queue := v.queue ++ [⟨v.nextUid, v.seq + 1, dst, g, b⟩]
            recs := v.recs ++ [⟨v.seq + 1, t, UInt16.ofNat (b.size + 17), 0,
              ⟨v.nextUid, v.seq + 1, dst, g, b⟩⟩]
            pktData := some ⟨v.nextUid, v.seq + 1, dst, g, b⟩ }) (e := .cca) (by simp))
      rfl (by simp) (by simp) (by simp)
  | handRts p _ _ _ h =>
    exact .hand (rtsFrame me p) h rfl (Nat.lt_succ_of_lt (Nat.lt_succ_self _))
      (hand_push_pend (e := .ctsTimeout p.seq) (by simp)) rfl
  | handData p _ _ h =>
    exact .hand (dataFrame me p) h rfl (Nat.lt_succ_of_lt (Nat.lt_succ_self _))
      (hand_push_pend (e := .ackTimeout p.seq) (by simp)) rfl
  | handBcast p _ _ h => exact .hand (dataFrame me p) h rfl (Nat.lt_succ_self _) hand_pend rfl
  | handCts d t q _ h => exact .hand (ctsFrame c me d t q) h rfl (Nat.lt_succ_self _) hand_pend rfl
  | handAck d q _ h => exact .hand (ackFrame me d q) h rfl (Nat.lt_succ_self _) hand_pend rfl
  | txEnd t f h => exact .txEnd t f h rfl rfl rfl rfl
  | pop t e _ _ =>
    exact .quiet [] rfl (le_refl _) (fun e he => .inl (List.mem_filter.1 he).1) (nil rfl) (by simp) (by simp)
      (by simp)
  | settle ok q pre r rest _ _ _ _ =>
    exact .quiet [.done ok r.pkt] rfl (Nat.le_succ _) (push_pend (e := .results) (by simp)) rfl (by simp) (by simp)
      (by simp)
  | charge q pre r rest _ _ _ _ =>
    exact .quiet [.timedOut r.pkt (r.retry + 1)] rfl (Nat.le_succ _) (push_pend (e := .cca) (by simp)) rfl
      (by simp) (by simp) (by simp)
  | giveUp q pre r rest _ _ _ _ =>
    exact .quiet [.timedOut r.pkt (r.retry + 1)] rfl (Nat.le_succ _)
      (push_pend (e := .sendDataDone false q) (by simp)) rfl (by simp) (by simp) (by simp)
  | eraseCts q => exact .quiet [] rfl (le_refl _) (fun e he => .inl he) (nil rfl) (by simp) (by simp) (by simp)
  | eraseAck q => exact .quiet [] rfl (le_refl _) (fun e he => .inl he) (nil rfl) (by simp) (by simp) (by simp)
  | cts d t q _ =>
    exact .quiet [] rfl (Nat.le_succ _) (push_pend (by simp)) (nil rfl) (by simp) (by simp) (by simp)
  | ack d q _ =>
    exact .quiet [] rfl (Nat.le_succ _) (push_pend (by simp)) (nil rfl) (by simp) (by simp) (by simp)
  | ackIn t q _ _ =>
    exact .quiet [] rfl (Nat.le_succ _) (push_drop_pend (t := t.tid) (e := .sendDataDone true q) (by simp))
      (nil rfl) (by simp) (by simp) (by simp)
  | ctsIn t p q _ _ =>
    exact .quiet [] rfl (Nat.le_succ _) (push_drop_pend (t := t.tid) (e := .sendData p) (by simp))
      (nil rfl) (by simp) (by simp) (by simp)
  | fwd f _ _ _ =>
    unfold SV.fwd
    dsimp only
    split
    · exact .quiet [.up f.body f.src f.dst f.seq] rfl (le_refl _) (fun e he => .inl he) rfl (by simp) (by simp)
        (by simp)
    · exact .quiet [] rfl (le_refl _) (fun e he => .inl he) (nil rfl) (by simp) (by simp) (by simp)

/-- Splitting a list with one element added at the end. -/
theorem snoc_split {α : Type} {L l1 l2 : List α} {o x : α} (h : L ++ [o] = l1 ++ x :: l2) :
    (l2 = [] ∧ x = o ∧ l1 = L) ∨ ∃ l2', l2 = l2' ++ [o] ∧ L = l1 ++ x :: l2' := by
  rcases List.eq_nil_or_concat l2 with rfl | ⟨l2', y, rfl⟩
  · left
    have h' : L ++ [o] = l1 ++ [x] := h
    have := List.append_inj' h' rfl
    exact ⟨rfl, (List.singleton_inj.1 this.2).symm, this.1.symm⟩
  · right
    refine ⟨l2', ?_⟩
    have h' : L ++ [o] = (l1 ++ x :: l2') ++ [y] := by rw [h]; simp
    have := List.append_inj' h' rfl
    have hy := List.singleton_inj.1 this.2
    rw [hy]
    exact ⟨by simp, this.1⟩

/-- The transmitter carries one frame at a time. -/
structure PhyInv (v : SV) : Prop where
  tid : ∀ e ∈ v.pend, e.1 < v.nextTid
  one : ∀ t f, (t, Ev.phyDone f) ∈ v.pend → v.phyTx = some f
  uniq : ∀ t f t' f', (t, Ev.phyDone f) ∈ v.pend → (t', Ev.phyDone f') ∈ v.pend → t = t'
  last : ∀ l1 f l2, v.log = l1 ++ Obs.handed f :: l2 → Obs.txEnd f ∈ l2 ∨ v.phyTx = some f
  apart : ∀ l1 f l2 g l3, v.log = l1 ++ Obs.handed f :: (l2 ++ Obs.handed g :: l3) → Obs.txEnd f ∈ l2

theorem PhyInv.init (seq0 : UInt16) : PhyInv (init seq0).sv := by
  constructor <;> simp [Macro.init, St.sv]

theorem PhyInv.mi {v w : SV} (i : PhyInv v) (h : Mi c me A v w) : PhyInv w := by
  cases h.peff with
  | quiet l hp ht he hl hlen hh hx =>
    have hold : ∀ t f, (t, Ev.phyDone f) ∈ w.pend → (t, Ev.phyDone f) ∈ v.pend := by
      intro t f hf
      rcases he _ hf with h | h
      · exact h
      · exact absurd rfl (h.2.2 f)
    have hcase : l = [] ∨ ∃ o, l = [o] := by
      match l, hlen with
      | [], _ => exact .inl rfl
      | [o], _ => exact .inr ⟨o, rfl⟩
    constructor
    · intro e hm
      rcases he e hm with h | h
      · exact (i.tid e h).trans_le ht
      · exact h.2.1
    · intro t f hf; rw [hp]; exact i.one t f (hold t f hf)
    · intro t f t' f' h1 h2; exact i.uniq t f t' f' (hold _ _ h1) (hold _ _ h2)
    · intro l1 f l2 h1
      rw [hl] at h1
      rw [hp]
      rcases hcase with rfl | ⟨o, rfl⟩
      · rw [List.append_nil] at h1; exact i.last l1 f l2 h1
      · rcases snoc_split h1 with ⟨_, h2, _⟩ | ⟨l2', h2, h3⟩
        · exact absurd (List.mem_singleton.2 h2) (hh f)
        · rcases i.last l1 f l2' h3 with h | h
          · exact .inl (by rw [h2]; exact List.mem_append_left _ h)
          · exact .inr h
    · intro l1 f l2 g l3 h1
      rw [hl] at h1
      rcases hcase with rfl | ⟨o, rfl⟩
      · rw [List.append_nil] at h1; exact i.apart l1 f l2 g l3 h1
      · have h1' : v.log ++ [o] = (l1 ++ Obs.handed f :: l2) ++ Obs.handed g :: l3 := by rw [h1]; simp
        rcases snoc_split h1' with ⟨_, h2, _⟩ | ⟨l3', h2, h3⟩
        · exact absurd (List.mem_singleton.2 h2) (hh g)
        · exact i.apart l1 f l2 g l3' (by rw [h3]; simp)
  | hand f hv hp ht he hl =>
    have hold : ∀ t g, (t, Ev.phyDone g) ∈ w.pend → t = v.nextTid ∧ g = f := by
      intro t g hf
      rcases he _ hf with h | h | h
      · have := i.one t g h
        rw [hv] at this; cases this
      · exact ⟨congrArg Prod.fst h, Ev.phyDone.inj (congrArg Prod.snd h)⟩
      · exact absurd rfl (h.2.2 g)
    constructor
    · intro e hm
      rcases he e hm with h | h | h
      · exact (i.tid e h).trans ht
      · rw [h]; exact ht
      · exact h.2.1
    · intro t g hf; rw [hp, (hold t g hf).2]
    · intro t g t' g' h1 h2; rw [(hold _ _ h1).1, (hold _ _ h2).1]
    · intro l1 g l2 h1
      rw [hl] at h1
      rcases snoc_split h1 with ⟨_, h2, _⟩ | ⟨l2', h2, h3⟩
      · right; rw [hp, Obs.handed.inj h2]
      · rcases i.last l1 g l2' h3 with h | h
        · exact .inl (by rw [h2]; exact List.mem_append_left _ h)
        · rw [hv] at h; cases h
    · intro l1 g l2 g' l3 h1
      rw [hl] at h1
      have h1' : v.log ++ [.handed f] = (l1 ++ Obs.handed g :: l2) ++ Obs.handed g' :: l3 := by rw [h1]; simp
      rcases snoc_split h1' with ⟨_, _, h3⟩ | ⟨l3', _, h3⟩
      · rcases i.last l1 g l2 h3.symm with h | h
        · exact h
        · rw [hv] at h; cases h
      · exact i.apart l1 g l2 g' l3' (by rw [h3]; simp)
  | txEnd t f hm hp ht he hl =>
    have hf := i.one t f hm
    have hno : ∀ t' g, (t', Ev.phyDone g) ∉ w.pend := by
      intro t' g hg
      rw [he] at hg
      obtain ⟨h1, h2⟩ := List.mem_filter.1 hg
      have := i.uniq _ _ _ _ h1 hm
      simp [this] at h2
    constructor
    · intro e hm'
      rw [he] at hm'
      rw [ht]; exact i.tid e (List.mem_filter.1 hm').1
    · intro t' g hg; exact absurd hg (hno t' g)
    · intro t' g t'' g' hg; exact absurd hg (hno t' g)
    · intro l1 g l2 h1
      rw [hl] at h1
      rcases snoc_split h1 with ⟨_, h2, _⟩ | ⟨l2', h2, h3⟩
      · cases h2
      · left
        rcases i.last l1 g l2' h3 with h | h
        · rw [h2]; exact List.mem_append_left _ h
        · rw [hf] at h
          rw [h2, Option.some.inj h]
          exact List.mem_append_right _ (List.mem_singleton.2 rfl)
    · intro l1 g l2 g' l3 h1
      rw [hl] at h1
      have h1' : v.log ++ [.txEnd f] = (l1 ++ Obs.handed g :: l2) ++ Obs.handed g' :: l3 := by rw [h1]; simp
      rcases snoc_split h1' with ⟨_, h2, _⟩ | ⟨l3', _, h3⟩
      · cases h2
      · exact i.apart l1 g l2 g' l3' (by rw [h3]; simp)

theorem PhyInv.after (c : Cfg) (me : Mac48) (seq0 : UInt16) (ops : List Op) :
    PhyInv (after c me seq0 ops).sv :=
  inv_after c me seq0 (.init seq0) (fun _ _ _ i h => i.mi h) ops

end Thz.Macro
