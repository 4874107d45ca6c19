import Verif.ClientStep

/-! # Invariants of the client: reasons, packets, outcomes, back-off -/

namespace Thz.Client

open Thz Thz.Central
open Thz.Nano (Body Kind bcast)

variable {c : Cfg} {me : Mac48} {T : Prop} {K : Ev → Prop}

/-! ## Every observation has its reason in the log before it -/

/-- A property of every observation together with the log before it. -/
def Hist (P : List Obs → Obs → Prop) (l : List Obs) : Prop := ∀ l1 o l2, l = l1 ++ o :: l2 → P l1 o

theorem Hist.nil (P : List Obs → Obs → Prop) : Hist P [] := by
  intro l1 o l2 h; simp at h

theorem Hist.snoc {P : List Obs → Obs → Prop} {l : List Obs} {o : Obs} (h : Hist P l) (ho : P l o) :
    Hist P (l ++ [o]) := by
  intro l1 o' l2 he
  rcases List.eq_nil_or_concat l2 with h2 | ⟨l3, x, h2⟩
  · subst h2
    have := List.append_inj' he rfl
    rw [← this.1, ← (List.cons.inj this.2).1]; exact ho
  · subst h2
    have he' : l ++ [o] = (l1 ++ o' :: l3) ++ [x] := by rw [he]; simp
    exact h l1 o' l3 (List.append_inj' he' rfl).1

theorem Hist.snoc2 {P : List Obs → Obs → Prop} {l : List Obs} {o o' : Obs} (h : Hist P l) (ho : P l o)
    (ho' : P (l ++ [o]) o') : Hist P (l ++ [o, o']) := by
  have := (h.snoc ho).snoc ho'
  rwa [List.append_assoc] at this

/-- Is this a timeout charged to the packet? -/
def Obs.isTimeout (u : Nat) : Obs → Bool
  | .timedOut p _ => p.uid = u
  | _ => false

/-- The number of timeouts charged to a packet. -/
def numTO (u : Nat) (l : List Obs) : Nat := l.countP (Obs.isTimeout u)

theorem numTO_append (u : Nat) (a b : List Obs) : numTO u (a ++ b) = numTO u a + numTO u b :=
  List.countP_append

/-- The reasons. -/
def Just (c : Cfg) (me : Mac48) (T : Prop) (l : List Obs) : Obs → Prop
  | .handed t f => HandWhy c me T l t f
  | .done ok p => DoneWhy me l ok p.seq ∧ Open l p
  | .timedOut p k => Tried c me l p.seq ∧ k = UInt16.ofNat (numTO p.uid l + 1) ∧ Open l p
  | .gaveUp _ p => Open l p ∧ ∃ k, Obs.timedOut p k ∈ l ∧ (c.rtsRetryLimit ≤ k ∨ c.dataRetryLimit ≤ k) ∧
      k = UInt16.ofNat (numTO p.uid l)
  | _ => True

/-- Every observation has its reason; the retry count of a record is the number of timeouts charged. -/
structure HInv (c : Cfg) (me : Mac48) (T : Prop) (v : V) : Prop where
  hist : Hist (Just c me T) v.log
  cnt : ∀ r ∈ v.recs, r.retry = UInt16.ofNat (numTO r.pkt.uid v.log)
  acc : ∀ p k, Obs.timedOut p k ∈ v.log → Obs.accepted p ∈ v.log

theorem HInv.init (seq0 last0 : UInt16) : HInv c me T (init seq0 last0).v :=
  ⟨Hist.nil _, by simp [Client.init, St.v], by simp [Client.init, St.v]⟩

theorem numTO_neutral {u : Nat} {l : List Obs} (h : ∀ o ∈ l, Neutral o) : numTO u l = 0 := by
  unfold numTO
  rw [List.countP_eq_zero]
  intro o ho
  have := h o ho
  cases o <;> first | exact this.elim | simp [Obs.isTimeout]

theorem numTO_fresh {v : V} (b : Basic c me v) (i : HInv c me T v) : numTO v.nextUid v.log = 0 := by
  unfold numTO
  rw [List.countP_eq_zero]
  intro o ho
  cases o with
  | timedOut p k =>
    have := b.accLt p (i.acc p k ho)
    simp only [Obs.isTimeout, decide_eq_true_eq]; omega
  | _ => simp [Obs.isTimeout]

theorem open_rec {v : V} (b : Basic c me v) {pre rest : List Rec} {r : Rec} (h : v.recs = pre ++ r :: rest) :
    Open v.log r.pkt := b.recIsOpen r (by rw [h]; simp)

theorem uid_ne {v : V} (b : Basic c me v) {pre rest : List Rec} {r : Rec} (h : v.recs = pre ++ r :: rest) :
    ∀ x ∈ pre ++ rest, x.pkt.uid ≠ r.pkt.uid := by
  have hs := b.recSorted
  rw [h, List.pairwise_append, List.pairwise_cons] at hs
  intro x hx
  rcases List.mem_append.1 hx with hx | hx
  · exact (hs.2.2 x hx r List.mem_cons_self).ne
  · exact (hs.2.1.1 x hx).ne'

/-- Charging a record: the counts stay right. -/
theorem cnt_charge {v : V} (b : Basic c me v) (i : HInv c me T v) {pre rest : List Rec} {r : Rec} (life : UInt16)
    (h : v.recs = pre ++ r :: rest) (l : List Obs) (hl : l = v.log ++ [.timedOut r.pkt (r.retry + 1)]) :
    ∀ x ∈ pre ++ { r with retry := r.retry + 1, life := life } :: rest, x.retry = UInt16.ofNat (numTO x.pkt.uid l) := by
  have hr := i.cnt r (by rw [h]; simp)
  intro x hx
  rw [hl, numTO_append]
  have hx' : x ∈ pre ++ rest ∨ x = { r with retry := r.retry + 1, life := life } := by
    simp only [List.mem_append, List.mem_cons] at hx ⊢; tauto
  rcases hx' with hx' | hx'
  · have h1 := uid_ne b h x hx'
    have h2 := i.cnt x (by rw [h]; simp only [List.mem_append, List.mem_cons] at hx' ⊢; tauto)
    have h3 : numTO x.pkt.uid [Obs.timedOut r.pkt (r.retry + 1)] = 0 := by
      unfold numTO; rw [List.countP_eq_zero]
      intro o ho; rw [List.mem_singleton.1 ho]
      simp only [Obs.isTimeout, decide_eq_true_eq]; exact fun e => h1 e.symm
    rw [h3]; exact h2
  · rw [hx']
    have h3 : numTO r.pkt.uid [Obs.timedOut r.pkt (r.retry + 1)] = 1 := by
      simp [numTO, Obs.isTimeout]
    show r.retry + 1 = UInt16.ofNat (numTO r.pkt.uid v.log + numTO r.pkt.uid [Obs.timedOut r.pkt (r.retry + 1)])
    rw [h3, UInt16.ofNat_add, ← hr]; rfl

theorem HInv.mi {v w : V} (b : Basic c me v) (i : HInv c me T v) (h : Mi c me T K v w) : HInv c me T w := by
  have b' := b.mi h
  constructor
  · cases h with
    | note o ho => exact i.hist.snoc (by cases o <;> first | exact ho.elim | trivial)
    | rx f => exact i.hist.snoc trivial
    | txEnd t due f _ _ => exact i.hist.snoc trivial
    | accept bd dst _ => exact i.hist.snoc trivial
    | handRts d f _ hw _ => exact i.hist.snoc hw
    | handData d a p hw _ => exact i.hist.snoc hw
    | settle ok pre r rest h1 h2 h3 => exact i.hist.snoc ⟨h2, open_rec b h1⟩
    | charge limit n pre r rest h1 h2 h3 h4 =>
      refine i.hist.snoc ⟨h4, ?_, open_rec b h1⟩
      rw [i.cnt r (by rw [h1]; simp), UInt16.ofNat_add]; rfl
    | giveUp limit pre r rest h1 h2 h3 h4 h5 =>
      have hk : r.retry + 1 = UInt16.ofNat (numTO r.pkt.uid v.log + 1) := by
        rw [i.cnt r (by rw [h1]; simp), UInt16.ofNat_add]; rfl
      have ho := open_rec b h1
      refine Hist.snoc (l := v.log ++ [_]) (i.hist.snoc ⟨h5, hk, ho⟩) ?_
      refine ⟨⟨List.mem_append_left _ ho.1, fun ok hd => ?_⟩, r.retry + 1,
        List.mem_append_right _ List.mem_cons_self, ?_, ?_⟩
      · exact ho.2 ok (by simpa using hd)
      · rcases h3 with h3 | h3
        · exact .inl (h3 ▸ h4)
        · exact .inr (h3 ▸ h4)
      · rw [hk, numTO_append]
        have h3 : numTO r.pkt.uid [Obs.timedOut r.pkt (r.retry + 1)] = 1 := by simp [numTO, Obs.isTimeout]
        rw [← hk, h3]; exact hk
    | _ => exact i.hist
  · cases h with
    | charge limit n pre r rest h1 h2 h3 h4 => exact cnt_charge b i _ h1 _ rfl
    | giveUp limit pre r rest h1 h2 h3 h4 h5 =>
      intro x hx
      have := cnt_charge b i r.life h1 _ rfl x hx
      show x.retry = UInt16.ofNat (numTO x.pkt.uid ((v.log ++ [_]) ++ [_]))
      rw [numTO_append]; exact this
    | accept bd dst _ =>
      intro x hx
      show x.retry = UInt16.ofNat (numTO x.pkt.uid (v.log ++ [_]))
      rw [numTO_append]
      rcases List.mem_append.1 hx with hx | hx
      · exact i.cnt x hx
      · rw [List.mem_singleton.1 hx]
        show (0 : UInt16) = UInt16.ofNat (numTO v.nextUid v.log + 0)
        rw [numTO_fresh b i]; rfl
    | settle ok pre r rest h1 h2 h3 =>
      intro x (hx : x ∈ pre ++ rest)
      show x.retry = UInt16.ofNat (numTO x.pkt.uid (v.log ++ [_]))
      rw [numTO_append]
      exact i.cnt x (by rw [h1]; simp only [List.mem_append, List.mem_cons] at hx ⊢; tauto)
    | life pre r rest h1 _ _ _ =>
      intro x (hx : x ∈ pre ++ _ :: rest)
      have hx' : x ∈ pre ++ rest ∨ x = { r with life := r.life - 1 } := by
        simp only [List.mem_append, List.mem_cons] at hx ⊢; tauto
      rcases hx' with hx' | hx'
      · exact i.cnt x (by rw [h1]; simp only [List.mem_append, List.mem_cons] at hx' ⊢; tauto)
      · rw [hx']; exact i.cnt r (by rw [h1]; simp)
    | note o ho =>
      intro x hx
      show x.retry = UInt16.ofNat (numTO x.pkt.uid (v.log ++ [o]))
      rw [numTO_append, numTO_neutral (l := [o])]
      · exact i.cnt x hx
      · intro y hy; rw [List.mem_singleton.1 hy]; cases o <;> first | exact ho.elim | trivial
    | rx f => intro x hx; show x.retry = UInt16.ofNat (numTO x.pkt.uid (v.log ++ [_])); rw [numTO_append]; exact i.cnt x hx
    | txEnd => intro x hx; show x.retry = UInt16.ofNat (numTO x.pkt.uid (v.log ++ [_])); rw [numTO_append]; exact i.cnt x hx
    | handRts => intro x hx; show x.retry = UInt16.ofNat (numTO x.pkt.uid (v.log ++ [_])); rw [numTO_append]; exact i.cnt x hx
    | handData => intro x hx; show x.retry = UInt16.ofNat (numTO x.pkt.uid (v.log ++ [_])); rw [numTO_append]; exact i.cnt x hx
    | _ => exact i.cnt
  · intro p k hp
    cases h.eff with
    | silent l hq hr hu hs hl hn =>
      rw [hl] at hp ⊢
      rcases List.mem_append.1 hp with hp | hp
      · exact List.mem_append_left _ (i.acc p k hp)
      · exact (hn _ hp).elim
    | life k' pre r rest h1 hq hr hu hs hl => rw [hl] at hp ⊢; exact i.acc p k hp
    | accept bd dst t hq hr hu hs hl =>
      rw [hl] at hp ⊢
      exact List.mem_append_left _ (i.acc p k (by simpa using hp))
    | settle ok pre r rest h1 _ hq hr hu hs hl =>
      rw [hl] at hp ⊢
      exact List.mem_append_left _ (i.acc p k (by simpa using hp))
    | charge life pre r rest h1 _ hq hr hu hs hl =>
      rw [hl] at hp ⊢
      refine List.mem_append_left _ ?_
      rcases List.mem_append.1 hp with hp | hp
      · exact i.acc p k hp
      · have := List.mem_singleton.1 hp
        injection this with e1 _
        rw [e1]; exact (open_rec b h1).1
    | giveUp limit pre r rest h1 _ _ _ hq hr hu hs hl _ _ =>
      rw [hl] at hp ⊢
      refine List.mem_append_left _ ?_
      rcases List.mem_append.1 hp with hp | hp
      · exact i.acc p k hp
      · have hp' : Obs.timedOut p k = Obs.timedOut r.pkt (r.retry + 1) := by simpa using hp
        injection hp' with e1 _
        rw [e1]; exact (open_rec b h1).1

/-- In every run every observation has its reason. -/
theorem hinv_after (T : Prop) (seq0 last0 : UInt16) (ops : List Op)
    (ht : T → timely c me (init seq0 last0) ops = true) : HInv c me T (after c me seq0 last0 ops).v :=
  run_inv T ht (Basic.init seq0 last0) (HInv.init seq0 last0) (fun _ _ b i h => i.mi b h)

/-! ## Packets and outcomes -/

/-- The packet whose outcome an observation reports. -/
def Obs.doneUid : Obs → Option Nat
  | .done _ p => some p.uid
  | _ => none

/-- The packets whose outcomes were reported. -/
def doneUids (l : List Obs) : List Nat := l.filterMap Obs.doneUid

theorem doneUids_append (a b : List Obs) : doneUids (a ++ b) = doneUids a ++ doneUids b := List.filterMap_append

theorem doneUids_neutral {l : List Obs} (h : ∀ o ∈ l, Neutral o) : doneUids l = [] := by
  induction l with
  | nil => rfl
  | cons o l ih =>
    have := ih (fun x hx => h x (List.mem_cons_of_mem _ hx))
    have ho := h o List.mem_cons_self
    cases o <;> first | exact ho.elim | exact this

theorem mem_doneUids {u : Nat} {l : List Obs} (h : u ∈ doneUids l) : ∃ ok p, Obs.done ok p ∈ l ∧ p.uid = u := by
  unfold doneUids at h
  obtain ⟨o, h1, h2⟩ := List.mem_filterMap.1 h
  cases o with
  | done ok p => exact ⟨ok, p, h1, Option.some.inj h2⟩
  | _ => cases h2

/-- Is this an acceptance? -/
def Obs.isAccepted : Obs → Bool
  | .accepted _ => true
  | _ => false

/-- The number of packets accepted. -/
def numAcc (l : List Obs) : Nat := l.countP Obs.isAccepted

theorem numAcc_append (a b : List Obs) : numAcc (a ++ b) = numAcc a + numAcc b := List.countP_append

theorem numAcc_neutral {l : List Obs} (h : ∀ o ∈ l, Neutral o) : numAcc l = 0 := by
  unfold numAcc
  rw [List.countP_eq_zero]
  intro o ho
  have := h o ho
  cases o <;> first | exact this.elim | simp [Obs.isAccepted]

/-- The packet invariant. -/
structure PkInv (seq0 : UInt16) (v : V) : Prop where
  seqEq : v.seq = seq0 + UInt16.ofNat v.nextUid
  num : numAcc v.log = v.nextUid
  accSeq : ∀ p, Obs.accepted p ∈ v.log → p.seq = seq0 + UInt16.ofNat (p.uid + 1)
  accUniq : ∀ p p', Obs.accepted p ∈ v.log → Obs.accepted p' ∈ v.log → p.uid = p'.uid → p = p'
  kept : ∀ p, Obs.accepted p ∈ v.log → (∃ r ∈ v.recs, r.pkt = p) ∨ ∃ ok, Obs.done ok p ∈ v.log
  doneNodup : (doneUids v.log).Nodup
  qAcc : ∀ p ∈ v.queue, Obs.accepted p ∈ v.log
  giveUp : ∀ t p, Obs.gaveUp t p ∈ v.log → Obs.accepted p ∈ v.log ∧ ∀ x ∈ v.queue, x.uid ≠ p.uid
  recLoc : ∀ r ∈ v.recs, r.pkt ∈ v.queue ∨ ∃ t, Obs.gaveUp t r.pkt ∈ v.log
  qOpen : v.nextUid ≤ 65536 → ∀ p ∈ v.queue, ∀ ok, Obs.done ok p ∉ v.log

theorem PkInv.init (seq0 last0 : UInt16) : PkInv seq0 (init seq0 last0).v := by
  constructor <;> simp [Client.init, St.v, doneUids, numAcc]

/-- With at most 65536 packets accepted, the sequence number tells the packet. -/
theorem PkInv.seqInj {seq0 : UInt16} {v : V} (b : Basic c me v) (i : PkInv seq0 v) (h : v.nextUid ≤ 65536) {p p' : Pkt}
    (hp : Obs.accepted p ∈ v.log) (hp' : Obs.accepted p' ∈ v.log) (he : p.seq = p'.seq) : p = p' := by
  refine i.accUniq p p' hp hp' ?_
  rw [i.accSeq p hp, i.accSeq p' hp'] at he
  have h1 := b.accLt p hp
  have h2 := b.accLt p' hp'
  have he := congrArg (fun x => x - seq0) he
  simp only [UInt16.add_comm seq0, UInt16.add_sub_cancel] at he
  have := congrArg UInt16.toNat he
  simp only [UInt16.toNat_ofNat'] at this
  omega

theorem PkInv.mi {seq0 : UInt16} {v w : V} (b : Basic c me v) (i : PkInv seq0 v) (h : Mi c me T K v w) :
    PkInv seq0 w := by
  have b' := b.mi h
  cases h.eff with
  | silent l hq hr hu hs hl hn =>
    have hmem : ∀ o, ¬ Neutral o → (o ∈ w.log ↔ o ∈ v.log) := by
      intro o ho
      rw [hl, List.mem_append]
      exact ⟨fun h => h.elim id (fun h => absurd (hn o h) ho), .inl⟩
    have hA : ∀ p, (Obs.accepted p ∈ w.log ↔ Obs.accepted p ∈ v.log) := fun p => hmem _ (fun h => h)
    have hD : ∀ ok p, (Obs.done ok p ∈ w.log ↔ Obs.done ok p ∈ v.log) := fun ok p => hmem _ (fun h => h)
    have hG : ∀ t p, (Obs.gaveUp t p ∈ w.log ↔ Obs.gaveUp t p ∈ v.log) := fun t p => hmem _ (fun h => h)
    have hdn : doneUids w.log = doneUids v.log := by
      rw [hl, doneUids_append, doneUids_neutral hn, List.append_nil]
    constructor
    · rw [hs, hu]; exact i.seqEq
    · rw [hl, numAcc_append, numAcc_neutral hn, hu]; exact i.num
    · simp only [hA]; exact i.accSeq
    · simp only [hA]; exact i.accUniq
    · rw [hr]; simp only [hA, hD]; exact i.kept
    · rw [hdn]; exact i.doneNodup
    · rw [hq]; simp only [hA]; exact i.qAcc
    · rw [hq]; simp only [hA, hG]; exact i.giveUp
    · rw [hq, hr]; simp only [hG]; exact i.recLoc
    · rw [hq, hu]; simp only [hD]; exact i.qOpen
  | life k pre r rest h1 hq hr hu hs hl =>
    have hp : ∀ p, (∃ x ∈ w.recs, x.pkt = p) ↔ ∃ x ∈ v.recs, x.pkt = p := by
      intro p; rw [← List.mem_map, ← List.mem_map, hr, h1, pkts_congr (r := r)]; rfl
    constructor
    · rw [hs, hu]; exact i.seqEq
    · rw [hl, hu]; exact i.num
    · rw [hl]; exact i.accSeq
    · rw [hl]; exact i.accUniq
    · rw [hl]; intro p ha; rw [hp]; exact i.kept p ha
    · rw [hl]; exact i.doneNodup
    · rw [hq, hl]; exact i.qAcc
    · rw [hq, hl]; exact i.giveUp
    · rw [hq, hl]; intro x hx
      obtain ⟨y, hy, he⟩ := (hp x.pkt).1 ⟨x, hx, rfl⟩
      rw [← he]; exact i.recLoc y hy
    · rw [hq, hl, hu]; exact i.qOpen
  | charge k pre r rest h1 _ hq hr hu hs hl =>
    have hp : ∀ p, (∃ x ∈ w.recs, x.pkt = p) ↔ ∃ x ∈ v.recs, x.pkt = p := by
      intro p; rw [← List.mem_map, ← List.mem_map, hr, h1, pkts_congr (r := r)]; rfl
    have hA : ∀ p, (Obs.accepted p ∈ w.log ↔ Obs.accepted p ∈ v.log) := by intro p; rw [hl]; simp
    have hD : ∀ ok p, (Obs.done ok p ∈ w.log ↔ Obs.done ok p ∈ v.log) := by intro ok p; rw [hl]; simp
    have hG : ∀ t p, (Obs.gaveUp t p ∈ w.log ↔ Obs.gaveUp t p ∈ v.log) := by intro t p; rw [hl]; simp
    constructor
    · rw [hs, hu]; exact i.seqEq
    · rw [hl, numAcc_append, hu]; exact i.num
    · simp only [hA]; exact i.accSeq
    · simp only [hA]; exact i.accUniq
    · simp only [hA, hD]; intro p ha; rw [hp]; exact i.kept p ha
    · rw [hl, doneUids_append]; show (doneUids v.log ++ []).Nodup; rw [List.append_nil]; exact i.doneNodup
    · rw [hq]; simp only [hA]; exact i.qAcc
    · rw [hq]; simp only [hA, hG]; exact i.giveUp
    · rw [hq]; intro x hx; simp only [hG]
      obtain ⟨y, hy, he⟩ := (hp x.pkt).1 ⟨x, hx, rfl⟩
      rw [← he]; exact i.recLoc y hy
    · rw [hq, hu]; simp only [hD]; exact i.qOpen
  | giveUp limit pre r rest h1 _ _ _ hq hr hu hs hl _ _ =>
    have hp : ∀ p, (∃ x ∈ w.recs, x.pkt = p) ↔ ∃ x ∈ v.recs, x.pkt = p := by
      intro p; rw [← List.mem_map, ← List.mem_map, hr, h1, pkts_congr (r := r)]; rfl
    have hA : ∀ p, (Obs.accepted p ∈ w.log ↔ Obs.accepted p ∈ v.log) := by intro p; rw [hl]; simp
    have hD : ∀ ok p, (Obs.done ok p ∈ w.log ↔ Obs.done ok p ∈ v.log) := by intro ok p; rw [hl]; simp
    have hG : ∀ t p, (Obs.gaveUp t p ∈ w.log ↔ Obs.gaveUp t p ∈ v.log ∨ (t = v.now ∧ p = r.pkt)) := by
      intro t p; rw [hl]; simp
    constructor
    · rw [hs, hu]; exact i.seqEq
    · rw [hl, numAcc_append, hu]; exact i.num
    · simp only [hA]; exact i.accSeq
    · simp only [hA]; exact i.accUniq
    · simp only [hA, hD]; intro p ha; rw [hp]; exact i.kept p ha
    · rw [hl, doneUids_append]; show (doneUids v.log ++ []).Nodup; rw [List.append_nil]; exact i.doneNodup
    · rw [hq]; simp only [hA]; exact fun p hp' => i.qAcc p (List.mem_filter.1 hp').1
    · rw [hq]; intro t p hg
      rw [hA]
      rcases (hG t p).1 hg with hg | ⟨_, hg⟩
      · exact ⟨(i.giveUp t p hg).1, fun x hx => (i.giveUp t p hg).2 x (List.mem_filter.1 hx).1⟩
      · rw [hg]
        exact ⟨(open_rec b h1).1, fun x hx => by simpa using (List.mem_filter.1 hx).2⟩
    · rw [hq]; intro x hx; simp only [hG]
      obtain ⟨y, hy, he⟩ := (hp x.pkt).1 ⟨x, hx, rfl⟩
      rw [← he]
      by_cases hur : y.pkt.uid = r.pkt.uid
      · refine .inr ⟨v.now, .inr ⟨rfl, ?_⟩⟩
        exact i.accUniq _ _ (b.recAcc y hy) (open_rec b h1).1 hur
      · rcases i.recLoc y hy with h | ⟨t, h⟩
        · exact .inl (List.mem_filter.2 ⟨h, by simpa using hur⟩)
        · exact .inr ⟨t, .inl h⟩
    · rw [hq, hu]; simp only [hD]
      exact fun hn p hp' => i.qOpen hn p (List.mem_filter.1 hp').1
  | accept bd dst t hq hr hu hs hl =>
    generalize hp0 : (⟨v.nextUid, v.seq + 1, dst, bd⟩ : Pkt) = p0 at *
    have hu0 : p0.uid = v.nextUid := by rw [← hp0]
    have hs0 : p0.seq = v.seq + 1 := by rw [← hp0]
    have hA : ∀ p, (Obs.accepted p ∈ w.log ↔ Obs.accepted p ∈ v.log ∨ p = p0) := by intro p; rw [hl]; simp
    have hD : ∀ ok p, (Obs.done ok p ∈ w.log ↔ Obs.done ok p ∈ v.log) := by intro ok p; rw [hl]; simp
    have hG : ∀ t p, (Obs.gaveUp t p ∈ w.log ↔ Obs.gaveUp t p ∈ v.log) := by intro t p; rw [hl]; simp
    have hfresh : ∀ p, Obs.accepted p ∈ v.log → p.uid ≠ p0.uid := fun p hp => hu0 ▸ (b.accLt p hp).ne
    have hs1 : v.seq + 1 = seq0 + UInt16.ofNat (v.nextUid + 1) := by
      rw [i.seqEq, UInt16.ofNat_add, ← UInt16.add_assoc]; rfl
    constructor
    · rw [hs, hu]; exact hs1
    · rw [hl, numAcc_append, hu, i.num]; rfl
    · intro p hp
      rcases (hA p).1 hp with h | h
      · exact i.accSeq p h
      · rw [h, hs0, hu0]; exact hs1
    · intro p p' hp hp' he
      rcases (hA p).1 hp with h | h <;> rcases (hA p').1 hp' with h' | h'
      · exact i.accUniq p p' h h' he
      · rw [h'] at he; exact absurd he (hfresh p h)
      · rw [h] at he; exact absurd he.symm (hfresh p' h')
      · rw [h, h']
    · intro p hp
      simp only [hD]
      rw [hr]
      rcases (hA p).1 hp with h | h
      · rcases i.kept p h with ⟨r, h1, h2⟩ | h2
        · exact .inl ⟨r, List.mem_append_left _ h1, h2⟩
        · exact .inr h2
      · exact .inl ⟨_, List.mem_append_right _ List.mem_cons_self, h.symm⟩
    · rw [hl, doneUids_append]; show (doneUids v.log ++ []).Nodup; rw [List.append_nil]; exact i.doneNodup
    · rw [hq]; intro p hp
      rw [hA]
      rcases List.mem_append.1 hp with h | h
      · exact .inl (i.qAcc p h)
      · exact .inr (List.mem_singleton.1 h)
    · rw [hq]; intro t p hg
      rw [hA]
      obtain ⟨h1, h2⟩ := i.giveUp t p ((hG t p).1 hg)
      refine ⟨.inl h1, fun x hx => ?_⟩
      rcases List.mem_append.1 hx with h | h
      · exact h2 x h
      · rw [List.mem_singleton.1 h]; exact fun e => hfresh p h1 e.symm
    · rw [hq, hr]; intro x hx; simp only [hG]
      rcases List.mem_append.1 hx with h | h
      · exact (i.recLoc x h).imp (fun h => List.mem_append_left _ h) id
      · rw [List.mem_singleton.1 h]
        exact .inl (List.mem_append_right _ List.mem_cons_self)
    · rw [hq, hu]; intro hn p hp ok
      rw [hD]
      rcases List.mem_append.1 hp with h | h
      · exact i.qOpen (by omega) p h ok
      · rw [List.mem_singleton.1 h]
        exact fun hd => hfresh p0 (b.doneAcc ok p0 hd) rfl
  | settle ok pre r rest h1 hw hq hr hu hs hl =>
    have hA : ∀ p, (Obs.accepted p ∈ w.log ↔ Obs.accepted p ∈ v.log) := by intro p; rw [hl]; simp
    have hD : ∀ k p, (Obs.done k p ∈ w.log ↔ Obs.done k p ∈ v.log ∨ (k = ok ∧ p = r.pkt)) := by
      intro ok p; rw [hl]; simp
    have hG : ∀ t p, (Obs.gaveUp t p ∈ w.log ↔ Obs.gaveUp t p ∈ v.log) := by intro t p; rw [hl]; simp
    have hro := open_rec b h1
    have hsub : ∀ x ∈ w.queue, x ∈ v.queue := by
      rw [hq]; split
      · exact fun x hx => (List.mem_filter.1 hx).1
      · exact fun x hx => hx
    constructor
    · rw [hs, hu]; exact i.seqEq
    · rw [hl, numAcc_append, hu]; exact i.num
    · simp only [hA]; exact i.accSeq
    · simp only [hA]; exact i.accUniq
    · simp only [hA, hD]; intro p ha
      rcases i.kept p ha with ⟨x, hx, he⟩ | ⟨k, hk⟩
      · rw [h1] at hx
        have hx' : x ∈ pre ++ rest ∨ x = r := by
          simp only [List.mem_append, List.mem_cons] at hx ⊢; tauto
        rcases hx' with hx' | hx'
        · exact .inl ⟨x, hr ▸ hx', he⟩
        · exact .inr ⟨ok, .inr ⟨rfl, by rw [← he, hx']⟩⟩
      · exact .inr ⟨k, .inl hk⟩
    · rw [hl, doneUids_append, List.nodup_append]
      refine ⟨i.doneNodup, by simp [doneUids, Obs.doneUid], ?_⟩
      intro a ha b2 hb2
      obtain ⟨k, p, h2, h3⟩ := mem_doneUids ha
      have h4 : b2 = r.pkt.uid := by simpa [doneUids, Obs.doneUid] using hb2
      rw [h4, ← h3]
      exact b.recOpen r (by rw [h1]; simp) k p h2
    · simp only [hA]; exact fun p hp => i.qAcc p (hsub p hp)
    · intro t p hg
      rw [hA]
      obtain ⟨h2, h3⟩ := i.giveUp t p ((hG t p).1 hg)
      exact ⟨h2, fun x hx => h3 x (hsub x hx)⟩
    · rw [hr]; intro x hx; simp only [hG]
      have hx' : x ∈ v.recs := by
        rw [h1]; simp only [List.mem_append, List.mem_cons] at hx ⊢; tauto
      rcases i.recLoc x hx' with h | h
      · left
        rw [hq]; split
        · exact List.mem_filter.2 ⟨h, by simpa using uid_ne b h1 x hx⟩
        · exact h
      · exact .inr h
    · rw [hu]; intro hn p hp k
      rw [hD]
      rintro (h | ⟨h, h'⟩)
      · exact i.qOpen hn p (hsub p hp) k h
      · subst h'
        cases ok with
        | true =>
          rw [hq] at hp
          have := (List.mem_filter.1 hp).2
          simp at this
        | false =>
          obtain ⟨t, p', hg, he⟩ := hw
          obtain ⟨h2, h3⟩ := i.giveUp t p' hg
          have := i.seqInj b hn h2 hro.1 he
          rw [this] at h3
          exact h3 r.pkt (hsub _ hp) rfl

/-- The packet invariant holds in every run. -/
theorem pkinv_after (seq0 last0 : UInt16) (ops : List Op) : PkInv seq0 (after c me seq0 last0 ops).v :=
  run_inv False (fun h => h.elim) (Basic.init seq0 last0) (PkInv.init seq0 last0) (fun _ _ b i h => i.mi b h)

/-! ## Back-off -/

/-- How many CTAs a back-off counter lasts: it is counted down in 16 bits until it is 0. -/
def lasts (life : UInt16) : Nat := if life = 0 then 65536 else life.toNat

/-- The back-off invariant: the record that the client waits for has at most 2^retry CTAs to go, unless the packet's
fate was settled meanwhile. -/
structure BoInv (v : V) : Prop where
  own : v.act = true → ∃ p, Obs.accepted p ∈ v.log ∧ p.seq = v.bseq
  go : v.nextUid ≤ 65536 → v.act = true → ∀ r ∈ v.recs, r.pkt.seq = v.bseq → lasts r.life ≤ 2 ^ r.retry.toNat

theorem BoInv.init (seq0 last0 : UInt16) : BoInv (init seq0 last0).v := by
  constructor <;> simp [Client.init, St.v]

theorem drawLife_le (i : Nat) (r : UInt16) : lasts (c.drawLife i r) ≤ 2 ^ r.toNat := by
  unfold Cfg.drawLife
  generalize hx : c.rng i % 2 ^ r.toNat = x
  have h1 : x < 2 ^ r.toNat := by rw [← hx]; exact Nat.mod_lt _ (Nat.two_pow_pos _)
  by_cases h16 : r.toNat < 16
  · have h2 : 2 ^ r.toNat < 65536 := by
      exact Nat.pow_lt_pow_right (by omega) h16
    have h3 : (UInt16.ofNat (1 + x)).toNat = 1 + x := by
      rw [UInt16.toNat_ofNat']; omega
    unfold lasts
    split
    · rename_i h0
      rw [h0] at h3
      simp at h3
      omega
    · omega
  · have h2 : 65536 ≤ 2 ^ r.toNat := by
      exact Nat.pow_le_pow_right (n := 2) (i := 16) (by omega) (by omega)
    unfold lasts
    split
    · exact h2
    · have := (UInt16.ofNat (1 + x)).toNat_lt
      omega

theorem lasts_pred (life : UInt16) (h : life - 1 ≠ 0) : lasts (life - 1) + 1 = lasts life := by
  have hlt := life.toNat_lt
  have h0 : (life - 1).toNat ≠ 0 := fun e => h (UInt16.toNat_inj.1 e)
  have h1 : (life - 1).toNat = (65536 - 1 + life.toNat) % 65536 := UInt16.toNat_sub life 1
  unfold lasts
  rw [if_neg h]
  split
  · rename_i hz
    rw [hz] at h1 ⊢
    simp only [UInt16.toNat_zero] at h1
    omega
  · rename_i hz
    have h2 : life.toNat ≠ 0 := fun e => hz (UInt16.toNat_inj.1 e)
    omega

theorem lasts_last (life : UInt16) (h : life - 1 = 0) : lasts life = 1 := by
  have : life = 1 := by
    have := congrArg (fun x => x + 1) h
    simpa using this
  rw [this]; rfl

theorem BoInv.mi {seq0 : UInt16} {v w : V} (hlim : c.rtsRetryLimit ≠ 0 ∧ c.dataRetryLimit ≠ 0) (b : Basic c me v)
    (p : PkInv seq0 v) (i : BoInv v) (h : Mi c me T K v w) : BoInv w := by
  obtain ⟨x, hx⟩ := h.log
  have b' := b.mi h
  have p' := p.mi b h
  have one : v.nextUid ≤ 65536 → ∀ a ∈ v.recs, ∀ a' ∈ v.recs, a.pkt.seq = a'.pkt.seq → a.pkt.uid = a'.pkt.uid := by
    intro hn a ha a' ha' he
    rw [p.seqInj b hn (b.recAcc a ha) (b.recAcc a' ha') he]
  constructor
  · have hm : v.act = true → ∃ p, Obs.accepted p ∈ w.log ∧ p.seq = v.bseq := by
      intro ha
      obtain ⟨p, h1, h2⟩ := i.own ha
      exact ⟨p, hx ▸ List.mem_append_left _ h1, h2⟩
    cases h with
    | charge limit n pre r rest h1 h2 h3 h4 =>
      intro _
      exact ⟨r.pkt, List.mem_append_left _ (open_rec b h1).1, rfl⟩
    | life pre r rest h1 h2 h3 h4 => intro _; exact hm h4
    | _ => exact hm
  · cases h with
    | accept bd dst _ =>
      intro hn ha r hr he
      have hn' : v.nextUid + 1 ≤ 65536 := hn
      rcases List.mem_append.1 hr with hr | hr
      · exact i.go (by omega) ha r hr he
      · exfalso
        obtain ⟨p1, h1, h2⟩ := i.own ha
        have hr' := List.mem_singleton.1 hr
        have h3 := p'.seqInj b' hn (List.mem_append_left _ h1)
          (List.mem_append_right _ (List.mem_singleton.2 (by rw [hr'])) : Obs.accepted r.pkt ∈ _) (h2.trans he.symm)
        have h4 := b.accLt p1 h1
        rw [h3, hr'] at h4
        exact Nat.lt_irrefl _ h4
    | settle ok pre r rest h1 h2 h3 =>
      intro hn ha x hx he
      exact i.go hn ha x (by
        have hx : x ∈ pre ++ rest := hx
        rw [h1]; simp only [List.mem_append, List.mem_cons] at hx ⊢; tauto) he
    | charge limit n pre r rest h1 h2 h3 h4 =>
      intro hn _ x hx he
      have hx : x ∈ pre ++ _ :: rest := hx
      have hx' : x ∈ pre ++ rest ∨ x = { r with retry := r.retry + 1, life := c.drawLife n (r.retry + 1) } := by
        simp only [List.mem_append, List.mem_cons] at hx ⊢; tauto
      rcases hx' with hx' | hx'
      · exfalso
        refine uid_ne b h1 x hx' (one hn x ?_ r (by rw [h1]; simp) he)
        rw [h1]; simp only [List.mem_append, List.mem_cons] at hx' ⊢; tauto
      · rw [hx']; exact drawLife_le _ _
    | giveUp limit pre r rest h1 h2 h3 h4 h5 =>
      intro hn ha x hx he
      have hx : x ∈ pre ++ _ :: rest := hx
      have hx' : x ∈ pre ++ rest ∨ x = { r with retry := r.retry + 1 } := by
        simp only [List.mem_append, List.mem_cons] at hx ⊢; tauto
      rcases hx' with hx' | hx'
      · exact i.go hn ha x (by rw [h1]; simp only [List.mem_append, List.mem_cons] at hx' ⊢; tauto) he
      · have hr := i.go hn ha r (by rw [h1]; simp) (by rw [hx'] at he; exact he)
        rw [hx']
        refine hr.trans (Nat.pow_le_pow_right (by omega) ?_)
        have hl : limit ≠ 0 := by rcases h3 with h | h <;> rw [h]; exacts [hlim.1, hlim.2]
        have h6 : limit.toNat ≤ (r.retry + 1).toNat := h4
        have h7 : limit.toNat ≠ 0 := fun e => hl (UInt16.toNat_inj.1 e)
        have h8 : (r.retry + 1).toNat = (r.retry.toNat + 1) % 65536 := UInt16.toNat_add r.retry 1
        have h9 := r.retry.toNat_lt
        show r.retry.toNat ≤ (r.retry + 1).toNat
        omega
    | life pre r rest h1 h2 h3 h4 =>
      intro hn ha x hx he
      have hx : x ∈ pre ++ _ :: rest := hx
      have hx' : x ∈ pre ++ rest ∨ x = { r with life := r.life - 1 } := by
        simp only [List.mem_append, List.mem_cons] at hx ⊢; tauto
      rcases hx' with hx' | hx'
      · exact i.go hn h4 x (by rw [h1]; simp only [List.mem_append, List.mem_cons] at hx' ⊢; tauto) he
      · have hr := i.go hn h4 r (by rw [h1]; simp) h3.symm
        rw [hx']
        have hne : r.life - 1 ≠ 0 := by
          intro e
          have ha : (if r.life - 1 = 0 then false else v.act) = true := ha
          rw [if_pos e] at ha; cases ha
        have := lasts_pred r.life hne
        show lasts (r.life - 1) ≤ 2 ^ r.retry.toNat
        omega
    | _ => exact i.go

/-- The back-off invariant holds in every run. -/
theorem boinv_after (hlim : c.rtsRetryLimit ≠ 0 ∧ c.dataRetryLimit ≠ 0) (seq0 last0 : UInt16) (ops : List Op) :
    BoInv (after c me seq0 last0 ops).v :=
  (run_inv (P := fun v => PkInv seq0 v ∧ BoInv v) False (fun h => h.elim) (Basic.init seq0 last0)
    ⟨PkInv.init seq0 last0, BoInv.init seq0 last0⟩
    (fun _ _ b i h => ⟨i.1.mi b h, i.2.mi hlim b i.1 h⟩)).2

end Thz.Client
