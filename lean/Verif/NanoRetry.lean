import Verif.NanoOrd

/-!
# Retry counting in the nano MAC (helper lemmas)
-/

namespace Thz.Nano

/-- Number of CTS/ACK timeouts in a log for a sequence number. -/
def timeouts (q : UInt16) (log : List Obs) : Nat := log.count (.timeout q)

/-- Number of back-offs in a log for a packet. -/
def backoffs (p : Pkt) (log : List Obs) : Nat := log.count (.backoff p)

/-- Every discard in a log (newest first) comes after exactly `m` timeouts for that packet. -/
def DiscOK (m : Nat) : List Obs → Prop
  | [] => True
  | o :: l => (∀ p, o = .done false p → timeouts p.seq l = m) ∧ DiscOK m l

theorem DiscOK.split {m : Nat} {l1 l2 : List Obs} {p} (h : DiscOK m (l1 ++ .done false p :: l2)) :
    timeouts p.seq l2 = m := by
  induction l1 with
  | nil => exact h.1 p rfl
  | cons o l ih => exact ih h.2

theorem DiscOK.append {m : Nat} {l1 l2 : List Obs} (h1 : ∀ o ∈ l1, ∀ p, o ≠ .done false p)
    (h2 : DiscOK m l2) : DiscOK m (l1 ++ l2) := by
  induction l1 with
  | nil => exact h2
  | cons o l ih =>
    exact ⟨fun p hp => absurd hp (h1 o (by simp) p), ih (fun o' ho' => h1 o' (by simp [ho']))⟩

structure Inv2 (c : Cfg) (s : St) : Prop where
  cnt : ∀ t ∈ s.pktTx, t.retry = timeouts t.pkt.seq s.log
  lim : ∀ t ∈ s.pktTx, t.retry < max c.retryLimit 1
  old : ∀ q, .timeout q ∈ s.log → ∃ p ∈ accs s.log, p.seq = q
  disc : DiscOK (max c.retryLimit 1) s.log
  boff : ∀ t ∈ s.pktTx, backoffs t.pkt s.log = t.retry
  boffMax : ∀ p, backoffs p s.log ≤ max c.retryLimit 1 - 1
  boffOld : ∀ p, .backoff p ∈ s.log → p ∈ accs s.log

/-- Observations that do not matter for retry counting. -/
def Obs.calm (o : Obs) : Prop := (∀ q, o ≠ .timeout q) ∧ (∀ p, o ≠ .backoff p) ∧ (∀ p, o ≠ .done false p) ∧
  (∀ p, o ≠ .accepted p)

theorem Inv2.calm {c : Cfg} {s s' : St} (h : Inv2 c s) (hp : ∀ t ∈ s'.pktTx, t ∈ s.pktTx)
    (ha : Adds Obs.calm s s') : Inv2 c s' := by
  obtain ⟨new, e, hn⟩ := ha
  have e1 : ∀ q, timeouts q s'.log = timeouts q s.log := by
    intro q
    unfold timeouts
    rw [e, List.count_append, List.count_eq_zero.mpr, Nat.zero_add]
    intro hm; exact (hn _ hm).1 q rfl
  have e2 : ∀ p, backoffs p s'.log = backoffs p s.log := by
    intro p
    unfold backoffs
    rw [e, List.count_append, List.count_eq_zero.mpr, Nat.zero_add]
    intro hm; exact (hn _ hm).2.1 p rfl
  have e3 : accs s'.log = accs s.log := by
    rw [e, accs_append]
    have : accs new = [] := by
      by_contra hne
      obtain ⟨p, hp⟩ := List.exists_mem_of_ne_nil _ hne
      exact (hn _ (mem_accs.mp hp)).2.2.2 p rfl
    rw [this]; rfl
  constructor
  · intro t ht; rw [e1]; exact h.cnt t (hp t ht)
  · intro t ht; exact h.lim t (hp t ht)
  · intro q hq
    rw [e3]
    rw [e] at hq
    rcases List.mem_append.mp hq with h1 | h1
    · exact absurd rfl ((hn _ h1).1 q)
    · exact h.old q h1
  · rw [e]; exact DiscOK.append (fun o ho => (hn o ho).2.2.1) h.disc
  · intro t ht; rw [e2]; exact h.boff t (hp t ht)
  · intro p; rw [e2]; exact h.boffMax p
  · intro p hq
    rw [e3]
    rw [e] at hq
    rcases List.mem_append.mp hq with h1 | h1
    · exact absurd rfl ((hn _ h1).2.1 p)
    · exact h.boffOld p h1

theorem book_calm {g tx rx} : (Obs.book g tx rx).calm := by simp [Obs.calm]
theorem ret_calm {tx rx} : (Obs.ret tx rx).calm := by simp [Obs.calm]
theorem tx_calm {f} : (Obs.tx f).calm := by simp [Obs.calm]
theorem up_calm {b s d q} : (Obs.up b s d q).calm := by simp [Obs.calm]
theorem starved_calm {p} : (Obs.starved p).calm := by simp [Obs.calm]
theorem doneTrue_calm {p} : (Obs.done true p).calm := by simp [Obs.calm]

theorem AttemptObs.calm {me p o} (h : AttemptObs me p o) : o.calm := by
  rcases h with ⟨g, tx, rx, rfl⟩ | rfl | ⟨rfl, -⟩ | rfl
  · exact book_calm
  · exact starved_calm
  · exact tx_calm
  · exact tx_calm

theorem Inv2.checkResources {c : Cfg} {s : St} (h : Inv2 c s) (me : Mac48) (p : Pkt) :
    Inv2 c (checkResources c me p s) :=
  h.calm (by rw [(checkResources_quiet c me p s).pktTx]; exact fun _ h => h)
    ((checkResources_adds c me p s).mono fun _ ho => ho.calm)

theorem Inv2.txFirstPacket {c : Cfg} {s : St} (h : Inv2 c s) (me : Mac48) :
    Inv2 c (txFirstPacket c me s) :=
  h.calm (by rw [(txFirstPacket_quiet c me s).pktTx]; exact fun _ h => h)
    ((txFirstPacket_adds c me s).mono fun _ ⟨_, _, ho⟩ => ho.calm)

/-- A sequence number that was not given out has no timeouts. -/
theorem Inv2.accept {c : Cfg} {s : St} (h : Inv2 c s) (h0 : Inv0 s) (hw : s.nextUid + 1 ≤ 65535)
    (b : Body) (d : Mac48) : Inv2 c (accept s b d) := by
  have h0' := h0.accept b d
  have hnew : newPkt s b d ∉ accs s.log := fun hm => by
    have := h0.mem_uid hm
    simp [newPkt] at this
  have hz : timeouts (newPkt s b d).seq s.log = 0 := by
    unfold timeouts
    rw [List.count_eq_zero]
    intro hm
    obtain ⟨p, hp, e⟩ := h.old _ hm
    have hmem : p ∈ accs (Nano.accept s b d).log := List.mem_cons_of_mem _ hp
    have hmem2 : newPkt s b d ∈ accs (Nano.accept s b d).log := List.mem_cons_self
    have := seq_inj h0' hw hmem hmem2 e
    exact hnew (this ▸ hp)
  have hzb : backoffs (newPkt s b d) s.log = 0 := by
    unfold backoffs
    rw [List.count_eq_zero]
    intro hm
    exact hnew (h.boffOld _ hm)
  have hlog : (Nano.accept s b d).log = .accepted (newPkt s b d) :: s.log := rfl
  have e1 : ∀ q, timeouts q (Nano.accept s b d).log = timeouts q s.log := by
    intro q; rw [hlog]; unfold timeouts; rw [List.count_cons]; simp
  have e2 : ∀ p, backoffs p (Nano.accept s b d).log = backoffs p s.log := by
    intro q; rw [hlog]; unfold backoffs; rw [List.count_cons]; simp
  have hpt : ∀ t ∈ (Nano.accept s b d).pktTx, t ∈ s.pktTx ∨ t = ⟨newPkt s b d, 0⟩ := by
    intro t ht
    rcases List.mem_append.mp (show t ∈ s.pktTx ++ [⟨newPkt s b d, 0⟩] from ht) with h1 | h1
    · exact Or.inl h1
    · exact Or.inr (List.mem_singleton.mp h1)
  constructor
  · intro t ht
    rw [e1]
    rcases hpt t ht with h1 | rfl
    · exact h.cnt t h1
    · exact hz.symm
  · intro t ht
    rcases hpt t ht with h1 | rfl
    · exact h.lim t h1
    · simp
  · intro q hq
    rw [hlog] at hq
    rcases List.mem_cons.mp hq with h1 | h1
    · simp at h1
    · obtain ⟨p, hp, e⟩ := h.old q h1
      exact ⟨p, List.mem_cons_of_mem _ hp, e⟩
  · exact ⟨(by rintro p ⟨⟩), h.disc⟩
  · intro t ht
    rw [e2]
    rcases hpt t ht with h1 | rfl
    · exact h.boff t h1
    · exact hzb
  · intro p; rw [e2]; exact h.boffMax p
  · intro p hp
    rw [hlog] at hp
    rcases List.mem_cons.mp hp with h1 | h1
    · simp at h1
    · exact List.mem_cons_of_mem _ (h.boffOld p h1)

/-- Without wrap-around exactly one entry carries a sequence number. -/
theorem hits_eq {s : St} (h0 : Inv0 s) (hw : s.nextUid ≤ 65535) {t} (ht : t ∈ s.pktTx) {q}
    (hq : t.pkt.seq = q) : hits q s.pktTx = [t] := by
  have hall : ∀ u ∈ s.pktTx, u.pkt.seq = q → u.pkt = t.pkt := fun u hu e =>
    seq_inj h0 hw (h0.queue_acc (h0.mem_pktTx hu)) (h0.queue_acc (h0.mem_pktTx ht)) (e.trans hq.symm)
  have hs := h0.pktTx_sort
  clear h0 hw
  generalize s.pktTx = l at *
  induction l with
  | nil => simp at ht
  | cons a l ih =>
    unfold hits
    rw [List.pairwise_cons] at hs
    rcases List.mem_cons.mp ht with rfl | ht'
    · rw [List.filter_cons_of_pos (by simpa using hq)]
      congr 1
      rw [List.filter_eq_nil_iff]
      intro u hu e
      have e2 := hall u (by simp [hu]) (by simpa using e)
      have := hs.1 u hu
      rw [e2] at this
      exact absurd this (lt_irrefl _)
    · rw [List.filter_cons_of_neg]
      · exact ih ht' (fun u hu => hall u (by simp [hu])) hs.2
      · intro e
        have e2 := hall a (by simp) (by simpa using e)
        have := hs.1 t ht'
        rw [e2] at this
        exact absurd this (lt_irrefl _)

/-- `bumpRetry` on a list with exactly one matching entry. -/
theorem bumpRetry_mem_iff {s : St} (h0 : Inv0 s) (hw : s.nextUid ≤ 65535) {t} (ht : t ∈ s.pktTx) {q}
    (hq : t.pkt.seq = q) (u : PktTx) :
    u ∈ bumpRetry q s.pktTx → (u ∈ s.pktTx ∧ u.pkt.seq ≠ q) ∨ u = { t with retry := t.retry + 1 } := by
  have hall : ∀ u ∈ s.pktTx, u.pkt.seq = q → u.pkt = t.pkt := fun u hu e =>
    seq_inj h0 hw (h0.queue_acc (h0.mem_pktTx hu)) (h0.queue_acc (h0.mem_pktTx ht)) (e.trans hq.symm)
  have hs := h0.pktTx_sort
  clear h0 hw
  generalize s.pktTx = l at *
  induction l with
  | nil => simp at ht
  | cons a l ih =>
    rw [List.pairwise_cons] at hs
    unfold bumpRetry
    split_ifs with ha
    · have ea := hall a (by simp) ha
      have hta : t = a := by
        rcases List.mem_cons.mp ht with h | h
        · exact h
        · have := hs.1 t h; rw [ea] at this; exact absurd this (lt_irrefl _)
      subst hta
      intro hu
      rcases List.mem_cons.mp hu with rfl | hu
      · exact Or.inr rfl
      · refine Or.inl ⟨by simp [hu], ?_⟩
        intro e
        have e2 := hall u (by simp [hu]) e
        have := hs.1 u hu
        rw [e2] at this
        exact absurd this (lt_irrefl _)
    · intro hu
      rcases List.mem_cons.mp hu with rfl | hu
      · exact Or.inl ⟨by simp, ha⟩
      · have ht' : t ∈ l := by
          rcases List.mem_cons.mp ht with rfl | h
          · exact absurd hq ha
          · exact h
        rcases ih ht' (fun u hu => hall u (by simp [hu])) hs.2 hu with ⟨h1, h2⟩ | h1
        · exact Or.inl ⟨by simp [h1], h2⟩
        · exact Or.inr h1

/-- The timeout of a packet: `s` is the state with one more timeout for `q` in the log. -/
theorem Inv2.timeoutStep {c : Cfg} {s s1 : St} {q : UInt16} (h : Inv2 c s) (h0 : Inv0 s)
    (hw : s.nextUid ≤ 65535) (hq : ∃ p ∈ accs s.log, p.seq = q)
    {r : Obs} (hr : ∃ tx rx, r = .ret tx rx) (hlog : s1.log = r :: .timeout q :: s.log)
    (hpt : s1.pktTx = s.pktTx) (h01 : Inv0 s1) (hu : s1.nextUid = s.nextUid)
    (g : Pkt → Pkt) (hg : ∀ p, p.seq = q → (g p).seq = q) : Inv2 c (retryOrDiscard c q g s1) := by
  obtain ⟨tx, rx, rfl⟩ := hr
  have e1 : ∀ q', timeouts q' s1.log = timeouts q' s.log + if q = q' then 1 else 0 := by
    intro q'
    rw [hlog]
    unfold timeouts
    rw [List.count_cons, List.count_cons]
    by_cases hqq : q = q' <;> simp [hqq]
  have e2 : ∀ p, backoffs p s1.log = backoffs p s.log := by
    intro p; rw [hlog]; unfold backoffs; rw [List.count_cons, List.count_cons]; simp
  have e3 : accs s1.log = accs s.log := by rw [hlog]; rfl
  have hold : ∀ q', .timeout q' ∈ s1.log → ∃ p ∈ accs s1.log, p.seq = q' := by
    intro q' hm
    rw [e3]
    rw [hlog] at hm
    simp only [List.mem_cons, reduceCtorEq, false_or, Obs.timeout.injEq] at hm
    rcases hm with rfl | hm
    · exact hq
    · exact h.old q' hm
  have hbold : ∀ p, .backoff p ∈ s1.log → p ∈ accs s1.log := by
    intro p hm
    rw [e3]
    rw [hlog] at hm
    simp only [List.mem_cons, reduceCtorEq, false_or] at hm
    exact h.boffOld p hm
  have hdisc : DiscOK (max c.retryLimit 1) s1.log := by
    rw [hlog]
    exact ⟨(by rintro p ⟨⟩), (by rintro p ⟨⟩), h.disc⟩
  have hw1 : s1.nextUid ≤ 65535 := by rw [hu]; exact hw
  unfold retryOrDiscard
  split
  · rename_i hnone
    have hne : ∀ t ∈ s1.pktTx, t.pkt.seq ≠ q := by
      intro t ht e
      have := List.find?_eq_none.mp hnone t ht
      simp [e] at this
    constructor
    · intro t ht
      rw [e1, if_neg (fun e => hne t ht e.symm)]
      exact h.cnt t (hpt ▸ ht)
    · intro t ht; exact h.lim t (hpt ▸ ht)
    · exact hold
    · exact hdisc
    · intro t ht; rw [e2]; exact h.boff t (hpt ▸ ht)
    · intro p; rw [e2]; exact h.boffMax p
    · exact hbold
  · rename_i t ht
    have hm := List.mem_of_find?_eq_some ht
    have hseq : t.pkt.seq = q := by simpa using List.find?_some ht
    have hcnt : t.retry = timeouts q s.log := by rw [← hseq]; exact h.cnt t (hpt ▸ hm)
    have hlim := h.lim t (hpt ▸ hm)
    have hboff : backoffs t.pkt s.log = t.retry := h.boff t (hpt ▸ hm)
    have hbm := bumpRetry_mem_iff h01 hw1 hm hseq
    dsimp only
    split_ifs with hge
    · -- discard
      have h02 := h01.bump q
      have hmem2 : ({ t with retry := t.retry + 1 } : PktTx) ∈ bumpRetry q s1.pktTx := by
        have : t.pkt ∈ (bumpRetry q s1.pktTx).map (·.pkt) := by
          rw [bumpRetry_map]; exact List.mem_map_of_mem hm
        obtain ⟨u, hu1, hu2⟩ := List.mem_map.mp this
        rcases hbm u hu1 with ⟨_, h2⟩ | h2
        · exact absurd (hu2 ▸ hseq) h2
        · rw [h2] at hu1; exact hu1
      have hhits : hits q (bumpRetry q s1.pktTx) = [{ t with retry := t.retry + 1 }] :=
        hits_eq (s := { s1 with pktTx := bumpRetry q s1.pktTx }) h02 hw1 hmem2 hseq
      have hl : (sendDataDone false (g t.pkt) { s1 with pktTx := bumpRetry q s1.pktTx }).log =
          .done false t.pkt :: s1.log := by
        rw [sendDataDone_log, hg _ hseq, hhits]; rfl
      have hpt2 : ∀ u ∈ (sendDataDone false (g t.pkt) { s1 with pktTx := bumpRetry q s1.pktTx }).pktTx,
          u ∈ s.pktTx ∧ u.pkt.seq ≠ q := by
        intro u hu
        rw [sendDataDone_pktTx, hg _ hseq] at hu
        obtain ⟨hu1, hu2⟩ := List.mem_filter.mp hu
        have hu2 : u.pkt.seq ≠ q := by simpa using hu2
        rcases hbm u hu1 with h1 | h1
        · exact ⟨hpt ▸ h1.1, h1.2⟩
        · rw [h1] at hu2; exact absurd hseq hu2
      constructor
      · intro u hu
        obtain ⟨h1, h2⟩ := hpt2 u hu
        have : timeouts u.pkt.seq (.done false t.pkt :: s1.log) = timeouts u.pkt.seq s1.log := by
          unfold timeouts; rw [List.count_cons]; simp
        rw [hl, this, e1, if_neg (fun e => h2 e.symm)]
        exact h.cnt u h1
      · intro u hu; exact h.lim u (hpt2 u hu).1
      · intro q' hq'
        rw [hl] at hq' ⊢
        simp only [List.mem_cons, reduceCtorEq, false_or] at hq'
        exact hold q' hq'
      · rw [hl]
        refine ⟨?_, hdisc⟩
        intro p hp
        obtain rfl : t.pkt = p := by simpa using hp
        rw [hseq, e1, if_pos rfl, ← hcnt]
        omega
      · intro u hu
        obtain ⟨h1, h2⟩ := hpt2 u hu
        have : backoffs u.pkt (.done false t.pkt :: s1.log) = backoffs u.pkt s1.log := by
          unfold backoffs; rw [List.count_cons]; simp
        rw [hl, this, e2]
        exact h.boff u h1
      · intro p
        have : backoffs p (.done false t.pkt :: s1.log) = backoffs p s1.log := by
          unfold backoffs; rw [List.count_cons]; simp
        rw [hl, this, e2]
        exact h.boffMax p
      · intro p hp
        rw [hl] at hp ⊢
        simp only [List.mem_cons, reduceCtorEq, false_or] at hp
        exact hbold p hp
    · -- back-off
      have hl : (backoff t.pkt { s1 with pktTx := bumpRetry q s1.pktTx }).log = .backoff t.pkt :: s1.log := rfl
      have hp2 : (backoff t.pkt { s1 with pktTx := bumpRetry q s1.pktTx }).pktTx = bumpRetry q s1.pktTx := rfl
      have ecnt : ∀ q', timeouts q' (.backoff t.pkt :: s1.log) = timeouts q' s1.log := by
        intro q'; unfold timeouts; rw [List.count_cons]; simp
      have ebo : ∀ p, backoffs p (.backoff t.pkt :: s1.log) =
          backoffs p s1.log + if t.pkt = p then 1 else 0 := by
        intro p; unfold backoffs; rw [List.count_cons]
        by_cases hpp : t.pkt = p <;> simp [hpp]
      constructor
      · intro u hu
        rw [hl, ecnt, e1]
        rcases hbm u hu with ⟨h1, h2⟩ | rfl
        · rw [if_neg (fun e => h2 e.symm)]; exact h.cnt u (hpt ▸ h1)
        · rw [if_pos hseq.symm]
          show t.retry + 1 = _
          rw [hcnt, hseq]
      · intro u hu
        rcases hbm u hu with ⟨h1, h2⟩ | rfl
        · exact h.lim u (hpt ▸ h1)
        · show t.retry + 1 < _
          omega
      · intro q' hq'
        rw [hl] at hq' ⊢
        simp only [List.mem_cons, reduceCtorEq, false_or] at hq'
        exact hold q' hq'
      · rw [hl]; exact ⟨(by rintro p ⟨⟩), hdisc⟩
      · intro u hu
        rw [hl, ebo, e2]
        rcases hbm u hu with ⟨h1, h2⟩ | rfl
        · rw [if_neg (fun e : t.pkt = u.pkt => h2 (e ▸ hseq))]; exact h.boff u (hpt ▸ h1)
        · rw [if_pos rfl]
          show backoffs t.pkt s.log + 1 = t.retry + 1
          rw [hboff]
      · intro p
        rw [hl, ebo, e2]
        split_ifs with hpp
        · rw [← hpp, hboff]; omega
        · exact h.boffMax p
      · intro p hp
        rw [hl] at hp ⊢
        simp only [List.mem_cons, Obs.backoff.injEq] at hp
        rcases hp with rfl | hp
        · exact h01.queue_acc (h01.mem_pktTx hm)
        · exact hbold p hp

theorem Inv2.step {c : Cfg} {me : Mac48} {s : St} (h : Inv2 c s) (h1 : Inv1 Acc me s) (h0 : Inv0 s)
    (op : Op) (hw : (step c me s op).nextUid ≤ 65535) : Inv2 c (step c me s op) := by
  have hw0 : s.nextUid ≤ 65535 := (step_nextUid c me s op).trans hw
  cases op with
  | enqueue b d =>
    have hw' : (enqueue c me b d s).2.nextUid ≤ 65535 := hw
    show Inv2 c (enqueue c me b d s).2
    rcases enqueue_cases c me b d s with e | ⟨⟨e, -⟩, -⟩ | ⟨⟨e, -⟩, -⟩
    · rw [e]; exact h
    · rw [e] at hw' ⊢; exact h.accept h0 hw' b d
    · rw [e] at hw' ⊢
      rw [(txFirstPacket_quiet c me _).nextUid] at hw'
      exact (h.accept h0 hw' b d).txFirstPacket me
  | recv f ok =>
    show Inv2 c (receivePacketDone c me f ok s)
    unfold receivePacketDone
    split_ifs
    · exact h
    · split
      · refine h.calm (by rw [(receiveRts_quiet c me f s).pktTx]; exact fun _ h => h)
          ((receiveRts_adds c me f s).mono ?_)
        rintro o (⟨g, tx, rx, rfl⟩ | ⟨-, rfl⟩)
        · exact book_calm
        · exact tx_calm
      · refine h.calm (by rw [(receiveCts_quiet me f s).pktTx]; exact fun _ h => h)
          ((receiveCts_adds me f s).mono ?_)
        rintro o ⟨-, t, -, -, -, rfl⟩
        exact tx_calm
      · refine h.calm (by rw [(receiveData_quiet c me f s).pktTx]; exact fun _ h => h)
          ((receiveData_adds c me f s).mono ?_)
        rintro o (⟨g, tx, rx, rfl⟩ | ⟨-, rfl⟩ | ⟨-, -, rfl⟩)
        · exact book_calm
        · exact up_calm
        · exact tx_calm
      · refine h.calm ?_ ((receiveAck_adds me f s).mono ?_)
        · unfold receiveAck
          split_ifs
          · split
            · dsimp only
              rw [sendDataDone_pktTx]
              exact fun t ht => List.mem_of_mem_filter ht
            · exact fun _ h => h
          · exact fun _ h => h
        · rintro o ⟨-, a, -, -, t, -, -, rfl⟩
          exact doneTrue_calm
      · exact h
  | fire tid =>
    show Inv2 c (fire c me tid s)
    unfold fire
    split
    · rename_i e he
      obtain ⟨i, ev⟩ := e
      have hm := List.mem_of_find?_eq_some he
      have hd : Inv2 c (drop s tid) := h.calm (fun _ h => h) (Adds.of_eq rfl)
      show Inv2 c (runEv c me ev (drop s tid))
      unfold runEv
      cases ev with
      | ctsTimeout p =>
        obtain ⟨hp, -⟩ := h1.cts i p hm
        exact hd.timeoutStep (s1 := ctsPre c p (drop s tid)) (h0.drop tid) hw0 ⟨p, hp, rfl⟩ ⟨_, _, rfl⟩ rfl rfl
          ((h0.drop tid).ctsPre c p) rfl (fun _ => p) (fun _ _ => rfl)
      | ackTimeout q =>
        obtain ⟨p, hp, -, hs, -⟩ := h1.ackE i q hm
        exact hd.timeoutStep (s1 := ackPre c q (drop s tid)) (h0.drop tid) hw0 ⟨p, hp, hs⟩ ⟨_, _, rfl⟩ rfl rfl
          ((h0.drop tid).ackPre c q) rfl (fun r => r) (fun _ h => h)
      | dataTimeout q =>
        refine hd.calm (fun _ h => h) ((dataTimeout_adds c q _).mono ?_)
        rintro o ⟨tx, rx, rfl⟩
        exact ret_calm
      | checkResources p => exact hd.checkResources me p
    · exact h
  | harvest =>
    show Inv2 c (harvest c me s)
    unfold harvest
    dsimp only
    have h1 : Inv2 c { s with energy := (c.energy.harvestStep s.energy).2 } :=
      h.calm (fun _ h => h) (Adds.of_eq rfl)
    split_ifs
    · exact h1.txFirstPacket me
    · exact h1
  | einit =>
    show Inv2 c (energyInit c me s)
    unfold energyInit harvest
    dsimp only
    have h1 : Inv2 c { s with energy := (c.energy.harvestStep c.energy.initial).2 } :=
      h.calm (fun _ h => h) (Adds.of_eq rfl)
    split_ifs
    · exact h1.txFirstPacket me
    · exact h1

theorem Inv2.init (c : Cfg) (e0 : ℚ) : Inv2 c (St.init e0) := by
  constructor <;> simp [St.init, timeouts, backoffs, DiscOK]

theorem Inv2.run {c : Cfg} {me : Mac48} {s : St} (h : Inv2 c s) (h1 : Inv1 Acc me s) (h0 : Inv0 s)
    (ops : List Op) (hw : (run c me s ops).nextUid ≤ 65535) : Inv2 c (run c me s ops) := by
  induction ops generalizing s with
  | nil => exact h
  | cons o os ih =>
    have hw1 : (Nano.step c me s o).nextUid ≤ 65535 := (run_nextUid c me _ os).trans hw
    have hw0 : s.nextUid ≤ 65535 := (step_nextUid c me s o).trans hw1
    exact ih (h.step h1 h0 o hw1) (h1.step Acc.ok h0 hw0 c o (CtsLic.acc h0 me o)) (h0.step c me o) hw

end Thz.Nano
