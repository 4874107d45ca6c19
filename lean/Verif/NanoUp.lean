import Verif.NanoInv
import Verif.SeqProps

/-!
# What the nano MAC passes up (helper lemmas)
-/

namespace Thz.Nano

/-- The sequence numbers of the packets from `a` that were passed up, newest first. -/
def upsFrom (a : Mac48) (log : List Obs) : List UInt16 :=
  log.filterMap fun o => match o with
    | .up _ src _ q => if src = a then some q else none
    | _ => none

theorem upsFrom_append (a : Mac48) (l1 l2 : List Obs) : upsFrom a (l1 ++ l2) = upsFrom a l1 ++ upsFrom a l2 :=
  List.filterMap_append

theorem mem_upsFrom {a : Mac48} {log : List Obs} {q} :
    q ∈ upsFrom a log ↔ ∃ b d, Obs.up b a d q ∈ log := by
  unfold upsFrom
  rw [List.mem_filterMap]
  constructor
  · rintro ⟨o, ho, h⟩
    cases o <;> simp at h
    obtain ⟨rfl, rfl⟩ := h
    exact ⟨_, _, ho⟩
  · rintro ⟨b, d, h⟩
    exact ⟨_, h, by simp⟩

/-- Nothing is passed up and the duplicate filter is untouched. -/
structure NoUp (s s' : St) : Prop where
  seqList : s'.seqList = s.seqList
  adds : Adds (fun o => ∀ b a d q, o ≠ .up b a d q) s s'

theorem NoUp.refl {s} : NoUp s s := ⟨rfl, Adds.refl⟩

theorem NoUp.trans {a b c : St} (h1 : NoUp a b) (h2 : NoUp b c) : NoUp a c :=
  ⟨h2.1.trans h1.1, h1.2.trans h2.2⟩

theorem NoUp.upsFrom {s s' : St} (h : NoUp s s') (a : Mac48) : upsFrom a s'.log = upsFrom a s.log := by
  obtain ⟨new, e, hn⟩ := h.adds
  rw [e, upsFrom_append]
  have : Nano.upsFrom a new = [] := by
    by_contra hne
    obtain ⟨q, hq⟩ := List.exists_mem_of_ne_nil _ hne
    obtain ⟨b, d, hm⟩ := mem_upsFrom.mp hq
    exact hn _ hm b a d q rfl
  rw [this]; rfl

theorem book_noUp (c : Cfg) (s : St) (tx rx : Nat) : NoUp s (s.book c tx rx).2 :=
  ⟨rfl, Adds.one rfl (by simp)⟩

theorem checkResources_noUp (c : Cfg) (me : Mac48) (p : Pkt) (s : St) : NoUp s (checkResources c me p s) := by
  constructor
  · unfold checkResources sendRts sendData
    dsimp only
    split_ifs <;> rfl
  · refine (checkResources_adds c me p s).mono ?_
    rintro o (⟨g, tx, rx, rfl⟩ | rfl | ⟨rfl, -⟩ | rfl) <;> simp

theorem txFirstPacket_noUp (c : Cfg) (me : Mac48) (s : St) : NoUp s (txFirstPacket c me s) := by
  unfold txFirstPacket
  split
  · exact NoUp.refl
  · exact checkResources_noUp c me _ s

theorem sendDataDone_noUp (ok : Bool) (p : Pkt) (s : St) : NoUp s (sendDataDone ok p s) := by
  constructor
  · unfold sendDataDone startNext
    dsimp only
    rw [completeAll_eq]
    split <;> rfl
  · refine (sendDataDone_adds ok p s).mono ?_
    rintro o ⟨t, -, -, rfl⟩; simp

theorem retryOrDiscard_noUp (c : Cfg) (q : UInt16) (g : Pkt → Pkt) (s : St) :
    NoUp s (retryOrDiscard c q g s) := by
  unfold retryOrDiscard
  split
  · exact NoUp.refl
  · dsimp only
    have h1 : NoUp s { s with pktTx := bumpRetry q s.pktTx } := ⟨rfl, Adds.of_eq rfl⟩
    split_ifs
    · exact h1.trans (sendDataDone_noUp _ _ _)
    · exact h1.trans ⟨rfl, Adds.one rfl (by simp)⟩

/-- The sequence numbers passed up per source grow, and the filter holds the last one. -/
def Inv5 (s : St) : Prop := ∀ a, (upsFrom a s.log).Pairwise (· > ·) ∧ (upsFrom a s.log).head? = stored s.seqList a

theorem Inv5.noUp {s s' : St} (h : Inv5 s) (n : NoUp s s') : Inv5 s' := by
  intro a
  rw [n.upsFrom, n.seqList]
  exact h a

theorem Inv5.filterUp {s : St} (h : Inv5 s) (f : Frame) : Inv5 (filterUp f s) := by
  intro a
  have hs := isNew_stored s.seqList f.src a f.seq
  have hn := isNew_fst s.seqList f.src f.seq
  unfold Nano.filterUp
  dsimp only
  by_cases hb : (isNewSequence s.seqList f.src f.seq).1 = true
  · rw [if_pos hb] at hs ⊢
    show (upsFrom a (Obs.up f.body f.src f.dst f.seq :: s.log)).Pairwise _ ∧ _ = stored (isNewSequence s.seqList f.src f.seq).2 a
    rw [hs]
    by_cases ha : a = f.src
    · subst ha
      have e : upsFrom f.src (Obs.up f.body f.src f.dst f.seq :: s.log) = f.seq :: upsFrom f.src s.log := by
        simp [upsFrom]
      show (upsFrom f.src (Obs.up f.body f.src f.dst f.seq :: s.log)).Pairwise _ ∧
        (upsFrom f.src (Obs.up f.body f.src f.dst f.seq :: s.log)).head? = _
      rw [e, if_pos rfl]
      refine ⟨List.pairwise_cons.mpr ⟨?_, (h f.src).1⟩, rfl⟩
      intro q hq
      obtain ⟨h1, h2⟩ := h f.src
      cases hl : upsFrom f.src s.log with
      | nil => rw [hl] at hq; simp at hq
      | cons x xs =>
        rw [hl] at hq h1 h2
        have hx : x < f.seq := hn.mp hb x h2.symm
        rcases List.mem_cons.mp hq with rfl | h3
        · exact hx
        · have h4 : x > q := (List.pairwise_cons.mp h1).1 q h3
          rw [gt_iff_lt, UInt16.lt_iff_toNat_lt] at *
          omega
    · have e : upsFrom a (Obs.up f.body f.src f.dst f.seq :: s.log) = upsFrom a s.log := by
        simp [upsFrom, Ne.symm ha]
      show (upsFrom a (Obs.up f.body f.src f.dst f.seq :: s.log)).Pairwise _ ∧
        (upsFrom a (Obs.up f.body f.src f.dst f.seq :: s.log)).head? = _
      rw [e, if_neg ha]
      exact h a
  · rw [if_neg hb] at hs ⊢
    show (upsFrom a s.log).Pairwise _ ∧ (upsFrom a s.log).head? = stored (isNewSequence s.seqList f.src f.seq).2 a
    rw [hs]
    by_cases ha : a = f.src
    · rw [if_pos ha, ← ha]; exact h a
    · rw [if_neg ha]; exact h a

theorem Inv5.acceptData {s : St} (h : Inv5 s) (me : Mac48) (f : Frame) : Inv5 (acceptData me f s) := by
  unfold Nano.acceptData
  refine Inv5.filterUp (h.noUp ⟨?_, ?_⟩) f
  · show (clearData f.seq s).seqList = _
    unfold clearData; split <;> rfl
  · refine Adds.one (o := .tx ⟨.ack, me, f.src, f.seq, ⟨0, 0⟩⟩) ?_ (by simp)
    show _ :: (clearData f.seq s).log = _
    unfold clearData; split <;> rfl

theorem Inv5.step {s : St} (h : Inv5 s) (c : Cfg) (me : Mac48) (op : Op) : Inv5 (step c me s op) := by
  cases op with
  | enqueue b d =>
    have ha : Inv5 (accept s b d) := h.noUp ⟨rfl, Adds.one (o := .accepted (newPkt s b d)) rfl (by simp)⟩
    show Inv5 (enqueue c me b d s).2
    rcases enqueue_cases c me b d s with e | ⟨⟨e, -⟩, -⟩ | ⟨⟨e, -⟩, -⟩
    · rw [e]; exact h
    · rw [e]; exact ha
    · rw [e]; exact ha.noUp (txFirstPacket_noUp c me _)
  | recv f ok =>
    show Inv5 (receivePacketDone c me f ok s)
    unfold receivePacketDone
    split_ifs
    · exact h
    · split
      · refine h.noUp ⟨?_, (receiveRts_adds c me f s).mono ?_⟩
        · unfold receiveRts; dsimp only; split_ifs <;> rfl
        · rintro o (⟨g, tx, rx, rfl⟩ | ⟨-, rfl⟩) <;> simp
      · refine h.noUp ⟨?_, (receiveCts_adds me f s).mono ?_⟩
        · have hc : (clearCts f.seq s).seqList = s.seqList := by unfold clearCts; split <;> rfl
          unfold receiveCts answerCts sendData
          split_ifs
          · rfl
          · split
            · split_ifs <;> exact hc
            · exact hc
        · rintro o ⟨-, t, -, -, -, rfl⟩; simp
      · unfold receiveData
        dsimp only
        split_ifs
        · exact h.filterUp f
        · exact h
        · exact (h.noUp (book_noUp c s _ _)).acceptData me f
        · exact h.noUp (book_noUp c s _ _)
        · exact h.acceptData me f
      · unfold receiveAck
        split_ifs
        · split
          · rename_i a _
            have h1 : Inv5 (s.cancel a.tid) := h.noUp ⟨rfl, Adds.of_eq rfl⟩
            exact (h1.noUp (sendDataDone_noUp true a.pkt _)).noUp ⟨rfl, Adds.of_eq rfl⟩
          · exact h
        · exact h
      · exact h
  | fire tid =>
    show Inv5 (fire c me tid s)
    unfold fire
    split
    · rename_i e he
      obtain ⟨i, ev⟩ := e
      have hd : Inv5 { s with pend := s.pend.filter (fun e => e.1 ≠ tid) } := h.noUp ⟨rfl, Adds.of_eq rfl⟩
      dsimp only
      unfold runEv
      cases ev with
      | ctsTimeout p =>
        show Inv5 (ctsTimeout c p _)
        rw [ctsTimeout_eq]
        have h1 : Inv5 (ctsPre c p { s with pend := s.pend.filter (fun e => e.1 ≠ tid) }) := by
          refine hd.noUp ⟨rfl, (ctsPre_adds c p _).mono ?_⟩
          rintro o (rfl | ⟨tx, rx, rfl⟩) <;> simp
        exact h1.noUp (retryOrDiscard_noUp c _ _ _)
      | ackTimeout q =>
        show Inv5 (ackTimeout c q _)
        rw [ackTimeout_eq]
        have h1 : Inv5 (ackPre c q { s with pend := s.pend.filter (fun e => e.1 ≠ tid) }) := by
          refine hd.noUp ⟨rfl, (ackPre_adds c q _).mono ?_⟩
          rintro o (rfl | ⟨tx, rx, rfl⟩) <;> simp
        exact h1.noUp (retryOrDiscard_noUp c _ _ _)
      | dataTimeout q => exact hd.noUp ⟨rfl, Adds.one (o := .ret 18 c.frameLength) rfl (by simp)⟩
      | checkResources p => exact hd.noUp (checkResources_noUp c me p _)
    · exact h
  | harvest =>
    show Inv5 (harvest c me s)
    unfold harvest
    dsimp only
    have h1 : Inv5 { s with energy := (c.energy.harvestStep s.energy).2 } := h.noUp ⟨rfl, Adds.of_eq rfl⟩
    split_ifs
    · exact h1.noUp (txFirstPacket_noUp c me _)
    · exact h1
  | einit =>
    show Inv5 (energyInit c me s)
    unfold energyInit harvest
    dsimp only
    have h1 : Inv5 { s with energy := (c.energy.harvestStep c.energy.initial).2 } := h.noUp ⟨rfl, Adds.of_eq rfl⟩
    split_ifs
    · exact h1.noUp (txFirstPacket_noUp c me _)
    · exact h1

theorem Inv5.init (e0 : ℚ) : Inv5 (St.init e0) := by
  intro a; simp [St.init, upsFrom, stored]

theorem Inv5.run {s : St} (h : Inv5 s) (c : Cfg) (me : Mac48) (ops : List Op) : Inv5 (run c me s ops) := by
  induction ops generalizing s with
  | nil => exact h
  | cons o os ih => exact ih (h.step c me o)

end Thz.Nano
