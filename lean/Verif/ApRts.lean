import Verif.ApCts

/-!
# Which RTSs are answered when a window closes: C34

`C34_scheduled_partial` and `C34_sent_partial` are about the list of collected RTSs.  Here: that list is what
was received since the last window closed.
-/

namespace Thz.Ap

open Central

/-- The intact RTSs received, with their power, since a collection window was last closed. -/
def collected (l : List Obs) : List (Frame × ℚ) :=
  l.foldl (fun b o => match o with
    | .rx f p => if f.kind = .rts then b ++ [(f, p)] else b
    | .closed => []
    | _ => b) []

theorem collected_snoc (l : List Obs) (o : Obs) : collected (l ++ [o]) = match o with
    | .rx f p => if f.kind = .rts then collected l ++ [(f, p)] else collected l
    | .closed => []
    | _ => collected l := by
  unfold collected; rw [List.foldl_append]; rfl

/-- The list is what the history says. -/
def Coll (s : St) : Prop := s.rtsList = collected s.log

theorem coll_of {s s' : St} (h : Coll s) (h1 : s'.rtsList = s.rtsList) (h2 : s'.log = s.log) : Coll s' := by
  unfold Coll; rw [h1, h2]; exact h

theorem coll_emit {s : St} (h : Coll s) (o : Obs) (ho : ∀ f p, o ≠ .rx f p) (hc : o ≠ .closed) : Coll (s.emit o) := by
  unfold Coll St.emit
  dsimp only
  rw [collected_snoc, h]
  cases o with
  | rx f p => exact absurd rfl (ho f p)
  | closed => exact absurd rfl hc
  | _ => rfl

theorem coll_sendPacket (c : Cfg) (f : Frame) {s : St} (h : Coll s) : Coll (sendPacket c f s) := by
  unfold sendPacket
  split
  · split
    · exact coll_emit (coll_of h rfl rfl) _ (by simp) (by simp)
    · exact coll_emit (coll_of h rfl rfl) _ (by simp) (by simp)
  · exact coll_emit h _ (by simp) (by simp)

theorem coll_wrapDown (n : Nat) {s : St} (h : Coll s) : Coll (wrapDown n s) := by
  induction n generalizing s with
  | zero => exact h
  | succ n ih =>
    unfold wrapDown
    split
    · exact ih (coll_emit (coll_of h rfl rfl) _ (by simp) (by simp))
    · exact h

theorem coll_turn (c : Cfg) (me : Mac48) {s : St} (h : Coll s) : Coll (turn c me s) := by
  unfold turn
  dsimp only
  set a := wrapUp (rounds (s.angle + c.beamwidth)) (s.angle + c.beamwidth)
  have h1 : Coll (wrapDown (rounds a) { s with angle := a }) := coll_wrapDown (rounds a) (coll_of h rfl rfl)
  generalize wrapDown (rounds a) { s with angle := a } = s1 at h1 ⊢
  have h2 : Coll (s1.emit (.turned s1.angle)) := coll_emit h1 _ (by simp) (by simp)
  generalize s1.emit (.turned s1.angle) = s2 at h2 ⊢
  split
  · exact coll_sendPacket c _ (coll_of h2 rfl rfl)
  · exact coll_sendPacket c _ (coll_of h2 rfl rfl)

theorem coll_sendAck (c : Cfg) {s : St} (h : Coll s) : Coll (sendAck c s) := by
  unfold sendAck
  split
  · exact coll_of h rfl rfl
  · rename_i a _ _
    exact coll_of (coll_sendPacket c a h) rfl rfl

theorem coll_cancel (t : Option Nat) {s : St} (h : Coll s) : Coll (s.cancel t) := by
  cases t <;> exact h

theorem coll_assign (c : Cfg) (i : Nat) (l : List (Mac48 × List (ℚ × ℚ))) {s : St} (h : Coll s) : Coll (assign c i l s) := by
  induction l generalizing i s with
  | nil => exact h
  | cons e rest ih =>
    unfold assign
    dsimp only
    refine ih _ (coll_of (coll_emit (s := { s with whiteList := mapUpsert ltQ (bestSector e.2) [] (· ++ [e.1]) s.whiteList })
      (coll_of h rfl rfl) (.listed e.1 (bestSector e.2)) (by simp) (by simp)) rfl rfl)

theorem coll_waitTime (c : Cfg) (me : Mac48) {s : St} : Coll (waitTimeExpired c me s) := by
  unfold waitTimeExpired
  dsimp only
  have h0 : collected (s.emit .closed).log = [] := by unfold St.emit; dsimp only; rw [collected_snoc]
  generalize s.emit .closed = s1 at h0 ⊢
  split
  · rename_i hl
    exact coll_turn c me (show s1.rtsList = _ by rw [hl, h0])
  · split
    · split
      · unfold initNodeMap
        dsimp only
        exact coll_of (coll_assign c 0 _ (s := { s1 with
          sectorMap := record s1.angle s1.rtsList s1.sectorMap, rtsList := [], recording := false,
          nodeMap := byNode (record s1.angle s1.rtsList s1.sectorMap) s1.nodeMap }) h0.symm) rfl rfl
      · exact coll_turn c me (s := { s1 with sectorMap := record s1.angle s1.rtsList s1.sectorMap, rtsList := [] }) h0.symm
    · show [] = collected (answer c 0 _ s1.rtsList s1).log
      rw [answer_log, h0]

theorem coll_forward (f : Frame) {s : St} (h : Coll s) : Coll (forwardIfNew f s) := by
  unfold forwardIfNew
  dsimp only
  split
  · exact coll_emit (coll_of h rfl rfl) _ (by simp) (by simp)
  · exact coll_of h rfl rfl

theorem coll_step (c : Cfg) (me : Mac48) {s : St} (h : Coll s) (op : Op) : Coll (step c me s op) := by
  cases op with
  | advance d => exact coll_of h rfl rfl
  | rxStart =>
    have := coll_cancel s.dataEv h
    show Coll (receivePacket s)
    unfold receivePacket
    dsimp only
    split
    · exact this
    · exact this
    · exact coll_of this rfl rfl
  | rxDone f ok p =>
    show Coll (receivePacketDone c me f ok p s)
    unfold receivePacketDone
    dsimp only
    split
    · exact coll_of h rfl rfl
    · have hr : collected ((({ s with state := .idle } : St).emit (.rx f p)).log) =
          if f.kind = .rts then s.rtsList ++ [(f, p)] else s.rtsList := by
        unfold St.emit; dsimp only; rw [collected_snoc, ← h]
      split
      · rename_i hk
        unfold Coll
        dsimp only
        rw [hr, if_pos hk]; rfl
      · rename_i hk
        have h1 : Coll (({ s with state := .idle } : St).emit (.rx f p)) := by
          unfold Coll
          rw [hr, if_neg (by rw [hk]; simp)]; rfl
        generalize (({ s with state := .idle } : St).emit (.rx f p)) = s1 at h1 ⊢
        unfold receiveData
        dsimp only
        refine coll_forward f ?_
        split
        · refine coll_sendAck c (coll_of (coll_cancel s1.sectorEv h1) ?_ ?_) <;> cases s1.sectorEv <;> rfl
        · exact coll_of h1 rfl rfl
      · rename_i hk _
        unfold Coll
        rw [hr, if_neg hk]; rfl
  | fire t =>
    show Coll (fire c me t s)
    unfold fire
    split
    · exact h
    · rename_i t0 due e _
      dsimp only
      have h0 : Coll { s with pend := s.pend.filter (fun e => e.1 ≠ t), now := max s.now due } := coll_of h rfl rfl
      generalize ({ s with pend := s.pend.filter (fun e => e.1 ≠ t), now := max s.now due } : St) = s0 at h0 ⊢
      cases e with
      | turn => exact coll_turn c me h0
      | dataTimeout => exact coll_turn c me (coll_cancel _ h0)
      | waitTime => exact coll_waitTime c me
      | sectorTimeout =>
        show Coll (sectorTimeout c me s0)
        unfold sectorTimeout
        split
        · exact coll_sendAck c h0
        · exact coll_turn c me h0
      | sendCts d q w g => exact coll_sendPacket c _ (coll_of h0 rfl rfl)
      | sendAck => exact coll_sendAck c h0
      | feedback a d => exact coll_sendPacket c _ (coll_of h0 rfl rfl)
      | phyDone f =>
        show Coll (sendPacketDone c f s0)
        unfold sendPacketDone
        dsimp only
        have h1 : Coll (({ s0 with phyTx := none } : St).emit (.txEnd f)) :=
          coll_emit (coll_of h0 rfl rfl) _ (by simp) (by simp)
        generalize (({ s0 with phyTx := none } : St).emit (.txEnd f)) = s1 at h1 ⊢
        split
        · exact h1
        · split
          · split
            · exact coll_of h1 rfl rfl
            · exact coll_of h1 rfl rfl
          · exact coll_of h1 rfl rfl

/-- C34: at any time the list that closing the window answers (`C34_scheduled_partial`, `C34_sent_partial`) holds exactly
the intact RTSs received since a window was last closed, in order of reception.  So no RTS is answered for two windows,
and none received in a window is forgotten when it closes. -/
theorem C34_collected (c : Cfg) (me : Mac48) (ops : List Op) :
    (after c me ops).rtsList = collected (after c me ops).log := by
  unfold after run
  suffices ∀ s : St, Coll s → Coll (ops.foldl (step c me) s) from this _ rfl
  induction ops with
  | nil => exact fun s h => h
  | cons o ops ih => exact fun s h => ih _ (coll_step c me h o)

/-- Two RTSs are collected in the example of `C34_sent_partial`. -/
example : (collected exTwo.log).length = 2 := by decide +kernel

end Thz.Ap
