import Verif.PhyMacroInv
import Mathlib.Analysis.SpecialFunctions.Log.Base
import Mathlib.Analysis.SpecialFunctions.Pow.Real
import Mathlib.Tactic.Positivity
import Mathlib.Tactic.FieldSimp
import Mathlib.Tactic.Ring
import Mathlib.Tactic.Linarith

/-!
# Theorems about the macro PHY: C45-C48, C83, C84
-/

namespace Thz.PhyMacro

/-! ## The two comparisons, over the reals -/

/-- `DbmToW` (model/thz-phy-macro.cc:416-420, model/thz-channel.cc:233-238). -/
noncomputable def dbmToW (dbm : ℝ) : ℝ := (10 : ℝ) ^ (dbm / 10) / 1000

/-- The comparisons as the code makes them, for carrier sense threshold, SINR threshold and noise floor in dB(m)
(model/thz-phy-macro.cc:308, 348-372; `GetNoiseW`, model/thz-channel.cc:225-231).  Real numbers instead of doubles. -/
noncomputable def realCfg (csTh sinrTh floor : ℝ) (ns : ℤ) : Cfg ℝ :=
  { loud := fun p => decide (p > csTh)
    sinr := fun p is => decide (10 * Real.logb 10 (dbmToW p / (dbmToW floor + (is.map dbmToW).sum)) > sinrTh)
    ns := ns }

/-- Attribute defaults -100 dBm, 10 dB, -110 dBm, in units of -110 dBm (10 femtowatts), with a tick of 1 ps. -/
def exCfg : Cfg ℕ := { loud := fun p => decide (10 < p), sinr := fun p is => decide (10 * (1 + is.sum) < p), ns := 1000 }

/-- A power given in these units, in dBm. -/
noncomputable def unitDbm (n : ℕ) : ℝ := -110 + 10 * Real.logb 10 n

theorem dbmToW_pos (x : ℝ) : 0 < dbmToW x := by unfold dbmToW; positivity

theorem sum_dbmToW_nonneg (is : List ℝ) : 0 ≤ (is.map dbmToW).sum := by
  induction is with
  | nil => simp
  | cons x is ih => simp only [List.map_cons, List.sum_cons]; have := dbmToW_pos x; linarith

theorem dbmToW_unit (n : ℕ) (hn : 0 < n) : dbmToW (unitDbm n) = n * dbmToW (-110) := by
  unfold dbmToW unitDbm
  have hn' : (0 : ℝ) < n := by exact_mod_cast hn
  rw [show (-110 + 10 * Real.logb 10 (n : ℝ)) / 10 = Real.logb 10 n + (-110 / 10 : ℝ) by ring, Real.rpow_add (by norm_num),
    Real.rpow_logb (by norm_num) (by norm_num) hn']
  ring

/-- **C48, the criterion.**  The comparison of decibels says: received power above `10^(th/10)` times noise floor plus
the sum of the interfering powers, in watts. -/
theorem C48_sinr_watts (csTh sinrTh floor : ℝ) (ns : ℤ) (p : ℝ) (is : List ℝ) :
    (realCfg csTh sinrTh floor ns).sinr p is = true ↔
      (10 : ℝ) ^ (sinrTh / 10) * (dbmToW floor + (is.map dbmToW).sum) < dbmToW p := by
  have h1 := dbmToW_pos floor
  have h2 := sum_dbmToW_nonneg is
  have h3 := dbmToW_pos p
  have h4 : 0 < dbmToW floor + (is.map dbmToW).sum := by linarith
  simp only [realCfg, decide_eq_true_eq, gt_iff_lt]
  rw [show (sinrTh < 10 * Real.logb 10 (dbmToW p / (dbmToW floor + (is.map dbmToW).sum))) ↔
      sinrTh / 10 < Real.logb 10 (dbmToW p / (dbmToW floor + (is.map dbmToW).sum)) by
    constructor <;> intro h <;> linarith]
  rw [Real.lt_logb_iff_rpow_lt (by norm_num) (by positivity), lt_div_iff₀ h4]

/-- The parameters of the examples are the attribute defaults. -/
theorem exCfg_default (n : ℕ) (hn : 0 < n) (is : List ℕ) (his : ∀ i ∈ is, 0 < i) :
    (realCfg (-100) 10 (-110) 1000).loud (unitDbm n) = exCfg.loud n ∧
    (realCfg (-100) 10 (-110) 1000).sinr (unitDbm n) (is.map unitDbm) = exCfg.sinr n is := by
  have hn' : (0 : ℝ) < n := by exact_mod_cast hn
  constructor
  · simp only [realCfg, exCfg, unitDbm, gt_iff_lt, decide_eq_decide]
    rw [show (-100 < -110 + 10 * Real.logb 10 (n : ℝ)) ↔ 1 < Real.logb 10 (n : ℝ) by
      constructor <;> intro h <;> linarith]
    rw [Real.lt_logb_iff_rpow_lt (by norm_num) hn', Real.rpow_one]
    exact_mod_cast Iff.rfl
  · have hb : ∀ a b : Bool, (a = true ↔ b = true) → a = b := by decide
    apply hb
    rw [C48_sinr_watts]
    have hs : ((is.map unitDbm).map dbmToW).sum = is.sum * dbmToW (-110) := by
      clear hn hn'
      induction is with
      | nil => simp
      | cons x is ih =>
        simp only [List.map_cons, List.sum_cons, Nat.cast_add]
        rw [ih (fun i hi => his i (List.mem_cons_of_mem _ hi)), dbmToW_unit x (his x List.mem_cons_self)]
        ring
    rw [hs, dbmToW_unit n hn]
    have h0 := dbmToW_pos (-110)
    simp only [exCfg, decide_eq_true_eq]
    rw [show (10 : ℝ) ^ ((10 : ℝ) / 10) * (dbmToW (-110) + (is.sum : ℝ) * dbmToW (-110)) =
      ((10 * (1 + is.sum) : ℕ) : ℝ) * dbmToW (-110) by norm_num; ring]
    rw [mul_lt_mul_iff_left₀ h0]
    exact_mod_cast Iff.rfl

variable {P : Type} {c : Cfg P}

/-! ## Histories of the log -/

theorem split_append {α : Type} {l m x z : List α} {a : α} (h : l ++ m = x ++ a :: z) :
    (∃ z', l = x ++ a :: z' ∧ z = z' ++ m) ∨ (∃ m1, x = l ++ m1 ∧ m = m1 ++ a :: z) := by
  rcases List.append_eq_append_iff.1 h with ⟨w, h1, h2⟩ | ⟨w, h1, h2⟩
  · exact .inr ⟨w, h1, h2⟩
  · cases w with
    | nil => exact .inr ⟨[], by simpa using h1.symm, by simpa using h2.symm⟩
    | cons y w =>
      simp only [List.cons_append, List.cons.injEq] at h2
      obtain ⟨rfl, rfl⟩ := h2
      exact .inl ⟨w, h1, rfl⟩

/-- Every entry is justified by what precedes it. -/
def Pre (R : List (Obs P) → Obs P → Prop) (l : List (Obs P)) : Prop := ∀ x o z, l = x ++ o :: z → R x o

theorem Pre.nil (R : List (Obs P) → Obs P → Prop) : Pre R [] := by
  intro x o z h; simp at h

theorem Pre.snoc {R : List (Obs P) → Obs P → Prop} {l : List (Obs P)} (h : Pre R l) {o : Obs P} (ho : R l o) : Pre R (l ++ [o]) := by
  intro x o' z hx
  rcases split_append hx with ⟨z', h1, _⟩ | ⟨m1, h1, h2⟩
  · exact h x o' z' h1
  · cases m1 with
    | nil =>
      simp only [List.nil_append, List.cons.injEq] at h2
      rw [h1, List.append_nil, ← h2.1]; exact ho
    | cons y m1 => simp at h2

theorem Pre.mono {R R' : List (Obs P) → Obs P → Prop} {l : List (Obs P)} (h : Pre R l) (hR : ∀ x o, R x o → R' x o) : Pre R' l :=
  fun x o z hx => hR x o (h x o z hx)

/-! ## C45: half duplex -/

/-- Every transmission after this point is followed by the arrival of another audible signal. -/
def Masked (c : Cfg P) (y : List (Obs P)) : Prop :=
  ∀ y1 y2 t i, y = y1 ++ Obs.txStart t i :: y2 → ∃ t' q d pw, Obs.rxBegin t' q d pw ∈ y2 ∧ c.loud pw = true

/-- A frame was locked on to: it was audible, the PHY was not transmitting, and the MAC was told. -/
def Locked (c : Cfg P) (x : List (Obs P)) (p : Nat) (pw : P) (t0 d : ℤ) (y : List (Obs P)) : Prop :=
  ∃ a, x = a ++ Obs.rxBegin t0 p d pw :: Obs.announced t0 p :: y ∧ c.loud pw = true ∧ cur a = none

/-- The other signals on the air at time `t`, after history `l`. -/
def onAir (p : Nat) (t : ℤ) (l : List (Obs P)) : List P :=
  ((arrivals l).filter (fun r => decide (r.id ≠ p ∧ t ≤ r.start + r.dur))).map (·.pw)

theorem interferers_eq (p : Nat) (t : ℤ) (l : List (Obs P)) : interferers p t (arrivals l) = onAir p t l := by
  unfold interferers onAir
  congr 1
  apply List.filter_congr
  intro r _
  apply decide_eq_decide.2
  constructor <;> rintro ⟨h1, h2⟩ <;> exact ⟨h1, by omega⟩

/-- Why an entry is in the log. -/
def Why (c : Cfg P) (x : List (Obs P)) : Obs P → Prop
  | .txStart _ _ => cur x = none
  | .txEnd _ id => cur x = some id
  | .announced t id => ∃ a d pw, x = a ++ [Obs.rxBegin t id d pw] ∧ c.loud pw = true ∧ cur a = none
  | .notice t id true => ∃ pw t0 d y, Locked c x id pw t0 d (y ++ [.rxEnd t id]) ∧ t0 + d ≤ t ∧ Masked c y ∧
      c.sinr pw (onAir id t x) = true
  | _ => True

theorem Masked.append {y m : List (Obs P)} (h : Masked c y) (hm : ∀ t i, Obs.txStart t i ∉ m) : Masked c (y ++ m) := by
  intro y1 y2 t i hy
  rcases split_append hy with ⟨z', h1, h2⟩ | ⟨m1, h1, h2⟩
  · obtain ⟨t', q, d, pw, h3, h4⟩ := h y1 z' t i h1
    exact ⟨t', q, d, pw, by rw [h2]; exact List.mem_append_left _ h3, h4⟩
  · exact absurd (by rw [h2]; simp) (hm t i)

theorem Masked.covered (y : List (Obs P)) (t : ℤ) (q : Nat) (d : ℤ) (pw : P) (hl : c.loud pw = true) :
    Masked c (y ++ [.rxBegin t q d pw]) := by
  intro y1 y2 t' i hy
  rcases split_append hy with ⟨z', h1, h2⟩ | ⟨m1, h1, h2⟩
  · exact ⟨t, q, d, pw, by rw [h2]; simp, hl⟩
  · cases m1 with
    | nil => simp at h2
    | cons w m1 => simp at h2

/-- The log is justified; the frame locked on to is in the log. -/
structure Hist (c : Cfg P) (s : St P) : Prop where
  why : Pre (Why c) s.log
  lock : ∀ p, s.pktRx = some p → ∃ pw t0 d y, Locked c s.log p pw t0 d y ∧ (s.state = .rx → Masked c y)

theorem Locked.append {x y : List (Obs P)} {p : Nat} {pw : P} {t0 d : ℤ} (h : Locked c x p pw t0 d y) (m : List (Obs P)) :
    Locked c (x ++ m) p pw t0 d (y ++ m) := by
  obtain ⟨a, h1, h2⟩ := h
  exact ⟨a, by rw [h1]; simp, h2⟩

/-- Two arrivals with the same id are the same. -/
theorem Inv.same {s : St P} (i : Inv c s) {t t' : ℤ} {p : Nat} {d d' : ℤ} {pw pw' : P} (h : Obs.rxBegin t p d pw ∈ s.log)
    (h' : Obs.rxBegin t' p d' pw' ∈ s.log) : t = t' ∧ d = d' ∧ pw = pw' := by
  have hn : ((arrivals s.log).map (·.id)).Nodup := by rw [i.ids]; exact List.nodup_range
  have h1 : (⟨p, t, d, pw⟩ : Rx P) ∈ arrivals s.log := mem_arrivals.2 h
  have h2 : (⟨p, t', d', pw'⟩ : Rx P) ∈ arrivals s.log := mem_arrivals.2 h'
  have := List.inj_on_of_nodup_map hn h1 h2 rfl
  cases this
  exact ⟨rfl, rfl, rfl⟩

theorem Hist.keep {s : St P} (h : Hist c s) {now : ℤ} {st : State} {m : List (Obs P)} {busy : Bool} {fin : ℤ} {og : List (Rx P)}
    {pd : List (Nat × ℤ × Ev P)} {nt ni : Nat} (hst : st = .rx → s.state = .rx)
    (hw : Pre (Why c) (s.log ++ m)) (hm : st = .rx → ∀ t i, Obs.txStart t i ∉ m) :
    Hist c ⟨now, st, busy, fin, s.pktRx, og, pd, nt, ni, s.log ++ m⟩ := by
  refine ⟨hw, ?_⟩
  intro p hp
  obtain ⟨pw, t0, d, y, h1, h2⟩ := h.lock p hp
  exact ⟨pw, t0, d, y ++ m, h1.append m, fun hs => (h2 (hst hs)).append (hm hs)⟩

theorem Hist.move {s s' : St P} (i : Inv c s) (h : Hist c s) (m : Move c s s') : Hist c s' := by
  cases m with
  | wait d => exact ⟨h.why, h.lock⟩
  | refuse id hs => exact h.keep (fun h => h) (h.why.snoc trivial) (by simp)
  | start id dur hs =>
    have hc : cur s.log = none := by
      by_contra hc; exact hs (i.st.2 hc)
    exact h.keep (by intro h; cases h) (h.why.snoc hc) (by intro h; cases h)
  | stop a b tid due id hp =>
    exact h.keep (by intro h; cases h) (h.why.snoc (i.stop hp).1) (by intro h; cases h)
  | deaf dur pw _ => exact h.keep (fun h => h) (h.why.snoc trivial) (by simp)
  | lock dur pw h1 h2 h3 h4 =>
    have hc : cur s.log = none := by
      by_contra hc; exact h1 (i.st.2 hc)
    constructor
    · show Pre (Why c) (s.log ++ [_, _])
      rw [show s.log ++ [Obs.rxBegin s.now s.nextId (dur : ℤ) pw, Obs.announced s.now s.nextId] =
        (s.log ++ [Obs.rxBegin s.now s.nextId (dur : ℤ) pw]) ++ [Obs.announced s.now s.nextId] by simp]
      exact Pre.snoc (Pre.snoc h.why (by trivial)) ⟨s.log, dur, pw, rfl, h2, hc⟩
    · intro p hp
      cases hp
      exact ⟨pw, s.now, dur, [], ⟨s.log, rfl, h2, hc⟩, fun _ y1 y2 t i hy => by simp at hy⟩
  | stretch dur pw h1 h2 h3 h4 =>
    refine ⟨h.why.snoc trivial, ?_⟩
    intro p hp
    obtain ⟨pw', t0, d, y, h5, _⟩ := h.lock p hp
    exact ⟨pw', t0, d, _, h5.append _, fun _ => Masked.covered y _ _ _ pw h2⟩
  | pass a b tid due id pw hp hs => exact h.keep (fun h => h) (h.why.snoc trivial) (by simp)
  | good a b tid due id pw hp hs hk hsin =>
    refine h.keep (by intro h; cases h) ?_ (by intro h; cases h)
    rw [show s.log ++ [Obs.rxEnd (max s.now due) id, Obs.notice (max s.now due) id true] =
      (s.log ++ [Obs.rxEnd (max s.now due) id]) ++ [Obs.notice (max s.now due) id true] by simp]
    refine Pre.snoc (Pre.snoc h.why (by trivial)) ?_
    obtain ⟨pw', t0, d, y, h5, h6⟩ := h.lock id hk
    have hmem : (tid, due, Ev.rxDone id pw) ∈ s.pend := by rw [hp]; simp
    obtain ⟨t1, d1, h7, h8⟩ := i.due _ hmem id pw rfl
    have h9 : Obs.rxBegin t0 id d pw' ∈ s.log := by obtain ⟨a, ha, _⟩ := h5; rw [ha]; simp
    obtain ⟨rfl, rfl, rfl⟩ := i.same h7 h9
    refine ⟨pw, t1, d1, y, h5.append _, ?_, h6 hs, ?_⟩
    · simp only at h8
      have := Int.le_max_right s.now due
      omega
    · rw [← interferers_eq, arrivals_append, ← i.ong]
      simpa [arrivals] using hsin
  | bad a b tid due id pw hp hs hk hsin hr =>
    refine h.keep (by intro h; cases h) ?_ (by intro h; cases h)
    rw [show s.log ++ [Obs.rxEnd (max s.now due) id, Obs.notice (max s.now due) id false] =
      (s.log ++ [Obs.rxEnd (max s.now due) id]) ++ [Obs.notice (max s.now due) id false] by simp]
    exact Pre.snoc (Pre.snoc h.why (by trivial)) (by trivial)
  | bad2 a b tid due id pw hp hs hk hsin hr =>
    refine h.keep (by intro h; cases h) ?_ (by intro h; cases h)
    rw [show s.log ++ [Obs.rxEnd (max s.now due) id, Obs.notice (max s.now due) id false, Obs.notice (max s.now due) id false] =
      ((s.log ++ [Obs.rxEnd (max s.now due) id]) ++ [Obs.notice (max s.now due) id false]) ++
        [Obs.notice (max s.now due) id false] by simp]
    exact Pre.snoc (Pre.snoc (Pre.snoc h.why (by trivial)) (by trivial)) (by trivial)
  | drop a b tid due id pw hp hs hk hr =>
    refine h.keep (by intro h; cases h) ?_ (by intro h; cases h)
    rw [show s.log ++ [Obs.rxEnd (max s.now due) id, Obs.notice (max s.now due) id false] =
      (s.log ++ [Obs.rxEnd (max s.now due) id]) ++ [Obs.notice (max s.now due) id false] by simp]
    exact Pre.snoc (Pre.snoc h.why (by trivial)) (by trivial)
  | mute a b tid due id pw hp hs hk hr => exact h.keep (fun _ => hs) (h.why.snoc trivial) (by simp)

theorem hist_after (hns : 0 ≤ c.ns) (ops : List (Op P)) : Hist c (after c ops) :=
  (reach (Q := Hist c) hns ⟨Pre.nil _, by simp [init]⟩ (fun _ _ i h m => h.move i m) ops).2

/-- **C45, transmissions.**  Between the starts of two transmissions the first one ended. -/
theorem C45_one_transmission_at_a_time (hns : 0 ≤ c.ns) (ops : List (Op P)) (l1 l2 l3 : List (Obs P)) (t t' : ℤ) (i i' : Nat)
    (h : (after c ops).log = l1 ++ Obs.txStart t i :: (l2 ++ Obs.txStart t' i' :: l3)) : ∃ te, Obs.txEnd te i ∈ l2 := by
  have hw := (hist_after hns ops).why
  by_contra hno
  have key : ∀ (l2 r : List (Obs P)), (after c ops).log = l1 ++ Obs.txStart t i :: (l2 ++ r) → (∀ te, Obs.txEnd te i ∉ l2) →
      cur (l1 ++ Obs.txStart t i :: l2) = some i := by
    intro l2
    induction l2 using List.reverseRecOn with
    | nil => intro r _ _; rw [cur_append]; rfl
    | append_singleton l2 o ih =>
      intro r hl hno
      have hl' : (after c ops).log = (l1 ++ Obs.txStart t i :: l2) ++ o :: r := by rw [hl]; simp
      have hc := ih (o :: r) (by rw [hl]; simp) (fun te hte => hno te (List.mem_append_left _ hte))
      have hx := hw _ o r hl'
      rw [show l1 ++ Obs.txStart t i :: (l2 ++ [o]) = (l1 ++ Obs.txStart t i :: l2) ++ [o] by simp, cur_append, hc]
      cases o with
      | txStart t1 i1 => simp only [Why] at hx; rw [hc] at hx; cases hx
      | txEnd t1 i1 =>
        simp only [Why] at hx; rw [hc] at hx; cases hx
        exact absurd (List.mem_append_right _ (List.mem_singleton.2 rfl)) (hno t1)
      | _ => rfl
  have hc := key l2 _ h (fun te hte => hno ⟨te, hte⟩)
  have := hw (l1 ++ Obs.txStart t i :: l2) (Obs.txStart t' i') l3 (by rw [h]; simp)
  simp only [Why] at this
  rw [hc] at this; cases this

/-- **C45, what holds for receptions.**  A frame is reported as received only if it is audible, began while the PHY was
not transmitting, and every transmission the PHY started during its reception was followed, still before its end, by the
arrival of another audible signal. -/
theorem C45_success_partial (hns : 0 ≤ c.ns) (ops : List (Op P)) (l1 l2 : List (Obs P)) (t : ℤ) (p : Nat)
    (h : (after c ops).log = l1 ++ Obs.notice t p true :: l2) :
    ∃ a t0 d pw y, l1 = a ++ Obs.rxBegin t0 p d pw :: (y ++ [Obs.rxEnd t p]) ∧ c.loud pw = true ∧ cur a = none ∧ t0 + d ≤ t ∧
      ∀ y1 y2 ts i, y = y1 ++ Obs.txStart ts i :: y2 → ∃ t' q d' pw', Obs.rxBegin t' q d' pw' ∈ y2 ∧ c.loud pw' = true := by
  obtain ⟨pw, t0, d, y, ⟨a, h1, h2, h3⟩, h4, h5, _⟩ := (hist_after hns ops).why l1 _ l2 h
  refine ⟨a, t0, d, pw, .announced t0 p :: y, by rw [h1]; simp, h2, h3, h4, ?_⟩
  have : Masked c ([Obs.announced t0 p] ++ y) := by
    intro y1 y2 ts i hy
    cases y1 with
    | nil => simp at hy
    | cons w y1 =>
      simp only [List.cons_append, List.nil_append, List.cons.injEq] at hy
      exact h5 y1 y2 ts i hy.2
  exact this

/-- A signal of 100 ns; 1 ns after its beginning the node transmits for 2 ns; later a longer signal arrives. -/
def runHalf : List (Op ℕ) :=
  [.arrive 100000 500, .advance 1000, .send 7 2000, .fire 1, .advance 7000, .arrive 200000 20, .fire 0]

/-- **C45 fails.**  The node transmitted during the reception and the frame is reported as received. -/
theorem C45_half_duplex_violated : timely exCfg (init ℕ) runHalf = true ∧
    (after exCfg runHalf).log = [.rxBegin 0 0 100000 500, .announced 0 0, .txStart 1000 7, .txEnd 3000 7,
      .rxBegin 10000 1 200000 20, .rxEnd 100000 0, .notice 100000 0 true] := by decide +kernel

/-! ## C46: one result per frame -/

/-- **C46, what holds.**  A frame gets no result, one, or two failures; in particular one success at most and then nothing
else. -/
theorem C46_results_partial (hns : 0 ≤ c.ns) (ops : List (Op P)) (id : Nat) :
    notices id (after c ops).log = [] ∨ notices id (after c ops).log = [true] ∨ notices id (after c ops).log = [false] ∨
    notices id (after c ops).log = [false, false] := by
  have := (inv_after hns ops).nums id
  simpa using this

/-- **C46, success.**  A frame reported as received was announced to the MAC when it began. -/
theorem C46_success_announced (hns : 0 ≤ c.ns) (ops : List (Op P)) (l1 l2 : List (Obs P)) (t : ℤ) (p : Nat)
    (h : (after c ops).log = l1 ++ Obs.notice t p true :: l2) :
    ∃ a t0 d pw b, l1 = a ++ Obs.rxBegin t0 p d pw :: Obs.announced t0 p :: (b ++ [Obs.rxEnd t p]) := by
  obtain ⟨pw, t0, d, y, ⟨a, h1, _⟩, _⟩ := (hist_after hns ops).why l1 _ l2 h
  exact ⟨a, t0, d, pw, y, h1⟩

/-- Two signals that end together, the second one strong. -/
def runTwice : List (Op ℕ) := [.arrive 100000 50, .advance 10000, .arrive 90000 1000, .fire 0]

/-- **C46 fails.**  The MAC is told twice that the reception failed. -/
theorem C46_twice_violated : timely exCfg (init ℕ) runTwice = true ∧
    notices 0 (after exCfg runTwice).log = [false, false] := by decide +kernel

/-! ## C47: carrier sense is released -/

/-- **C47.**  If carrier sense is busy or the PHY is receiving, a signal is on the air whose end is pending; whenever that
end is processed, carrier sense is free and the PHY not receiving.  With no end of a signal pending, the PHY is idle
unless it transmits. -/
theorem C47_released (hns : 0 ≤ c.ns) (ops : List (Op P)) :
    ((after c ops).csBusy = true ∨ (after c ops).state = .rx →
      ∃ tid due id pw, (tid, due, Ev.rxDone id pw) ∈ (after c ops).pend ∧
        (∃ t d, Obs.rxBegin t id d pw ∈ (after c ops).log ∧ due = t + d) ∧
        (step c (after c ops) (.fire tid)).csBusy = false ∧ (step c (after c ops) (.fire tid)).state ≠ .rx) ∧
    ((∀ tid due id pw, (tid, due, Ev.rxDone id pw) ∉ (after c ops).pend) →
      isIdle (after c ops) = true ∨ (after c ops).state = .tx) := by
  have i := inv_after hns ops
  generalize after c ops = s at *
  constructor
  · intro h
    have hb : s.csBusy = true := h.elim (fun h => h) i.rxBusy
    obtain ⟨⟨tid, due, ev⟩, he, id, pw, h1, h2⟩ := i.busy hb
    simp only at h1 h2
    subst h1
    refine ⟨tid, due, id, pw, he, i.due _ he id pw rfl, ?_⟩
    obtain ⟨e, hf, htid⟩ : ∃ e, s.pend.find? (fun e => e.1 = tid) = some e ∧ e = (tid, due, Ev.rxDone id pw) := by
      cases hf : s.pend.find? (fun e => e.1 = tid) with
      | none => exact absurd (List.find?_eq_none.1 hf _ he) (by simp)
      | some e =>
        refine ⟨e, rfl, ?_⟩
        have h3 := List.mem_of_find?_eq_some hf
        have h4 : e.1 = tid := by simpa using List.find?_some hf
        exact List.inj_on_of_nodup_map i.tid h3 he h4
    subst htid
    have hrel : (if s.csBusyEnd ≤ max s.now due + c.ns then false else s.csBusy) = false := by
      rw [if_pos]; have := Int.le_max_right s.now due; omega
    show (fire c tid s).csBusy = false ∧ (fire c tid s).state ≠ .rx
    unfold fire
    rw [hf]
    show (conclude c id pw _).csBusy = false ∧ (conclude c id pw _).state ≠ .rx
    unfold conclude
    simp only [St.emit, hrel]
    split
    · rename_i hs; exact ⟨rfl, hs⟩
    · split
      · split
        · exact ⟨rfl, by simp⟩
        · exact ⟨rfl, by simp⟩
      · exact ⟨rfl, by simp⟩
  · intro h
    have hb : s.csBusy = false := by
      cases hb : s.csBusy with
      | false => rfl
      | true =>
        obtain ⟨⟨tid, due, ev⟩, he, id, pw, h1, _⟩ := i.busy hb
        simp only at h1; subst h1
        exact absurd he (h tid due id pw)
    cases hs : s.state with
    | idle => left; simp [isIdle, hs, hb]
    | tx => exact .inr rfl
    | rx => have := i.rxBusy hs; rw [hb] at this; cases this

/-- Busy with three overlapping signals, free after the last. -/
example : (after exCfg [.arrive 100000 50, .arrive 150000 60, .advance 10000, .arrive 90000 1000]).csBusy = true ∧
    isIdle (after exCfg [.arrive 100000 50, .arrive 150000 60, .advance 10000, .arrive 90000 1000, .fire 0, .fire 2, .fire 1]) = true := by
  decide +kernel

/-! ## C83: carrier sense hears audible signals -/

/-- **C83, what holds.**  While an audible signal is on the air that began when the PHY was not transmitting, and more than
1 ns remains of it, carrier sense is busy and the PHY says that it is not idle. -/
theorem C83_sensed_partial (hns : 0 ≤ c.ns) (ops : List (Op P)) (l1 l2 : List (Obs P)) (t : ℤ) (p : Nat) (d : ℤ) (pw : P)
    (h : (after c ops).log = l1 ++ Obs.rxBegin t p d pw :: l2) (hl : c.loud pw = true) (hc : cur l1 = none)
    (hn : (after c ops).now + c.ns < t + d) : (after c ops).csBusy = true ∧ isIdle (after c ops) = false := by
  suffices hb : (after c ops).csBusy = true from ⟨hb, by simp [isIdle, hb]⟩
  have i := inv_after hns ops
  have key : ∀ l1 t p d pw l2, (after c ops).log = l1 ++ Obs.rxBegin t p d pw :: l2 → c.loud pw = true → cur l1 = none →
      t + d ≤ (after c ops).csBusyEnd := by
    refine (reach (Q := fun s => ∀ l1 t p d pw l2, s.log = l1 ++ Obs.rxBegin t p d pw :: l2 → c.loud pw = true → cur l1 = none →
      t + d ≤ s.csBusyEnd) hns (by intro l1 t p d pw l2 h; simp [init] at h) ?_ ops).2
    intro s s' i hs m
    have ext : ∀ (m : List (Obs P)), (∀ t p d pw, Obs.rxBegin t p d pw ∉ m) → ∀ l1 t p d pw l2,
        s.log ++ m = l1 ++ Obs.rxBegin t p d pw :: l2 → c.loud pw = true → cur l1 = none → t + d ≤ s.csBusyEnd := by
      intro m hm l1 t p d pw l2 h hl hc
      rcases split_append h with ⟨z', h1, h2⟩ | ⟨m1, h1, h2⟩
      · exact hs l1 t p d pw z' h1 hl hc
      · exact absurd (by rw [h2]; simp) (hm t p d pw)
    have ext2 : ∀ (os : List (Obs P)) (dur : Nat) (pw0 : P) (fin : ℤ), (∀ t p d pw, Obs.rxBegin t p d pw ∉ os) → s.csBusyEnd ≤ fin →
        (c.loud pw0 = true → s.state ≠ .tx → s.now + dur ≤ fin) → ∀ l1 t p d pw l2,
        s.log ++ (Obs.rxBegin s.now s.nextId dur pw0 :: os) = l1 ++ Obs.rxBegin t p d pw :: l2 → c.loud pw = true → cur l1 = none →
        t + d ≤ fin := by
      intro os dur pw0 fin hos hf hd l1 t p d pw l2 h hl hc
      rcases split_append h with ⟨z', h1, h2⟩ | ⟨m1, h1, h2⟩
      · have := hs l1 t p d pw z' h1 hl hc; omega
      · cases m1 with
        | nil =>
          simp only [List.nil_append, List.cons.injEq, Obs.rxBegin.injEq] at h2
          obtain ⟨⟨rfl, rfl, rfl, rfl⟩, _⟩ := h2
          refine hd hl (fun hst => ?_)
          rw [h1, List.append_nil] at hc
          exact i.st.1 hst hc
        | cons w m1 =>
          simp only [List.cons_append, List.cons.injEq] at h2
          exact absurd (by rw [h2.2]; simp) (hos t p d pw)
    cases m with
    | wait d => exact hs
    | refuse id _ => exact ext _ (by simp)
    | start id dur _ => exact ext _ (by simp)
    | stop a b tid due id _ => exact ext _ (by simp)
    | deaf dur pw h1 =>
      refine ext2 [] dur pw _ (by simp) (Int.le_refl _) ?_
      intro hl hst
      rcases h1 with h1 | h1 | h1
      · exact absurd h1 hst
      · rw [hl] at h1; cases h1
      · exact h1
    | lock dur pw h1 h2 h3 h4 =>
      exact ext2 [.announced s.now s.nextId] dur pw _ (by simp) (Int.le_of_lt h3) (fun _ _ => Int.le_refl _)
    | stretch dur pw h1 h2 h3 h4 => exact ext2 [] dur pw _ (by simp) (Int.le_of_lt h3) (fun _ _ => Int.le_refl _)
    | pass a b tid due id pw _ _ => exact ext _ (by simp)
    | good a b tid due id pw _ _ _ _ => exact ext _ (by simp)
    | bad a b tid due id pw _ _ _ _ _ => exact ext _ (by simp)
    | bad2 a b tid due id pw _ _ _ _ _ => exact ext _ (by simp)
    | drop a b tid due id pw _ _ _ _ => exact ext _ (by simp)
    | mute a b tid due id pw _ _ _ _ => exact ext _ (by simp)
  have h1 := key l1 t p d pw l2 h hl hc
  by_contra hb
  have := i.free (by simpa using hb)
  omega

/-- **C83 fails.**  A strong signal that begins during a short transmission: after the transmission the PHY says idle for
the remaining 97 of 100 ns. -/
theorem C83_unsensed_violated :
    timely exCfg (init ℕ) [.send 7 2000, .advance 1000, .arrive 100000 1000, .fire 0] = true ∧
    isIdle (after exCfg [.send 7 2000, .advance 1000, .arrive 100000 1000, .fire 0]) = true ∧
    (after exCfg [.send 7 2000, .advance 1000, .arrive 100000 1000, .fire 0]).pend = [(1, 101000, .rxDone 0 1000)] ∧
    (after exCfg [.send 7 2000, .advance 1000, .arrive 100000 1000, .fire 0]).now = 2000 := by decide +kernel

/-! ## C48 and C84: the outcome of a reception -/

/-- From here on: no transmission, and no signal ended within the last nanosecond before `fin`, or later. -/
def Undisturbed (c : Cfg P) (fin : ℤ) (y : List (Obs P)) : Prop :=
  (∀ t i, Obs.txStart t i ∉ y) ∧ ∀ t q, Obs.rxEnd t q ∈ y → t + c.ns < fin

/-- The PHY stays locked while undisturbed. -/
def Stays (c : Cfg P) (s : St P) : Prop :=
  ∀ x t p y, s.log = x ++ Obs.announced t p :: y → ∀ t0 d pw, Obs.rxBegin t0 p d pw ∈ x → Undisturbed c (t0 + d) y →
    s.state = .rx ∧ s.pktRx = some p ∧ t0 + d ≤ s.csBusyEnd

theorem Undisturbed.left {fin : ℤ} {y m : List (Obs P)} (h : Undisturbed c fin (y ++ m)) : Undisturbed c fin y :=
  ⟨fun t i hm => h.1 t i (List.mem_append_left _ hm), fun t q hm => h.2 t q (List.mem_append_left _ hm)⟩

theorem Stays.move {s s' : St P} (hns : 0 ≤ c.ns) (i : Inv c s) (h : Stays c s) (m : Move c s s') : Stays c s' := by
  -- entries other than `announced`
  have old : ∀ (m : List (Obs P)), (∀ t p, Obs.announced t p ∉ m) → ∀ x t p y, s.log ++ m = x ++ Obs.announced t p :: y →
      ∀ t0 d pw, Obs.rxBegin t0 p d pw ∈ x → Undisturbed c (t0 + d) y →
      Undisturbed c (t0 + d) m ∧ Obs.rxBegin t0 p d pw ∈ s.log ∧ s.state = .rx ∧ s.pktRx = some p ∧ t0 + d ≤ s.csBusyEnd := by
    intro m hm x t p y hl t0 d pw hx hu
    rcases split_append hl with ⟨z', h1, h2⟩ | ⟨m1, h1, h2⟩
    · rw [h2] at hu
      exact ⟨⟨fun t i hm => hu.1 t i (List.mem_append_right _ hm), fun t q hm => hu.2 t q (List.mem_append_right _ hm)⟩,
        by rw [h1]; exact List.mem_append_left _ hx, h x t p z' h1 t0 d pw hx hu.left⟩
    · exact absurd (by rw [h2]; simp) (hm t p)
  -- the end of the frame itself
  have own : ∀ {a b : List (Nat × ℤ × Ev P)} {tid : Nat} {due : ℤ} {id : Nat} {pw : P} {p : Nat} {t0 d : ℤ} {pw' : P} {os : List (Obs P)},
      s.pend = a ++ (tid, due, .rxDone id pw) :: b → s.pktRx = some id → s.pktRx = some p → Obs.rxBegin t0 p d pw' ∈ s.log →
      Undisturbed c (t0 + d) (Obs.rxEnd (max s.now due) id :: os) → False := by
    intro a b tid due id pw p t0 d pw' os hp hk hk' hx hu
    rw [hk] at hk'; cases hk'
    obtain ⟨t1, d1, h7, h8⟩ := i.due _ (by rw [hp]; simp : (tid, due, Ev.rxDone id pw) ∈ s.pend) id pw rfl
    obtain ⟨rfl, rfl, rfl⟩ := i.same h7 hx
    have h1 := hu.2 _ _ List.mem_cons_self
    have h2 := Int.le_max_right s.now due
    simp only at h8
    omega
  have rel : ∀ {due : ℤ} {id : Nat} {fin : ℤ} {os : List (Obs P)}, Undisturbed c fin (Obs.rxEnd (max s.now due) id :: os) →
      fin ≤ s.csBusyEnd → s.state = .rx → released c due s = true := by
    intro due id fin os hu hf hs
    have h1 := hu.2 _ _ List.mem_cons_self
    unfold released
    rw [if_neg (by omega)]
    exact i.rxBusy hs
  cases m with
  | wait d => exact h
  | refuse id hs =>
    intro x t p y hl t0 d pw hx hu
    exact (old [_] (by simp) x t p y hl t0 d pw hx hu).2.2
  | start id dur hs =>
    intro x t p y hl t0 d pw hx hu
    have := (old [_] (by simp) x t p y hl t0 d pw hx hu).1.1 s.now id
    simp at this
  | stop a b tid due id hp =>
    intro x t p y hl t0 d pw hx hu
    obtain ⟨_, _, h1, _⟩ := old [_] (by simp) x t p y hl t0 d pw hx hu
    have h2 := i.st.2 (by rw [(i.stop hp).1]; simp)
    rw [h1] at h2; cases h2
  | deaf dur pw0 _ =>
    intro x t p y hl t0 d pw hx hu
    exact (old [_] (by simp) x t p y hl t0 d pw hx hu).2.2
  | lock dur pw0 h1 h2 h3 h4 =>
    intro x t p y hl t0 d pw hx hu
    have hl' : s.log ++ [Obs.rxBegin s.now s.nextId (dur : ℤ) pw0, .announced s.now s.nextId] = x ++ Obs.announced t p :: y := hl
    rcases split_append hl' with ⟨z', h5, h6⟩ | ⟨m1, h5, h6⟩
    · rw [h6] at hu
      have := (h x t p z' h5 t0 d pw hx hu.left).1
      have := i.rxBusy this
      rw [h4] at this; cases this
    · match m1, h6 with
      | [], h6 => simp at h6
      | [w], h6 =>
        simp only [List.cons_append, List.nil_append, List.cons.injEq, Obs.announced.injEq] at h6
        obtain ⟨rfl, ⟨rfl, rfl⟩, rfl⟩ := h6
        refine ⟨rfl, rfl, ?_⟩
        show t0 + d ≤ s.now + dur
        rw [h5] at hx
        rcases List.mem_append.1 hx with hx | hx
        · have : (⟨s.nextId, t0, d, pw⟩ : Rx P) ∈ arrivals s.log := mem_arrivals.2 hx
          have : s.nextId ∈ (arrivals s.log).map (·.id) := List.mem_map_of_mem this
          rw [i.ids] at this
          simp at this
        · simp only [List.mem_singleton, Obs.rxBegin.injEq] at hx
          obtain ⟨rfl, _, rfl, _⟩ := hx
          exact Int.le_refl _
      | w :: w' :: m1, h6 => simp at h6
  | stretch dur pw0 h1 h2 h3 h4 =>
    intro x t p y hl t0 d pw hx hu
    obtain ⟨_, _, h5, h6, h7⟩ := old [_] (by simp) x t p y hl t0 d pw hx hu
    refine ⟨rfl, h6, ?_⟩
    show t0 + d ≤ s.now + dur
    omega
  | pass a b tid due id pw0 hp hs =>
    intro x t p y hl t0 d pw hx hu
    exact absurd (old [_] (by simp) x t p y hl t0 d pw hx hu).2.2.1 hs
  | good a b tid due id pw0 hp hs hk hsin =>
    intro x t p y hl t0 d pw hx hu
    obtain ⟨h4, h5, _, h6, _⟩ := old [_, _] (by simp) x t p y hl t0 d pw hx hu
    exact (own hp hk h6 h5 h4).elim
  | bad a b tid due id pw0 hp hs hk hsin hr =>
    intro x t p y hl t0 d pw hx hu
    obtain ⟨h4, h5, _, h6, _⟩ := old [_, _] (by simp) x t p y hl t0 d pw hx hu
    exact (own hp hk h6 h5 h4).elim
  | bad2 a b tid due id pw0 hp hs hk hsin hr =>
    intro x t p y hl t0 d pw hx hu
    obtain ⟨h4, h5, _, h6, _⟩ := old [_, _, _] (by simp) x t p y hl t0 d pw hx hu
    exact (own hp hk h6 h5 h4).elim
  | drop a b tid due id pw0 hp hs hk hr =>
    intro x t p y hl t0 d pw hx hu
    obtain ⟨h4, _, h5, h6, h7⟩ := old [_, _] (by simp) x t p y hl t0 d pw hx hu
    have := rel h4 h7 h5
    rw [hr] at this; cases this
  | mute a b tid due id pw0 hp hs hk hr =>
    intro x t p y hl t0 d pw hx hu
    obtain ⟨_, _, _, h6, h7⟩ := old [_] (by simp) x t p y hl t0 d pw hx hu
    exact ⟨rfl, h6, h7⟩

/-- The end of a frame received undisturbed is followed by its result. -/
def Concluded (c : Cfg P) (s : St P) : Prop :=
  ∀ a t p y te z, s.log = a ++ Obs.announced t p :: (y ++ Obs.rxEnd te p :: z) → ∀ t0 d pw, Obs.rxBegin t0 p d pw ∈ a →
    Undisturbed c (t0 + d) y → ∃ z', z = Obs.notice te p (c.sinr pw (onAir p te (a ++ Obs.announced t p :: y))) :: z'

theorem Concluded.move {s s' : St P} (i : Inv c s) (st : Stays c s) (h : Concluded c s) (m : Move c s s') : Concluded c s' := by
  -- nothing ends
  have old : ∀ (m : List (Obs P)), (∀ t p, Obs.rxEnd t p ∉ m) → ∀ a t p y te z,
      s.log ++ m = a ++ Obs.announced t p :: (y ++ Obs.rxEnd te p :: z) → ∀ t0 d pw, Obs.rxBegin t0 p d pw ∈ a →
      Undisturbed c (t0 + d) y → ∃ z', z = Obs.notice te p (c.sinr pw (onAir p te (a ++ Obs.announced t p :: y))) :: z' := by
    intro m hm a t p y te z hl t0 d pw hx hu
    rw [show a ++ Obs.announced t p :: (y ++ Obs.rxEnd te p :: z) = (a ++ Obs.announced t p :: y) ++ Obs.rxEnd te p :: z by simp] at hl
    rcases split_append hl with ⟨z', h1, h2⟩ | ⟨m1, h1, h2⟩
    · obtain ⟨z'', h3⟩ := h a t p y te z' (by rw [h1]; simp) t0 d pw hx hu
      exact ⟨z'' ++ m, by rw [h2, h3]; rfl⟩
    · exact absurd (by rw [h2]; simp) (hm te p)
  -- this signal ends
  have new : ∀ (te' : ℤ) (id : Nat) (os : List (Obs P)), (∀ t p, Obs.rxEnd t p ∉ os) →
      (∀ a t y t0 d pw, s.log = a ++ Obs.announced t id :: y → Obs.rxBegin t0 id d pw ∈ a → s.state = .rx → s.pktRx = some id →
        ∃ z', os = Obs.notice te' id (c.sinr pw (onAir id te' s.log)) :: z') →
      ∀ a t p y te z,
      s.log ++ (Obs.rxEnd te' id :: os) = a ++ Obs.announced t p :: (y ++ Obs.rxEnd te p :: z) → ∀ t0 d pw, Obs.rxBegin t0 p d pw ∈ a →
      Undisturbed c (t0 + d) y → ∃ z', z = Obs.notice te p (c.sinr pw (onAir p te (a ++ Obs.announced t p :: y))) :: z' := by
    intro te' id os hos hnew a t p y te z hl t0 d pw hx hu
    rw [show a ++ Obs.announced t p :: (y ++ Obs.rxEnd te p :: z) = (a ++ Obs.announced t p :: y) ++ Obs.rxEnd te p :: z by simp] at hl
    rcases split_append hl with ⟨z', h1, h2⟩ | ⟨m1, h1, h2⟩
    · obtain ⟨z'', h3⟩ := h a t p y te z' (by rw [h1]; simp) t0 d pw hx hu
      exact ⟨z'' ++ (Obs.rxEnd te' id :: os), by rw [h2, h3]; rfl⟩
    · cases m1 with
      | nil =>
        simp only [List.nil_append, List.cons.injEq, Obs.rxEnd.injEq] at h2
        obtain ⟨⟨rfl, rfl⟩, rfl⟩ := h2
        rw [List.append_nil] at h1
        obtain ⟨h3, h4, _⟩ := st a t id y h1.symm t0 d pw hx hu
        rw [h1]
        exact hnew a t y t0 d pw h1.symm hx h3 h4
      | cons w m1 =>
        simp only [List.cons_append, List.cons.injEq] at h2
        exact absurd (by rw [h2.2]; simp) (hos te p)
  have pwEq : ∀ {a b : List (Nat × ℤ × Ev P)} {tid : Nat} {due : ℤ} {id : Nat} {pw : P} {t0 d : ℤ} {pw' : P},
      s.pend = a ++ (tid, due, .rxDone id pw) :: b → Obs.rxBegin t0 id d pw' ∈ s.log → pw = pw' := by
    intro a b tid due id pw t0 d pw' hp hx
    obtain ⟨t1, d1, h7, h8⟩ := i.due _ (by rw [hp]; simp : (tid, due, Ev.rxDone id pw) ∈ s.pend) id pw rfl
    exact (i.same h7 hx).2.2
  have sinrEq : ∀ (te : ℤ) (id : Nat), interferers id te s.ongoing = onAir id te s.log := by
    intro te id; rw [i.ong]; exact interferers_eq id te s.log
  cases m with
  | wait d => exact h
  | refuse id hs => exact old [_] (by simp)
  | start id dur hs => exact old [_] (by simp)
  | stop a b tid due id hp => exact old [_] (by simp)
  | deaf dur pw0 _ => exact old [_] (by simp)
  | lock dur pw0 h1 h2 h3 h4 => exact old [_, _] (by simp)
  | stretch dur pw0 h1 h2 h3 h4 => exact old [_] (by simp)
  | pass a b tid due id pw0 hp hs => exact new _ _ [] (by simp) (fun _ _ _ _ _ _ _ _ h3 _ => absurd h3 hs)
  | good a b tid due id pw0 hp hs hk hsin =>
    refine new _ _ [_] (by simp) ?_
    intro a' t y t0 d pw h1 h2 _ _
    have := pwEq hp (by rw [h1]; exact List.mem_append_left _ h2)
    subst this
    rw [← sinrEq, hsin]; exact ⟨_, rfl⟩
  | bad a b tid due id pw0 hp hs hk hsin hr =>
    refine new _ _ [_] (by simp) ?_
    intro a' t y t0 d pw h1 h2 _ _
    have := pwEq hp (by rw [h1]; exact List.mem_append_left _ h2)
    subst this
    rw [← sinrEq, hsin]; exact ⟨_, rfl⟩
  | bad2 a b tid due id pw0 hp hs hk hsin hr =>
    refine new _ _ [_, _] (by simp) ?_
    intro a' t y t0 d pw h1 h2 _ _
    have := pwEq hp (by rw [h1]; exact List.mem_append_left _ h2)
    subst this
    rw [← sinrEq, hsin]; exact ⟨_, rfl⟩
  | drop a b tid due id pw0 hp hs hk hr =>
    exact new _ _ [_] (by simp) (fun _ _ _ _ _ _ _ _ _ h4 => absurd h4 hk)
  | mute a b tid due id pw0 hp hs hk hr =>
    exact new _ _ [] (by simp) (fun _ _ _ _ _ _ _ _ _ h4 => absurd h4 hk)

theorem concluded_after (hns : 0 ≤ c.ns) (ops : List (Op P)) : Concluded c (after c ops) :=
  (reach (Q := fun s => Stays c s ∧ Concluded c s) hns
    ⟨by intro x t p y h; simp [init] at h, by intro a t p y te z h; simp [init] at h⟩
    (fun _ _ i h m => ⟨h.1.move hns i m, h.2.move i h.1 m⟩) ops).2.2

/-- **C48, what holds.**  If a frame was announced to the MAC and until its end the PHY did not transmit and no other signal
ended within the last nanosecond, then its end is reported at once, and as a success exactly when its power passes the SINR
criterion against the other signals still on the air at that moment. -/
theorem C48_outcome_partial (hns : 0 ≤ c.ns) (ops : List (Op P)) (a y z : List (Obs P)) (t te t0 d : ℤ) (p : Nat) (pw : P)
    (h : (after c ops).log = a ++ Obs.announced t p :: (y ++ Obs.rxEnd te p :: z)) (hb : Obs.rxBegin t0 p d pw ∈ a)
    (htx : ∀ t' i, Obs.txStart t' i ∉ y) (hend : ∀ t' q, Obs.rxEnd t' q ∈ y → t' + c.ns < t0 + d) :
    ∃ z', z = Obs.notice te p (c.sinr pw (onAir p te (a ++ Obs.announced t p :: y))) :: z' :=
  concluded_after hns ops a t p y te z h t0 d pw hb ⟨htx, hend⟩

/-- **C48, success.**  Every reported success passed that criterion. -/
theorem C48_success_sinr (hns : 0 ≤ c.ns) (ops : List (Op P)) (l1 l2 : List (Obs P)) (t : ℤ) (p : Nat)
    (h : (after c ops).log = l1 ++ Obs.notice t p true :: l2) :
    ∃ t0 d pw, Obs.rxBegin t0 p d pw ∈ l1 ∧ c.sinr pw (onAir p t l1) = true := by
  obtain ⟨pw, t0, d, y, ⟨a, h1, _⟩, _, _, h4⟩ := (hist_after hns ops).why l1 _ l2 h
  exact ⟨t0, d, pw, by rw [h1]; simp, h4⟩

/-- A frame overlapped for half its duration by a signal twenty times as strong. -/
def runOverlap : List (Op ℕ) := [.arrive 100000 50, .advance 10000, .arrive 50000 1000, .fire 1, .fire 0]

/-- **C48 fails.**  The interferer ended before the frame did, so it does not count. -/
theorem C48_overlap_violated : timely exCfg (init ℕ) runOverlap = true ∧
    (after exCfg runOverlap).log = [.rxBegin 0 0 100000 50, .announced 0 0, .rxBegin 10000 1 50000 1000, .rxEnd 60000 1,
      .rxEnd 100000 0, .notice 100000 0 true] ∧
    exCfg.sinr 50 [1000] = false := by decide +kernel

/-- **C48 fails for the records.**  No record of an arrival is ever discarded. -/
theorem C48_records_kept_violated (hns : 0 ≤ c.ns) (ops : List (Op P)) :
    (after c ops).ongoing = arrivals (after c ops).log ∧ (after c ops).ongoing.length = (after c ops).nextId := by
  have i := inv_after hns ops
  refine ⟨i.ong, ?_⟩
  rw [i.ong, ← List.length_map (f := (·.id)), i.ids, List.length_range]

/-- The criterion decides both ways in undisturbed receptions. -/
example : (after exCfg [.arrive 100000 50, .advance 10000, .arrive 200000 20, .fire 0]).log.getLast? =
      some (.notice 100000 0 false) ∧
    (after exCfg [.arrive 100000 500, .advance 10000, .arrive 200000 20, .fire 0]).log.getLast? =
      some (.notice 100000 0 true) := by decide +kernel

/-- **C84, what holds.**  A frame announced to the MAC gets its result when it ends, if until then the PHY did not transmit
and no other signal ended within the last nanosecond. -/
theorem C84_concluded_partial (hns : 0 ≤ c.ns) (ops : List (Op P)) (a y z : List (Obs P)) (t te t0 d : ℤ) (p : Nat) (pw : P)
    (h : (after c ops).log = a ++ Obs.announced t p :: (y ++ Obs.rxEnd te p :: z)) (hb : Obs.rxBegin t0 p d pw ∈ a)
    (htx : ∀ t' i, Obs.txStart t' i ∉ y) (hend : ∀ t' q, Obs.rxEnd t' q ∈ y → t' + c.ns < t0 + d) :
    ∃ ok, Obs.notice te p ok ∈ z := by
  obtain ⟨z', hz⟩ := C48_outcome_partial hns ops a y z t te t0 d p pw h hb htx hend
  exact ⟨_, by rw [hz]; exact List.mem_cons_self⟩

/-- **C84 fails.**  (1) A weak signal that ends half a nanosecond before the frame: the MAC gets a failure for the weak
signal, which was never announced, and nothing for the frame.  (2) A transmission by the node: the MAC gets nothing. -/
theorem C84_unconcluded_violated :
    (timely exCfg (init ℕ) [.arrive 100000 50, .advance 10000, .arrive 89500 1, .fire 1, .fire 0] = true ∧
      (after exCfg [.arrive 100000 50, .advance 10000, .arrive 89500 1, .fire 1, .fire 0]).log =
        [.rxBegin 0 0 100000 50, .announced 0 0, .rxBegin 10000 1 89500 1, .rxEnd 99500 1, .notice 99500 1 false, .rxEnd 100000 0]) ∧
    (timely exCfg (init ℕ) [.arrive 100000 50, .advance 10000, .send 7 1000, .fire 1, .fire 0] = true ∧
      (after exCfg [.arrive 100000 50, .advance 10000, .send 7 1000, .fire 1, .fire 0]).log =
        [.rxBegin 0 0 100000 50, .announced 0 0, .txStart 10000 7, .txEnd 11000 7, .rxEnd 100000 0]) := by decide +kernel

end Thz.PhyMacro
