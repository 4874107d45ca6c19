import Verif.PhyNanoInv

/-!
# Theorems about the nano PHY: C50-C53
-/

set_option linter.unusedSectionVars false

namespace Thz.PhyNano

variable {P : Type} [AddCommMonoid P] {c : Cfg P}

/-- The starts of the pulse trains being sent, about to be sent, or being received. -/
def trains (l : List (Obs P)) : List ℤ := (liveTx l).map (·.2) ++ (liveRx l).map (·.2.1)

/-- The powers of the signals being received, other than `ex`, that a signal starting at `t` touches. -/
noncomputable def hits (c : Cfg P) (t : ℤ) (ex : Option Nat) (l : List (Obs P)) : P :=
  open Classical in
  (((liveRx l).filter (fun e => decide (some e.1 ≠ ex ∧ Touch c.p c.ts t e.2.1))).map (·.2.2)).sum

/-- A signal that arrived after `l1`, before `l2`, failed the SINR test at its beginning, or at the beginning of a later
signal that touches it.  The test counts the new signal and all that touch the new signal. -/
def Harmed (c : Cfg P) (l1 l2 : List (Obs P)) (t0 : ℤ) (id : Nat) (d : ℤ) (pw junk : P) : Prop :=
  c.bad pw (junk + hits c t0 none l1) = true ∨
  ∃ m1 t q d' pw' j' m2, l2 = m1 ++ Obs.arrived t q d' pw' j' :: m2 ∧ Touch c.p c.ts t t0 ∧
    c.bad pw (pw' + hits c t (some id) (l1 ++ Obs.arrived t0 id d pw junk :: m1)) = true

/-- Why an entry is in the log. -/
def Why (c : Cfg P) (x : List (Obs P)) : Obs P → Prop
  | .accepted t _ s _ => (trains x = [] ∧ s = t) ∨
      (t + c.p ≤ s ∧ s + c.p ≤ t + c.ts ∧ ∀ a ∈ trains x, ∃ k : ℤ, 0 ≤ k ∧ t - c.p < a + k * c.ts ∧ a + k * c.ts < t + c.ts ∧
        (a + k * c.ts ≤ s - c.p ∨ s + c.p ≤ a + k * c.ts))
  | .refused t => ∀ u, t + c.p ≤ u → u + c.p ≤ t + c.ts →
      ∃ a ∈ trains x, ∃ k : ℤ, 0 ≤ k ∧ u - c.p < a + k * c.ts ∧ a + k * c.ts < u + c.p
  | .wild _ => False
  | .arrived t _ _ _ _ => ∀ e ∈ liveTx x, ¬ (t < e.2 - c.p ∨ Touch c.p c.ts t e.2)
  | .ignored t _ _ _ => ∃ e ∈ liveTx x, t < e.2 - c.p ∨ Touch c.p c.ts t e.2
  | .notice t id ok => ∃ l1 l2 t0 d pw junk, x = l1 ++ Obs.arrived t0 id d pw junk :: l2 ∧ t0 + d ≤ t ∧
      (ok = false ↔ Harmed c l1 l2 t0 id d pw junk)
  | _ => True

structure Hist (c : Cfg P) (s : St P) : Prop where
  why : Pre (Why c) s.log
  recs : ∀ r ∈ s.rx, ∃ l1 l2 junk, s.log = l1 ++ Obs.arrived r.start r.id r.dur r.pw junk :: l2 ∧
    (r.coll = true ↔ Harmed c l1 l2 r.start r.id r.dur r.pw junk)

theorem starts_eq {s : St P} (i : Inv c s) : starts s = trains s.log := by
  unfold starts trains
  rw [← i.txLive, ← i.rxLive, List.map_map, List.map_map]
  rfl

theorem Harmed.append {l1 l2 m : List (Obs P)} {t0 : ℤ} {id : Nat} {d : ℤ} {pw junk : P} (hm : ∀ t q d' pw' j', Obs.arrived t q d' pw' j' ∉ m) :
    Harmed c l1 (l2 ++ m) t0 id d pw junk ↔ Harmed c l1 l2 t0 id d pw junk := by
  unfold Harmed
  apply or_congr Iff.rfl
  constructor
  · rintro ⟨m1, t, q, d', pw', j', m2, h1, h2⟩
    rcases split_append h1 with ⟨z', h3, _⟩ | ⟨m', _, h4⟩
    · exact ⟨m1, t, q, d', pw', j', z', h3, h2⟩
    · exact absurd (by rw [h4]; simp) (hm t q d' pw' j')
  · rintro ⟨m1, t, q, d', pw', j', m2, h1, h2⟩
    exact ⟨m1, t, q, d', pw', j', m2 ++ m, by rw [h1]; simp, h2⟩

theorem Harmed.arrive {l1 l2 : List (Obs P)} {t0 : ℤ} {id : Nat} {d : ℤ} {pw junk : P} {t : ℤ} {q : Nat} {d' : ℤ} {pw' j' : P} :
    Harmed c l1 (l2 ++ [Obs.arrived t q d' pw' j']) t0 id d pw junk ↔ Harmed c l1 l2 t0 id d pw junk ∨
      (Touch c.p c.ts t t0 ∧ c.bad pw (pw' + hits c t (some id) (l1 ++ Obs.arrived t0 id d pw junk :: l2)) = true) := by
  unfold Harmed
  rw [or_assoc]
  apply or_congr Iff.rfl
  constructor
  · rintro ⟨m1, t, q, d', pw', j', m2, h1, h2⟩
    rcases split_snoc h1 with ⟨z', h3, _⟩ | ⟨rfl, h4, _⟩
    · exact .inl ⟨m1, t, q, d', pw', j', z', h3, h2⟩
    · cases h4; exact .inr h2
  · rintro (⟨m1, t1, q1, d1, pw1, j1, m2, h1, h2⟩ | h2)
    · exact ⟨m1, t1, q1, d1, pw1, j1, m2 ++ [Obs.arrived t q d' pw' j'], by rw [h1]; simp, h2⟩
    · exact ⟨l2, t, q, d', pw', j', [], rfl, h2⟩

theorem meets_old (hp : 0 < c.p) (hts : 0 < c.ts) {t a : ℤ} (h : a ≤ t) : meets c t a = true ↔ Touch c.p c.ts t a := by
  rw [meets_iff hp hts]
  constructor
  · rintro (h1 | h1)
    · omega
    · exact h1
  · exact .inr

theorem hits_none {s : St P} (hp : 0 < c.p) (hts : 0 < c.ts) (i : Inv c s) :
    ((s.rx.filter (fun r => meets c s.now r.start = true)).map (·.pw)).sum = hits c s.now none s.log := by
  unfold hits
  rw [← i.rxLive, List.filter_map, List.map_map]
  congr 1
  refine congrArg (List.map _) (List.filter_congr (fun r hr => ?_))
  simp only [Function.comp_apply, ne_eq, reduceCtorEq, not_false_eq_true, true_and]
  exact decide_eq_decide.2 ((meets_old hp hts (i.rxOld r hr)).trans ⟨fun h => ⟨by simp, h⟩, fun h => h.2⟩)

theorem hits_some {s : St P} (hp : 0 < c.p) (hts : 0 < c.ts) (i : Inv c s) (id : Nat) :
    ((s.rx.filter (fun r => r.id ≠ id ∧ meets c s.now r.start = true)).map (·.pw)).sum = hits c s.now (some id) s.log := by
  unfold hits
  rw [← i.rxLive, List.filter_map, List.map_map]
  congr 1
  refine congrArg (List.map _) (List.filter_congr (fun r hr => ?_))
  simp only [Function.comp_apply, ne_eq, Option.some.injEq]
  exact decide_eq_decide.2 (and_congr (by simp) (meets_old hp hts (i.rxOld r hr)))

/-- Entries other than arrivals keep the records' justification. -/
theorem Hist.keep {s : St P} (h : Hist c s) {s' : St P} {o : Obs P} (hl : s'.log = s.log ++ [o])
    (ho : ∀ t q d pw j, o ≠ .arrived t q d pw j) (hr : ∀ r ∈ s'.rx, r ∈ s.rx) (hw : Why c s.log o) : Hist c s' := by
  refine ⟨by rw [hl]; exact h.why.snoc hw, ?_⟩
  intro r hr'
  obtain ⟨l1, l2, junk, h1, h2⟩ := h.recs r (hr r hr')
  refine ⟨l1, l2 ++ [o], junk, by rw [hl, h1]; simp, ?_⟩
  rw [h2, Harmed.append]
  intro t q d pw j hm
  exact ho t q d pw j (List.mem_singleton.1 hm).symm

theorem Hist.move (hp : 0 < c.p) (hts : 0 < c.ts) {s s' : St P} (i : Inv c s) (h : Hist c s) (m : Move c s s') : Hist c s' := by
  have hs := mem_starts_lt hts i
  cases m with
  | wait d _ => exact ⟨h.why, h.recs⟩
  | idle => exact h
  | direct dur h1 h2 =>
    refine h.keep (o := .accepted s.now s.nextTx s.now dur) rfl (by simp) (fun _ hr => hr) (.inl ⟨?_, rfl⟩)
    rw [← starts_eq i]; unfold starts; rw [h1, h2]; rfl
  | fit dur x hg =>
    obtain ⟨h1, h2, h3⟩ := gap_spec hp hts hs hg
    refine h.keep (o := .accepted s.now s.nextTx (x + c.p) dur) rfl (by simp) (fun _ hr => hr) (.inr ⟨by omega, by omega, ?_⟩)
    intro a ha
    rw [← starts_eq i] at ha
    obtain ⟨⟨k, hk, hk'⟩, h4, h5⟩ := image_spec (c := c) hp hts (hs a ha)
    have h6 := h3 a ha
    rw [hk'] at h4 h5 h6
    exact ⟨k, hk, h4, h5, by omega⟩
  | refuse hf =>
    refine h.keep (o := .refused s.now) rfl (by simp) (fun _ hr => hr) ?_
    intro u h1 h2
    obtain ⟨a, ha, h3, h4⟩ := full_spec hf hp u h1 h2
    obtain ⟨⟨k, hk, hk'⟩, _⟩ := image_spec (c := c) hp hts (hs a ha)
    rw [starts_eq i] at ha
    rw [hk'] at h3 h4
    exact ⟨a, ha, k, hk, h3, h4⟩
  | wild hw => exact absurd hw (wild_spec hp hts hs)
  | launch a b tid due id dur hin hl => exact h.keep (o := .onAir (max s.now due) id) rfl (by simp) (fun _ hr => hr) trivial
  | erase a b tid due start dur u v r hin hl h1 h2 h3 =>
    exact h.keep (o := .forgotten (max s.now due) r.id) rfl (by simp) (fun _ hr => hr) trivial
  | noErase a b tid due start dur hin hl h1 => exact ⟨h.why, h.recs⟩
  | sent a b tid due id hin hl => exact h.keep (o := .sent (max s.now due) id) rfl (by simp) (fun _ hr => hr) trivial
  | ignore dur pw hin hx =>
    refine h.keep (o := .ignored s.now s.nextRx dur pw) rfl (by simp) (fun _ hr => hr) ?_
    obtain ⟨r, hr, h1⟩ := hx
    refine ⟨(r.id, r.start), ?_, (meets_iff hp hts _ _).1 h1⟩
    rw [← i.txLive]; exact List.mem_map_of_mem (f := fun r : Tx => (r.id, r.start)) hr
  | arrive dur pw junk hin hx =>
    constructor
    · refine h.why.snoc ?_
      intro e he hc
      rw [← i.txLive] at he
      obtain ⟨r, hr, rfl⟩ := List.mem_map.1 he
      have := (meets_iff (c := c) hp hts s.now r.start).2 hc
      rw [hx r hr] at this; cases this
    · intro r' hr'
      rcases List.mem_append.1 hr' with hr' | hr'
      · obtain ⟨r, hr, rfl⟩ := List.mem_map.1 hr'
        obtain ⟨l1, l2, j, h1, h2⟩ := h.recs r hr
        have ht := meets_old (c := c) hp hts (i.rxOld r hr)
        have hh := hits_some hp hts i r.id
        have hl : l1 ++ Obs.arrived r.start r.id r.dur r.pw j :: l2 = s.log := h1.symm
        refine ⟨l1, l2 ++ [.arrived s.now s.nextRx dur pw junk], j, ?_, ?_⟩
        · show s.log ++ [_] = _
          rw [h1]
          split
          · split <;> simp
          · simp
        · split
          · rename_i hm
            split
            · rename_i hb
              rw [Harmed.arrive]
              refine ⟨fun _ => .inr ⟨ht.1 hm, ?_⟩, fun _ => rfl⟩
              show c.bad r.pw (pw + hits c s.now (some r.id) (l1 ++ Obs.arrived r.start r.id r.dur r.pw j :: l2)) = true
              rw [hl, ← hh]; exact hb
            · rename_i hb
              rw [Harmed.arrive, h2]
              refine ⟨.inl, ?_⟩
              rintro (h3 | ⟨_, h3⟩)
              · exact h3
              · rw [hl, ← hh] at h3; exact absurd h3 hb
          · rename_i hm
            rw [Harmed.arrive, h2]
            refine ⟨.inl, ?_⟩
            rintro (h3 | ⟨h3, _⟩)
            · exact h3
            · exact absurd (ht.2 h3) hm
      · rw [List.mem_singleton.1 hr']
        refine ⟨s.log, [], junk, rfl, ?_⟩
        unfold Harmed interference
        rw [hits_none hp hts i]
        constructor
        · exact .inl
        · rintro (h3 | ⟨m1, t, q, d', pw', j', m2, h3, _⟩)
          · exact h3
          · simp at h3
  | notice a b tid due r hin hl hr =>
    refine h.keep (o := .notice (max s.now due) r.id (!r.coll)) rfl (by simp) (fun _ hr => hr) ?_
    obtain ⟨l1, l2, j, h1, h2⟩ := h.recs r hr
    refine ⟨l1, l2, r.start, r.dur, r.pw, j, h1, ?_, by rw [← h2]; simp⟩
    have hthis : (tid, due, Ev.rxDone r.id) ∈ s.pend := by rw [hl]; simp
    rcases i.rxPend r hr with h3 | ⟨tid', h3⟩
    · rw [hin] at h3; cases h3
    · have := i.ends _ hthis _ h3 r.id rfl rfl
      cases this
      exact Int.le_max_right _ _
  | skip a b tid due id hin hl hr => exact h.keep (o := .over (max s.now due) id) rfl (by simp) (fun _ hr => hr) trivial
  | ret id hin =>
    exact h.keep (o := .over s.now id) rfl (by simp) (fun _ hr => List.eraseP_subset hr) trivial

theorem why_after (hp : 0 < c.p) (hts : 0 < c.ts) (ops : List (Op P)) : Pre (Why c) (after c ops).log :=
  (reach (Q := Hist c) hp hts ⟨Pre.nil _, by simp [init]⟩ (fun _ _ i h m => h.move hp hts i m) ops).2.why

/-! ## C50: interleaving -/

/-- **C50, the start.**  An accepted train starts at once if there is no other train, otherwise at least one pulse width
from now and within one symbol. -/
theorem C50_start (hp : 0 < c.p) (hts : 0 < c.ts) (ops : List (Op P)) (x z : List (Obs P)) (t : ℤ) (id : Nat) (s d : ℤ)
    (h : (after c ops).log = x ++ Obs.accepted t id s d :: z) :
    (trains x = [] ∧ s = t) ∨ (t + c.p ≤ s ∧ s + c.p ≤ t + c.ts) := by
  rcases why_after hp hts ops x _ z h with h1 | ⟨h1, h2, _⟩
  · exact .inl h1
  · exact .inr ⟨h1, h2⟩

/-- **C50, where it can go wrong.**  If the accepted train overlaps another train at all, then a pulse of that other train
was on the air, already begun, at the moment of acceptance, and the new train runs into the next pulse of it. -/
theorem C50_overlap_partial (hp : 0 < c.p) (hts : 0 < c.ts) (ops : List (Op P)) (x z : List (Obs P)) (t : ℤ) (id : Nat) (s d a : ℤ)
    (h : (after c ops).log = x ++ Obs.accepted t id s d :: z) (ha : a ∈ trains x) (ho : Overlap c.p c.ts a s) :
    ∃ k : ℤ, 0 ≤ k ∧ t - c.p < a + k * c.ts ∧ a + k * c.ts < t ∧ a + (k + 1) * c.ts < s + c.p ∧ s < a + (k + 1) * c.ts := by
  rcases why_after hp hts ops x _ z h with ⟨h1, _⟩ | ⟨h1, h2, h3⟩
  · rw [h1] at ha; simp at ha
  · obtain ⟨k, hk, h4, h5, h6⟩ := h3 a ha
    by_cases h7 : t ≤ a + k * c.ts
    · exact absurd ho (image_apart hts rfl h7 h5 h1 h2 h6)
    · have hn : a + (k + 1) * c.ts = a + k * c.ts + c.ts := by ring
      refine ⟨k, hk, h4, by omega, ?_, by omega⟩
      obtain ⟨j, h8, h9⟩ := ho
      have e : a + j * c.ts = a + k * c.ts + (j - k) * c.ts := by ring
      rw [e] at h8 h9
      rw [hn]
      rcases lt_trichotomy (j - k) 0 with hj | hj | hj
      · have : (j - k) * c.ts ≤ (-1) * c.ts := Int.mul_le_mul_of_nonneg_right (by omega) (Int.le_of_lt hts)
        omega
      · rw [hj] at h8 h9; omega
      · have : 1 * c.ts ≤ (j - k) * c.ts := Int.mul_le_mul_of_nonneg_right (by omega) (Int.le_of_lt hts)
        omega

/-- **C50, what holds.**  If no pulse of another train is on the air, already begun, when the frame is accepted, then the
new train overlaps no other train, now or in any other symbol. -/
theorem C50_disjoint_partial (hp : 0 < c.p) (hts : 0 < c.ts) (ops : List (Op P)) (x z : List (Obs P)) (t : ℤ) (id : Nat) (s d : ℤ)
    (h : (after c ops).log = x ++ Obs.accepted t id s d :: z)
    (hquiet : ∀ a ∈ trains x, ∀ k : ℤ, 0 ≤ k → ¬ (t - c.p < a + k * c.ts ∧ a + k * c.ts < t)) :
    ∀ a ∈ trains x, ¬ Overlap c.p c.ts a s := by
  intro a ha ho
  obtain ⟨k, hk, h1, h2, _⟩ := C50_overlap_partial hp hts ops x z t id s d a h ha ho
  exact hquiet a ha k hk ⟨h1, h2⟩

/-- Pulses of 10, symbols of 40; powers in units of the noise floor, threshold 10. -/
def exCfg : Cfg ℕ := { p := 10, ts := 40, bad := fun s i => decide (s < 10 * (1 + i)) }

/-- Three frames of 100 symbols, handed over at 77, 85 and 100. -/
def runThree : List (Op ℕ) :=
  [.advance 77, .send 4000, .fire 0, .advance 8, .send 4000, .fire 3, .advance 5, .send 4000]

/-- **C50 fails.**  The third train is to start at 127 with its first pulse until 137, into the pulse of the second train
that starts at 135 = 95 + 40; and so for the following 98 symbols. -/
theorem C50_collision_violated : timely exCfg (init ℕ) runThree = true ∧
    (after exCfg runThree).log = [.accepted 77 0 77 4000, .onAir 77 0, .accepted 85 1 95 4000, .onAir 95 1, .accepted 100 2 127 4000] ∧
    ∀ k : ℤ, 127 + k * 40 < 95 + (k + 1) * 40 ∧ 95 + (k + 1) * 40 < 127 + k * 40 + 10 := by
  refine ⟨by decide +kernel, by decide +kernel, ?_⟩
  intro k
  constructor <;> omega

/-- A run that meets the hypotheses of `C50_disjoint_partial`: the second of two frames, handed over at 95. -/
example : (after exCfg [.advance 77, .send 4000, .fire 0, .advance 18, .send 4000]).log =
      [.accepted 77 0 77 4000, .onAir 77 0] ++ Obs.accepted 95 1 105 4000 :: [] ∧
    trains ([.accepted 77 0 77 4000, .onAir 77 0] : List (Obs ℕ)) = [77] ∧
    ∀ k : ℤ, ¬ (95 - 10 < 77 + k * 40 ∧ 77 + k * 40 < 95) := by
  refine ⟨by decide +kernel, rfl, ?_⟩
  intro k; omega

/-! ## C51: the search -/

/-- **C51.**  A refusal means that every start at least one pulse width from now, with the pulse over within one symbol,
overlaps a pulse of a train being sent or received; and the array is never read past its end. -/
theorem C51_refusal (hp : 0 < c.p) (hts : 0 < c.ts) (ops : List (Op P)) :
    (∀ x z t, (after c ops).log = x ++ Obs.refused t :: z → ∀ u, t + c.p ≤ u → u + c.p ≤ t + c.ts →
      ∃ a ∈ trains x, ∃ k : ℤ, 0 ≤ k ∧ u - c.p < a + k * c.ts ∧ a + k * c.ts < u + c.p) ∧
    ∀ t, Obs.wild t ∉ (after c ops).log := by
  refine ⟨fun x z t h => why_after hp hts ops x _ z h, ?_⟩
  intro t h
  obtain ⟨x, z, hx⟩ := List.append_of_mem h
  exact why_after hp hts ops x _ z hx

/-- A refusal, 1 after the third frame. -/
example : (after exCfg (runThree ++ [.advance 1, .send 4000])).log.getLast? = some (.refused 101) := by decide +kernel

/-! ## C52: half duplex -/

/-- **C52, what decides.**  An arriving signal is ignored exactly if an own train starts more than a pulse width later, or
has a pulse that overlaps the arriving pulse or starts exactly where it ends. -/
theorem C52_ignored_iff_partial (hp : 0 < c.p) (hts : 0 < c.ts) (ops : List (Op P)) (x z : List (Obs P)) (o : Obs P) (t : ℤ) (id : Nat)
    (d : ℤ) (pw : P) (h : (after c ops).log = x ++ o :: z) (ho : o = .ignored t id d pw ∨ ∃ j, o = .arrived t id d pw j) :
    o = .ignored t id d pw ↔ ∃ e ∈ liveTx x, t < e.2 - c.p ∨ Touch c.p c.ts t e.2 := by
  have hw := why_after hp hts ops x o z h
  rcases ho with rfl | ⟨j, rfl⟩
  · exact ⟨fun _ => hw, fun _ => rfl⟩
  · constructor
    · intro h; cases h
    · rintro ⟨e, he, h1⟩
      exact absurd h1 (hw e he)

/-- **C52, no reception into an own pulse.**  A signal that is received overlaps no pulse of an own train. -/
theorem C52_received_clear (hp : 0 < c.p) (hts : 0 < c.ts) (ops : List (Op P)) (x z : List (Obs P)) (t : ℤ) (id : Nat) (d : ℤ) (pw j : P)
    (h : (after c ops).log = x ++ Obs.arrived t id d pw j :: z) : ∀ e ∈ liveTx x, ¬ Overlap c.p c.ts e.2 t :=
  fun e he ho => why_after hp hts ops x _ z h e he (.inr (Touch.of_overlap ho))

/-- Pulses of 10, symbols of 100. -/
def exCfg2 : Cfg ℕ := { p := 10, ts := 100, bad := fun s i => decide (s < 10 * (1 + i)) }

/-- Two signals arrive at 0 and 15; at 95 a frame is accepted to start at 125; at 96 a signal arrives. -/
def runFuture : List (Op ℕ) := [.arrive 1000 50 0, .advance 15, .arrive 1000 50 0, .advance 80, .send 1000, .advance 1, .arrive 1000 50 0]

/-- **C52 fails for trains that have not started.**  The own train's pulses are at 125, 225, ..; the arriving ones at 96,
196, ..; they do not overlap, nor touch, but the signal is ignored. -/
theorem C52_future_violated : timely exCfg2 (init ℕ) runFuture = true ∧
    (after exCfg2 runFuture).log = [.arrived 0 0 1000 50 0, .arrived 15 1 1000 50 0, .accepted 95 0 125 1000, .ignored 96 2 1000 50] ∧
    ¬ Overlap 10 100 125 96 ∧ ¬ Touch 10 100 96 125 := by
  refine ⟨by decide +kernel, by decide +kernel, ?_, ?_⟩
  · rintro ⟨k, h1, h2⟩; omega
  · rintro ⟨k, h1, h2⟩; omega

/-- **C52 fails at the boundary.**  The arriving pulse at 190 ends exactly when the own pulse at 200 starts. -/
theorem C52_touch_violated : timely exCfg2 (init ℕ) [.send 1000, .fire 0, .advance 190, .arrive 1000 50 0] = true ∧
    (after exCfg2 [.send 1000, .fire 0, .advance 190, .arrive 1000 50 0]).log = [.accepted 0 0 0 1000, .onAir 0 0, .ignored 190 0 1000 50] ∧
    ¬ Overlap 10 100 0 190 := by
  refine ⟨by decide +kernel, by decide +kernel, ?_⟩
  rintro ⟨k, h1, h2⟩; omega

/-- Both outcomes occur. -/
example : (after exCfg2 [.send 1000, .fire 0, .advance 150, .arrive 1000 50 0]).log.getLast? = some (.arrived 150 0 1000 50 0) ∧
    (after exCfg2 [.send 1000, .fire 0, .advance 205, .arrive 1000 50 0]).log.getLast? = some (.ignored 205 0 1000 50) := by
  decide +kernel

/-! ## C53: the outcome of a reception -/

/-- **C53, once.**  No frame is reported twice; a frame the PHY started to receive has been reported, or will be when its
pending end is processed. -/
theorem C53_once (hp : 0 < c.p) (hts : 0 < c.ts) (ops : List (Op P)) :
    (∀ id, (notices id (after c ops).log).length ≤ 1) ∧
    ∀ t id d pw j, Obs.arrived t id d pw j ∈ (after c ops).log → (notices id (after c ops).log).length = 1 ∨
      ∃ tid due, (tid, due, Ev.rxDone id) ∈ (after c ops).pend ∧
        ((after c ops).inside = none → (notices id (step c (after c ops) (.fire tid)).log).length = 1) := by
  have i := inv_after hp hts ops
  generalize after c ops = s at *
  refine ⟨i.once, ?_⟩
  intro t id d pw j h
  obtain ⟨_, h1 | ⟨⟨r, hr, rfl⟩, h2⟩⟩ := i.told t id d pw j h
  · exact .inl h1
  · right
    rcases i.rxPend r hr with h3 | ⟨tid, h3⟩
    · exact absurd h3 h2
    · refine ⟨tid, _, h3, ?_⟩
      intro hin
      obtain ⟨e, hf, htid⟩ : ∃ e, s.pend.find? (fun e => e.1 = tid) = some e ∧ e = (tid, r.start + r.dur, Ev.rxDone r.id) := by
        cases hf : s.pend.find? (fun e => e.1 = tid) with
        | none => exact absurd (List.find?_eq_none.1 hf _ h3) (by simp)
        | some e =>
          refine ⟨e, rfl, ?_⟩
          have h5 := List.mem_of_find?_eq_some hf
          have h4 : e.1 = tid := by simpa using List.find?_some hf
          exact List.inj_on_of_nodup_map i.tid h5 h3 h4
      subst htid
      simp only [step]
      rw [if_pos hin]
      unfold fire
      rw [hf]
      show (notices r.id (receivePacketDone r.id _).log).length = 1
      unfold receivePacketDone
      dsimp only
      split
      · rename_i hn
        exact absurd (List.find?_eq_none.1 hn r hr) (by simp)
      · rename_i r' hr'
        show (notices r.id (s.log ++ [_])).length = 1
        rw [notices_snoc]
        show List.length (if r.id = r.id then _ else _) = 1
        rw [if_pos rfl, (i.endsLt _ h3 r.id rfl).2.2.1]
        rfl

/-- **C53, the outcome.**  Every report is about a frame the PHY started to receive and comes at or after its end; it says
collided exactly if the frame failed the SINR test at its own beginning or at the beginning of a later frame that touches it. -/
theorem C53_outcome_partial (hp : 0 < c.p) (hts : 0 < c.ts) (ops : List (Op P)) (x z : List (Obs P)) (t : ℤ) (id : Nat) (ok : Bool)
    (h : (after c ops).log = x ++ Obs.notice t id ok :: z) :
    ∃ l1 l2 t0 d pw junk, x = l1 ++ Obs.arrived t0 id d pw junk :: l2 ∧ t0 + d ≤ t ∧
      (ok = false ↔ Harmed c l1 l2 t0 id d pw junk) := why_after hp hts ops x _ z h

/-- **C53 fails: uninitialised memory.**  One signal of power 50 over a noise of 1, threshold 10, nothing else on the air: the
report depends on what the memory contained. -/
theorem C53_junk_violated :
    timely exCfg2 (init ℕ) [.arrive 1000 50 0, .fire 0] = true ∧ timely exCfg2 (init ℕ) [.arrive 1000 50 7, .fire 0] = true ∧
    (after exCfg2 [.arrive 1000 50 0, .fire 0]).log = [.arrived 0 0 1000 50 0, .notice 1000 0 true] ∧
    (after exCfg2 [.arrive 1000 50 7, .fire 0]).log = [.arrived 0 0 1000 50 7, .notice 1000 0 false] := by decide +kernel

/-- Signals at 0 (power 500), 15 and 108 (power 40 each): the third overlaps both others, which do not overlap each other. -/
def runBridge : List (Op ℕ) := [.arrive 1000 500 0, .advance 15, .arrive 1000 40 0, .advance 93, .arrive 1000 40 0, .fire 0]

/-- **C53 fails: too much interference is counted.**  The first frame is reported as collided, although the only signal that
ever overlaps it leaves an SINR above the threshold. -/
theorem C53_bridge_violated : timely exCfg2 (init ℕ) runBridge = true ∧
    (after exCfg2 runBridge).log = [.arrived 0 0 1000 500 0, .arrived 15 1 1000 40 0, .arrived 108 2 1000 40 0, .notice 1000 0 false] ∧
    ¬ Overlap 10 100 0 15 ∧ Overlap 10 100 0 108 ∧ exCfg2.bad 500 40 = false := by
  refine ⟨by decide +kernel, by decide +kernel, ?_, ⟨1, by omega, by omega⟩, by decide⟩
  rintro ⟨k, h1, h2⟩; omega

end Thz.PhyNano
