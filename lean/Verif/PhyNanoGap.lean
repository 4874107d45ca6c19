import Verif.PhyNano
import Mathlib.Tactic.Ring
import Mathlib.Tactic.Linarith

/-!
# The search for a gap: sorting (C49), images of pulse trains, overlap
-/

namespace Thz.PhyNano

/-! ## Sorting -/

theorem pass_perm (l : List ℤ) : ∀ x, ((pass x l).1 :: (pass x l).2).Perm (x :: l) := by
  induction l with
  | nil => intro x; exact List.Perm.refl _
  | cons y ys ih =>
    intro x
    unfold pass
    split
    · exact ((List.Perm.swap _ _ _).trans (List.Perm.cons x (ih y)))
    · exact ((List.Perm.swap _ _ _).trans (List.Perm.cons y (ih x))).trans (List.Perm.swap _ _ _)

theorem pass_le (l : List ℤ) : ∀ x, (pass x l).1 ≤ x ∧ ∀ y ∈ l, (pass x l).1 ≤ y := by
  induction l with
  | nil => intro x; exact ⟨Int.le_refl _, by simp⟩
  | cons y ys ih =>
    intro x
    unfold pass
    split
    · rename_i h
      obtain ⟨h1, h2⟩ := ih y
      refine ⟨by dsimp only; omega, ?_⟩
      intro z hz
      rcases List.mem_cons.1 hz with rfl | hz
      · exact h1
      · exact h2 z hz
    · rename_i h
      obtain ⟨h1, h2⟩ := ih x
      refine ⟨h1, ?_⟩
      intro z hz
      rcases List.mem_cons.1 hz with rfl | hz
      · dsimp only; omega
      · exact h2 z hz

theorem pass_length (x : ℤ) (l : List ℤ) : (pass x l).2.length = l.length := by
  have := (pass_perm l x).length_eq
  simpa using this

theorem passes_perm : ∀ (n : Nat) (l : List ℤ), (passes n l).Perm l
  | 0, _ => List.Perm.refl _
  | _ + 1, [] => List.Perm.refl _
  | n + 1, x :: xs => (List.Perm.cons _ (passes_perm n _)).trans (pass_perm xs x)

theorem passes_sorted : ∀ (n : Nat) (l : List ℤ), l.length ≤ n → (passes n l).Pairwise (· ≤ ·)
  | 0, l, h => by
    have : l = [] := List.length_eq_zero_iff.1 (Nat.le_zero.1 h)
    subst this; exact List.Pairwise.nil
  | _ + 1, [], _ => List.Pairwise.nil
  | n + 1, x :: xs, h => by
    refine List.Pairwise.cons ?_ (passes_sorted n _ (by rw [pass_length]; simpa using h))
    intro y hy
    have hy := (passes_perm n _).mem_iff.1 hy
    have hy' : y ∈ x :: xs := (pass_perm xs x).mem_iff.1 (List.mem_cons_of_mem _ hy)
    rcases List.mem_cons.1 hy' with rfl | h1
    · exact (pass_le xs y).1
    · exact (pass_le xs x).2 y h1

/-- **C49.**  `SortArray` puts every array into non-decreasing order and only rearranges it. -/
theorem C49_sorted (l : List ℤ) : (sortArray l).Pairwise (· ≤ ·) ∧ (sortArray l).Perm l :=
  ⟨passes_sorted _ l (Nat.le_refl _), passes_perm _ l⟩

example : sortArray [5, 3, 9, 3, 1] = [1, 3, 3, 5, 9] := by decide

/-! ## The loop -/

theorem search_gap {p lim x : ℤ} : ∀ {l : List ℤ}, search p lim l = .gap x →
    ∃ a y b, l = a ++ x :: y :: b ∧ x ≠ lim ∧ x + 2 * p ≤ y
  | [], h => by simp [search] at h
  | [z], h => by unfold search at h; split at h <;> cases h
  | z :: y :: rest, h => by
    unfold search at h
    split at h
    · rename_i hc
      cases h
      exact ⟨[], y, rest, rfl, hc⟩
    · obtain ⟨a, y', b, h1, h2⟩ := search_gap h
      exact ⟨z :: a, y', b, by rw [h1]; rfl, h2⟩

theorem search_full {p lim : ℤ} : ∀ {l : List ℤ}, search p lim l = .full →
    ∀ a x y b, l = a ++ x :: y :: b → x ≠ lim → y < x + 2 * p
  | [], _, a, x, y, b, h, _ => by simp at h
  | [z], _, a, x, y, b, h, _ => by
    have := congrArg List.length h
    simp at this
    omega
  | z :: w :: rest, h, a, x, y, b, hl, hx => by
    unfold search at h
    split at h
    · cases h
    · rename_i hc
      cases a with
      | nil =>
        simp only [List.nil_append, List.cons.injEq] at hl
        obtain ⟨rfl, rfl, _⟩ := hl
        by_contra hy
        exact hc ⟨hx, by omega⟩
      | cons a0 a =>
        simp only [List.cons_append, List.cons.injEq] at hl
        exact search_full h a x y b hl.2 hx

theorem search_wild {p lim : ℤ} : ∀ {l : List ℤ}, search p lim l = .wild → ∃ a x, l = a ++ [x] ∧ x ≠ lim
  | [], h => by simp [search] at h
  | [z], h => by
    unfold search at h
    split at h
    · rename_i hz; exact ⟨[], z, rfl, hz⟩
    · cases h
  | z :: w :: rest, h => by
    unfold search at h
    split at h
    · cases h
    · obtain ⟨a, x, h1, h2⟩ := search_wild h
      exact ⟨z :: a, x, by rw [h1]; rfl, h2⟩

/-! ## Pulse trains

A train with start `a` has a pulse of width `p` at `a + k * ts` for every `k`. -/

/-- Two trains have pulses that overlap. -/
def Overlap (p ts a b : ℤ) : Prop := ∃ k : ℤ, -p < a + k * ts - b ∧ a + k * ts - b < p

/-- A pulse that starts at `t` overlaps a pulse of the train, or ends exactly where one starts. -/
def Touch (p ts t a : ℤ) : Prop := ∃ k : ℤ, -p ≤ t - (a + k * ts) ∧ t - (a + k * ts) < p

variable {P : Type} {c : Cfg P}

theorem image_spec (hp : 0 < c.p) (hts : 0 < c.ts) {now a : ℤ} (ha : a < now + c.ts) :
    (∃ k : ℤ, 0 ≤ k ∧ image c now a = a + k * c.ts) ∧ now - c.p < image c now a ∧ image c now a < now + c.ts := by
  unfold image
  by_cases h : 0 ≤ now - a
  · rw [Int.tmod_eq_emod_of_nonneg h]
    have h1 := Int.emod_nonneg (now - a) (Int.ne_of_gt hts)
    have h2 := Int.emod_lt_of_pos (now - a) hts
    have h3 := Int.mul_ediv_add_emod (now - a) c.ts
    have h4 : 0 ≤ (now - a) / c.ts := Int.ediv_nonneg h (Int.le_of_lt hts)
    split
    · exact ⟨⟨(now - a) / c.ts, h4, by rw [Int.mul_comm]; omega⟩, by omega, by omega⟩
    · refine ⟨⟨(now - a) / c.ts + 1, by omega, ?_⟩, by omega, by omega⟩
      rw [Int.add_mul, Int.one_mul, Int.mul_comm]; omega
  · have e : Int.tmod (now - a) c.ts = now - a := by
      have : now - a = -(a - now) := by omega
      rw [this, Int.neg_tmod, Int.tmod_eq_of_lt (by omega) (by omega)]
    rw [e, if_pos (by omega)]
    exact ⟨⟨0, Int.le_refl _, by omega⟩, by omega, by omega⟩

theorem meets_iff (hp : 0 < c.p) (hts : 0 < c.ts) (t a : ℤ) :
    meets c t a = true ↔ t < a - c.p ∨ Touch c.p c.ts t a := by
  unfold meets Touch
  rw [decide_eq_true_eq]
  by_cases h : 0 ≤ t - (a - c.p)
  · rw [Int.tmod_eq_emod_of_nonneg h]
    have h1 := Int.emod_nonneg (t - (a - c.p)) (Int.ne_of_gt hts)
    have h3 := Int.mul_ediv_add_emod (t - (a - c.p)) c.ts
    constructor
    · intro hm
      refine .inr ⟨(t - (a - c.p)) / c.ts, ?_, ?_⟩ <;> rw [Int.mul_comm] <;> omega
    · rintro (h5 | ⟨k, h5, h6⟩)
      · omega
      · have e : (t - (a - c.p)) % c.ts = (t - (a - c.p) - k * c.ts) % c.ts := by
          rw [Int.sub_mul_emod_self_right]
        rw [e]
        have : (t - (a - c.p) - k * c.ts) % c.ts ≤ t - (a - c.p) - k * c.ts := by
          have h7 := Int.mul_ediv_add_emod (t - (a - c.p) - k * c.ts) c.ts
          have h8 : 0 ≤ c.ts * ((t - (a - c.p) - k * c.ts) / c.ts) :=
            Int.mul_nonneg (Int.le_of_lt hts) (Int.ediv_nonneg (by omega) (Int.le_of_lt hts))
          omega
        omega
  · constructor
    · intro _; left; omega
    · intro _
      have : Int.tmod (t - (a - c.p)) c.ts ≤ 0 := by
        have e : t - (a - c.p) = -((a - c.p) - t) := by omega
        rw [e, Int.neg_tmod]
        have := Int.tmod_nonneg c.ts (a := (a - c.p) - t) (by omega)
        omega
      omega

theorem Touch.of_overlap {p ts t a : ℤ} (h : Overlap p ts a t) : Touch p ts t a := by
  obtain ⟨k, h1, h2⟩ := h
  exact ⟨k, by omega, by omega⟩

theorem image_apart {p ts now a s r k0 : ℤ} (hts : 0 < ts) (hr : r = a + k0 * ts) (h1 : now ≤ r) (h2 : r < now + ts)
    (h3 : now + p ≤ s) (h4 : s + p ≤ now + ts) (h5 : r ≤ s - p ∨ s + p ≤ r) : ¬ Overlap p ts a s := by
  rintro ⟨k, h6, h7⟩
  have e : a + k * ts = r + (k - k0) * ts := by rw [hr]; ring
  rw [e] at h6 h7
  rcases lt_trichotomy (k - k0) 0 with hk | hk | hk
  · have : (k - k0) * ts ≤ (-1) * ts := Int.mul_le_mul_of_nonneg_right (by omega) (Int.le_of_lt hts)
    omega
  · rw [hk] at h6 h7; omega
  · have : 1 * ts ≤ (k - k0) * ts := Int.mul_le_mul_of_nonneg_right (by omega) (Int.le_of_lt hts)
    omega

/-! ## What the search finds -/

/-- The starts of all trains in the records. -/
def starts (s : St P) : List ℤ := s.tx.map (·.start) ++ s.rx.map (·.start)

theorem nextPulse_eq (s : St P) : nextPulse c s = s.now :: (starts s).map (image c s.now) ++ [s.now + c.ts] := by
  unfold nextPulse starts
  simp [List.map_append, Function.comp_def]

theorem mem_sorted {s : St P} {r : ℤ} : r ∈ sortArray (nextPulse c s) ↔
    r = s.now ∨ r = s.now + c.ts ∨ ∃ a ∈ starts s, r = image c s.now a := by
  rw [(C49_sorted _).2.mem_iff, nextPulse_eq]
  simp only [List.cons_append, List.mem_cons, List.mem_append, List.mem_map, List.mem_nil_iff, or_false]
  constructor
  · rintro (h | ⟨a, ha, h⟩ | h)
    · exact .inl h
    · exact .inr (.inr ⟨a, ha, h.symm⟩)
    · exact .inr (.inl h)
  · rintro (h | h | ⟨a, ha, h⟩)
    · exact .inl h
    · exact .inr (.inr h)
    · exact .inr (.inl ⟨a, ha, h.symm⟩)

variable {s : St P}

theorem sorted_bounds (hp : 0 < c.p) (hts : 0 < c.ts) (hs : ∀ a ∈ starts s, a < s.now + c.ts) {r : ℤ}
    (h : r ∈ sortArray (nextPulse c s)) : s.now - c.p < r ∧ r ≤ s.now + c.ts := by
  rcases mem_sorted.1 h with rfl | rfl | ⟨a, ha, rfl⟩
  · omega
  · omega
  · have := image_spec (c := c) hp hts (hs a ha)
    omega

theorem gap_spec (hp : 0 < c.p) (hts : 0 < c.ts) (hs : ∀ a ∈ starts s, a < s.now + c.ts) {x : ℤ}
    (h : search c.p (s.now + c.ts) (sortArray (nextPulse c s)) = .gap x) :
    s.now ≤ x ∧ x + 2 * c.p ≤ s.now + c.ts ∧ ∀ a ∈ starts s, image c s.now a ≤ x ∨ x + 2 * c.p ≤ image c s.now a := by
  obtain ⟨l1, y, l2, hl, hx, hy⟩ := search_gap h
  have hsort := (C49_sorted (nextPulse c s)).1
  have hside : ∀ r ∈ sortArray (nextPulse c s), r ≤ x ∨ x + 2 * c.p ≤ r := by
    intro r hr
    rw [hl] at hr hsort
    rw [List.pairwise_append, List.pairwise_cons, List.pairwise_cons] at hsort
    rcases List.mem_append.1 hr with hr | hr
    · exact .inl (hsort.2.2 r hr x List.mem_cons_self)
    · rcases List.mem_cons.1 hr with rfl | hr
      · exact .inl (Int.le_refl _)
      · rcases List.mem_cons.1 hr with rfl | hr
        · exact .inr hy
        · have := hsort.2.1.2.1 r hr; exact .inr (by omega)
  have hxm : x ∈ sortArray (nextPulse c s) := by rw [hl]; simp
  have hym : y ∈ sortArray (nextPulse c s) := by rw [hl]; simp
  have hxb := sorted_bounds hp hts hs hxm
  have hyb := sorted_bounds hp hts hs hym
  refine ⟨?_, by omega, ?_⟩
  · rcases hside s.now (mem_sorted.2 (.inl rfl)) with h1 | h1
    · exact h1
    · omega
  · intro a ha
    exact hside _ (mem_sorted.2 (.inr (.inr ⟨a, ha, rfl⟩)))

theorem wild_spec (hp : 0 < c.p) (hts : 0 < c.ts) (hs : ∀ a ∈ starts s, a < s.now + c.ts) :
    search c.p (s.now + c.ts) (sortArray (nextPulse c s)) ≠ .wild := by
  intro h
  obtain ⟨l1, x, hl, hx⟩ := search_wild h
  have hsort := (C49_sorted (nextPulse c s)).1
  have hlim : s.now + c.ts ∈ sortArray (nextPulse c s) := mem_sorted.2 (.inr (.inl rfl))
  have hxb := sorted_bounds hp hts hs (r := x) (by rw [hl]; simp)
  rw [hl] at hlim hsort
  rw [List.pairwise_append] at hsort
  rcases List.mem_append.1 hlim with h1 | h1
  · have := hsort.2.2 _ h1 x List.mem_cons_self
    exact hx (by omega)
  · exact hx (List.mem_singleton.1 h1).symm

theorem full_spec
    (h : search c.p (s.now + c.ts) (sortArray (nextPulse c s)) = .full) (hp : 0 < c.p) (t : ℤ) (h1 : s.now + c.p ≤ t)
    (h2 : t + c.p ≤ s.now + c.ts) : ∃ a ∈ starts s, t - c.p < image c s.now a ∧ image c s.now a < t + c.p := by
  by_contra hno
  have hsort := (C49_sorted (nextPulse c s)).1
  -- positions before and after `t`
  have key : ∀ l : List ℤ, l.Pairwise (· ≤ ·) → (∃ r ∈ l, r ≤ t - c.p) → (∃ r ∈ l, t + c.p ≤ r) →
      (∀ r ∈ l, r ≤ t - c.p ∨ t + c.p ≤ r) → ∃ a x y b, l = a ++ x :: y :: b ∧ x ≤ t - c.p ∧ t + c.p ≤ y := by
    intro l
    induction l with
    | nil => rintro _ ⟨r, hr, _⟩; simp at hr
    | cons z l ih =>
      intro hl hlow hhigh hall
      rw [List.pairwise_cons] at hl
      have hz : z ≤ t - c.p := by
        obtain ⟨r, hr, h3⟩ := hlow
        rcases List.mem_cons.1 hr with rfl | hr
        · exact h3
        · have := hl.1 r hr; omega
      have hhigh' : ∃ r ∈ l, t + c.p ≤ r := by
        obtain ⟨r, hr, h3⟩ := hhigh
        rcases List.mem_cons.1 hr with rfl | hr
        · omega
        · exact ⟨r, hr, h3⟩
      by_cases hlow' : ∃ r ∈ l, r ≤ t - c.p
      · obtain ⟨a, x, y, b, h3, h4⟩ := ih hl.2 hlow' hhigh' (fun r hr => hall r (List.mem_cons_of_mem _ hr))
        exact ⟨z :: a, x, y, b, by rw [h3]; rfl, h4⟩
      · cases l with
        | nil => obtain ⟨r, hr, _⟩ := hhigh'; simp at hr
        | cons y b =>
          refine ⟨[], z, y, b, rfl, hz, ?_⟩
          rcases hall y (by simp) with h3 | h3
          · exact absurd ⟨y, List.mem_cons_self, h3⟩ hlow'
          · exact h3
  obtain ⟨a, x, y, b, h3, h4, h5⟩ := key _ hsort ⟨s.now, mem_sorted.2 (.inl rfl), by omega⟩
    ⟨s.now + c.ts, mem_sorted.2 (.inr (.inl rfl)), h2⟩ (by
      intro r hr
      rcases mem_sorted.1 hr with rfl | rfl | ⟨a, ha, rfl⟩
      · left; omega
      · right; omega
      · by_contra hc
        exact hno ⟨a, ha, by omega, by omega⟩)
  have := search_full h a x y b h3 (by omega)
  omega

end Thz.PhyNano
