import Mathlib.Data.Rat.Floor
import Mathlib.Tactic.Linarith
import Mathlib.Tactic.NormNum

/-!
# C121-C123: the random numbers of a simulation

Every random number of the module is the first one of a newly created random variable.  ns-3 gives a new random variable the next free stream and
derives its numbers from the global seed, the global run number and the stream.  A simulation is a program that decides what it does next from the random numbers
drawn so far.
-/

namespace Thz.Seed

/-- ns-3's global state: `RngSeedManager::GetSeed`, `GetRun`, and the next automatic stream (`RngSeedManager::GetNextStreamIndex`). -/
structure St where
  seed : UInt32
  run : Nat
  next : Nat
  drawn : List Int     -- the random numbers drawn so far, newest first
  used : List (UInt32 × Nat × Nat)  -- ghost: seed, run and stream of each of them, newest first
deriving DecidableEq

/-- At the start: seed 1, run 1 (the defaults of ns-3). -/
def init : St := ⟨1, 1, 0, [], []⟩

/-- The generator: seed, run and stream give a number in [0, 1). It is not modelled further. -/
abbrev Gen := UInt32 → Nat → Nat → ℚ

/-- What a simulation does that matters here. -/
inductive Op
  /-- the user sets the seed (examples/thz-macro-central.cc:310-311). -/
  | setSeed (s : UInt32)
  /-- the user sets the run number (examples/thz-nano-adhoc.cc:82-83). -/
  | setRun (r : Nat)
  /-- a nano MAC is given an address with this last byte: `THzMacNano::SetAddress` (model/thz-mac-nano.cc:184-192), called by `THzHelper::Install`
  (helper/thz-helper.cc:79). -/
  | nanoAddress (b : UInt8)
  /-- a nano MAC backs off: `THzMacNano::Backoff` (model/thz-mac-nano.cc:326-341). -/
  | nanoBackoff (retry : Nat)
  /-- an energy model is created (model/thz-energy-model.cc:94-100). -/
  | energyModel
  /-- any other random number: `GetInteger (lo, hi)` or `GetValue` of a new random variable (model/thz-mac-macro.cc:352-353 and 1080-1081,
  model/thz-mac-macro-client.cc:348-349, 401-402, 450-451, 792-793, 850-851, model/traffic-generator.cc:90-93, 101-102, 142-143,
  model/thz-udp-client.cc:146-149, 194-198).  Exponential ones, which are a function of one uniform number, are not distinguished from integer ones. -/
  | draw (lo hi : Int)
deriving DecidableEq

/-- What comes from outside the simulation: what the clock of the computer says (`time (0)`) and what memory holds, at each step. -/
structure Outside where
  clock : Nat → UInt32
  memory : Nat → UInt32

/-- A new random variable and its first number: `CreateObject<UniformRandomVariable> ()`, `GetInteger (lo, hi)`. -/
def draw (g : Gen) (lo hi : Int) (s : St) : St :=
  { s with next := s.next + 1
           drawn := (lo + ⌊g s.seed s.run s.next * ((hi - lo + 1 : Int) : ℚ)⌋) :: s.drawn
           used := (s.seed, s.run, s.next) :: s.used }

/-- One operation, the `k`th of the simulation. -/
def step (g : Gen) (out : Outside) (k : Nat) (s : St) : Op → St
  | .setSeed x => { s with seed := x }
  | .setRun r => { s with run := r }
  | .nanoAddress b => { s with seed := (b.toNat + 9).toUInt32 }   -- model/thz-mac-nano.cc:191
  | .nanoBackoff r => draw g 1 (2 ^ r) { s with seed := out.clock k }  -- model/thz-mac-nano.cc:333-336
  | .energyModel => draw g 0 (out.memory k).toNat s  -- the attribute (a double) is read before it is set, model/thz-energy-model.cc:98
  | .draw lo hi => draw g lo hi s

/-- A simulation: what it does next, if anything, given the random numbers drawn so far and the number of operations done. -/
abbrev Prog := Nat → List Int → Option Op

/-- The state after `n` operations of a simulation. -/
def run (g : Gen) (out : Outside) (p : Prog) (s0 : St) : Nat → St
  | 0 => s0
  | n + 1 => let s := run g out p s0 n
    match p n s.drawn with
    | none => s
    | some o => step g out n s o

/-! ## C121: reproducible -/

/-- Operations that use only what the simulation itself determines. -/
def pure : Op → Bool
  | .nanoBackoff _ => false
  | .energyModel => false
  | _ => true

/-- **C121, the part that holds.**  A simulation without nano back-offs and energy models draws the same random numbers whenever and wherever it is run. -/
theorem C121_reproducible_partial (g : Gen) (p : Prog) (hp : ∀ n h o, p n h = some o → pure o = true) (out out' : Outside) (s0 : St) (n : Nat) :
    run g out p s0 n = run g out' p s0 n := by
  induction n with
  | zero => rfl
  | succ n ih =>
    unfold run
    rw [ih]
    dsimp only
    cases h : p n (run g out' p s0 n).drawn with
    | none => rfl
    | some o =>
      have := hp _ _ _ h
      cases o <;> first | rfl | (exact absurd this Bool.false_ne_true)

/-- **C121, violated by the clock.**  One nano device, seed and run set by the user: with a generator that gives different numbers for two
readings of the clock, the first back-off differs between two runs of the same simulation. -/
theorem C121_clock_violated (g : Gen) (seed c c' : UInt32) (r : Nat) (retry : Nat)
    (hg : ⌊g c r 0 * ((2 : Int) ^ retry : Int)⌋ ≠ ⌊g c' r 0 * ((2 : Int) ^ retry : Int)⌋) :
    ∃ (p : Prog) (out out' : Outside) (n : Nat), p 0 [] = some (.setSeed seed) ∧ p 1 [] = some (.setRun r) ∧ out.memory = out'.memory ∧
      (run g out p init n).drawn ≠ (run g out' p init n).drawn := by
  refine ⟨fun n _ => match n with | 0 => some (.setSeed seed) | 1 => some (.setRun r) | 2 => some (.nanoAddress 1) | 3 => some (.nanoBackoff retry) | _ => none,
    ⟨fun _ => c, fun _ => 0⟩, ⟨fun _ => c', fun _ => 0⟩, 4, rfl, rfl, rfl, ?_⟩
  intro h
  simp only [run, step, draw, init, List.cons.injEq, and_true] at h
  apply hg
  have e : ((2 : Int) ^ retry - 1 + 1) = (2 : Int) ^ retry := by omega
  rw [e] at h
  omega

/-- **C121, violated by memory.**  One energy model: what memory holds decides about the number drawn. -/
theorem C121_memory_violated (g : Gen) (seed m m' : UInt32) (r : Nat)
    (hg : ⌊g seed r 0 * ((m.toNat + 1 : Int) : ℚ)⌋ ≠ ⌊g seed r 0 * ((m'.toNat + 1 : Int) : ℚ)⌋) :
    ∃ (p : Prog) (out out' : Outside) (n : Nat), p 0 [] = some (.setSeed seed) ∧ p 1 [] = some (.setRun r) ∧ out.clock = out'.clock ∧
      (run g out p init n).drawn ≠ (run g out' p init n).drawn := by
  refine ⟨fun n _ => match n with | 0 => some (.setSeed seed) | 1 => some (.setRun r) | 2 => some .energyModel | _ => none,
    ⟨fun _ => 0, fun _ => m⟩, ⟨fun _ => 0, fun _ => m'⟩, 3, rfl, rfl, rfl, ?_⟩
  intro h
  simp only [run, step, draw, init, List.cons.injEq, and_true] at h
  apply hg
  rw [sub_zero, sub_zero] at h
  omega

/-! ## C122: the seed set by the user governs -/

/-- Operations that leave the seed and the run number alone. -/
def keeps : Op → Bool
  | .energyModel => true
  | .draw _ _ => true
  | _ => false

/-- **C122, the part that holds.**  Once the user has set seed and run, and as long as no nano device is given an address or backs off and the user does not change
them, every random number comes from that seed and that run. -/
theorem C122_seed_partial (g : Gen) (out : Outside) (p : Prog) (s0 : St) (hp : ∀ n h o, p n h = some o → keeps o = true) (n : Nat) :
    ∃ l, (run g out p s0 n).used = l ++ s0.used ∧ (∀ u ∈ l, u.1 = s0.seed ∧ u.2.1 = s0.run) ∧
      (run g out p s0 n).seed = s0.seed ∧ (run g out p s0 n).run = s0.run := by
  induction n with
  | zero => exact ⟨[], rfl, by simp, rfl, rfl⟩
  | succ n ih =>
    obtain ⟨l, h1, h2, h3, h4⟩ := ih
    unfold run
    dsimp only
    cases h : p n (run g out p s0 n).drawn with
    | none => exact ⟨l, h1, h2, h3, h4⟩
    | some o =>
      have := hp _ _ _ h
      cases o with
      | energyModel =>
        refine ⟨((run g out p s0 n).seed, (run g out p s0 n).run, (run g out p s0 n).next) :: l, by simp [step, draw, h1], ?_, h3, h4⟩
        intro u hu
        rcases List.mem_cons.1 hu with rfl | hu
        · exact ⟨h3, h4⟩
        · exact h2 u hu
      | draw lo hi =>
        refine ⟨((run g out p s0 n).seed, (run g out p s0 n).run, (run g out p s0 n).next) :: l, by simp [step, draw, h1], ?_, h3, h4⟩
        intro u hu
        rcases List.mem_cons.1 hu with rfl | hu
        · exact ⟨h3, h4⟩
        · exact h2 u hu
      | _ => cases this

/-- **C122, violated.**  For every generator and every simulation that begins with installing a nano device: whatever seed was set before, the whole
simulation is the same. -/
theorem C122_seed_violated (g : Gen) (out : Outside) (p : Prog) (b : UInt8) (hp : p 0 [] = some (.nanoAddress b)) (seed seed' : UInt32) (r : Nat) (n : Nat)
    (hn : 0 < n) : run g out p { init with seed := seed, run := r } n = run g out p { init with seed := seed', run := r } n := by
  induction n with
  | zero => omega
  | succ n ih =>
    cases n with
    | zero => simp [run, hp, init, step]
    | succ n =>
      have h := ih (by omega)
      generalize hm : n + 1 = m at h ⊢
      unfold run
      rw [h]

/-! ## C123: no stream is used twice -/

/-- **C123.**  No two random numbers of a simulation come from the same stream, whatever it does to seed and run number. -/
theorem C123_streams_distinct (g : Gen) (out : Outside) (p : Prog) (n : Nat) :
    ((run g out p init n).used.map (·.2.2)).Nodup := by
  have : ((run g out p init n).used.map (·.2.2)).Nodup ∧ ∀ u ∈ (run g out p init n).used, u.2.2 < (run g out p init n).next := by
    induction n with
    | zero => simp [run, init]
    | succ n ih =>
      unfold run
      dsimp only
      cases h : p n (run g out p init n).drawn with
      | none => exact ih
      | some o =>
        have hd : ∀ (lo hi : Int) (s : St), ((s.used.map (·.2.2)).Nodup ∧ ∀ u ∈ s.used, u.2.2 < s.next) →
            (((draw g lo hi s).used.map (·.2.2)).Nodup ∧ ∀ u ∈ (draw g lo hi s).used, u.2.2 < (draw g lo hi s).next) := by
          intro lo hi s hs
          refine ⟨?_, ?_⟩
          · simp only [draw, List.map_cons, List.nodup_cons]
            refine ⟨?_, hs.1⟩
            intro hm
            obtain ⟨u, hu, he⟩ := List.mem_map.1 hm
            have := hs.2 u hu
            omega
          · intro u hu
            simp only [draw, List.mem_cons] at hu
            show u.2.2 < s.next + 1
            rcases hu with rfl | hu
            · exact Nat.lt_succ_self _
            · have := hs.2 u hu
              omega
        cases o with
        | nanoBackoff r => exact hd _ _ _ ih
        | energyModel => exact hd _ _ _ ih
        | draw lo hi => exact hd _ _ _ ih
        | _ => exact ih
  exact this.1

/-! ## Examples -/

/-- A generator that tells seeds, runs and streams apart. -/
def exGen : Gen := fun s r k => (((s.toNat + 7 * r + 3 * k) % 10 : Nat) : ℚ) / 10

/-- A simulation without nano devices: the user sets the seed, two numbers are drawn, the second from a range that depends on the first. -/
def exProg : Prog := fun n h => match n with
  | 0 => some (.setSeed 4)
  | 1 => some (.draw 1 8)
  | 2 => some (.draw 0 (h.headD 0))
  | _ => none

/-- The hypothesis of `C121_reproducible_partial` is met. -/
example : ∀ n h o, exProg n h = some o → pure o = true := by
  intro n h o ho
  match n with
  | 0 => cases ho; rfl
  | 1 => cases ho; rfl
  | 2 => cases ho; rfl
  | n + 3 => cases ho

/-- The hypothesis of `C121_memory_violated` is met. -/
example : ⌊exGen 4 1 0 * (((0 : UInt32).toNat + 1 : Int) : ℚ)⌋ ≠ ⌊exGen 4 1 0 * (((9 : UInt32).toNat + 1 : Int) : ℚ)⌋ := by
  decide +kernel

/-- The hypothesis of `C121_clock_violated` is met. -/
example : ⌊exGen 3 1 0 * ((2 : Int) ^ 3 : Int)⌋ ≠ ⌊exGen 5 1 0 * ((2 : Int) ^ 3 : Int)⌋ := by
  decide +kernel

/-- The hypothesis of `C122_seed_partial` is met by what follows the choice of the seed. -/
example : ∀ n h o, (fun n h => exProg (n + 1) h : Prog) n h = some o → keeps o = true := by
  intro n h o ho
  match n with
  | 0 => cases ho; rfl
  | 1 => cases ho; rfl
  | n + 2 => cases ho

end Thz.Seed
