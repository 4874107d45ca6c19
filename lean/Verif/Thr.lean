import Mathlib.Data.Rat.Defs
import Mathlib.Algebra.Field.Rat

/-!
# Throughput variables of the macro MACs

`m_throughputAll`, `m_ite` and `m_throughputavg` (model/thz-mac-macro.h:481-485,
model/thz-mac-macro-client.h:458-462) with the values passed to the trace source `Throughput`.
-/

namespace Thz

/-- The variables, and the list of reported values, oldest first.  `double` is replaced by exact rationals. -/
structure Thr where
  all : ℚ
  ite : Nat
  reported : List ℚ
deriving DecidableEq

/-- Their initial values (model/thz-mac-macro.cc:80-82, model/thz-mac-macro-client.cc:75-76). -/
def Thr.init : Thr := ⟨0, 0, []⟩

/-- One acknowledged packet (model/thz-mac-macro.cc:885-889, model/thz-mac-macro-client.cc:734-738) of recorded
size `size`, `delay` ticks after its acceptance: `m_throughput = (RecSize - 53) * 8 / m_timeRec`, computed from
an `int` (the 16 bit size is promoted, so this may be negative).  Rates are in bits per tick.  A delay of zero
gives an infinite rate in the code and zero here. -/
def Thr.add (x : Thr) (size : UInt16) (delay : ℤ) : Thr :=
  let a := x.all + (((size.toNat : ℤ) - 53) * 8 : ℤ) / (delay : ℚ)
  ⟨a, x.ite + 1, x.reported ++ [a / ((x.ite + 1 : ℕ) : ℚ)]⟩

end Thz
