/-!
# Model of the duplicate filter `IsNewSequence`

The same function body appears in model/thz-mac-nano.cc:924-948, model/thz-mac-macro.cc:1087-1111,
model/thz-mac-macro-ap.cc and model/thz-mac-macro-client.cc:970-994.
-/

namespace Thz

/-- `std::list<std::pair<Mac48Address, uint16_t>> m_seqList` (model/thz-mac-nano.h:283).  The address type
is a parameter. -/
abbrev SeqList (α : Type) := List (α × UInt16)

/-- `IsNewSequence (addr, seq)` (model/thz-mac-nano.cc:924-948): the first entry for `addr` decides;
if there is none, an entry is appended.  Result: the answer and the new list. -/
def isNewSequence {α : Type} [DecidableEq α] : SeqList α → α → UInt16 → Bool × SeqList α
  | [], addr, seq => (true, [(addr, seq)])
  | e :: rest, addr, seq =>
    if e.1 = addr then
      if seq > e.2 then (true, (e.1, seq) :: rest) else (false, e :: rest)
    else
      let r := isNewSequence rest addr seq
      (r.1, e :: r.2)

/-- State of the filter after a history of received data frames (source, sequence); the list is empty
after `Clear` (model/thz-mac-nano.cc:72-80) / construction. -/
def seqAfter {α : Type} [DecidableEq α] (hist : List (α × UInt16)) : SeqList α :=
  hist.foldl (fun s e => (isNewSequence s e.1 e.2).2) []

/-- The frames of a history that are passed up: `if (IsNewSequence (source, sequence)) m_forwardUpCb (...)`
(model/thz-mac-nano.cc:683-694, 719-726). -/
def passedUpFrom {α : Type} [DecidableEq α] (s : SeqList α) : List (α × UInt16) → List (α × UInt16)
  | [] => []
  | e :: hist =>
    let r := isNewSequence s e.1 e.2
    if r.1 then e :: passedUpFrom r.2 hist else passedUpFrom r.2 hist

end Thz
