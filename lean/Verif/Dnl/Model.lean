import Verif.Name.Model

/-
Model of the Dead Nonce List: daemon/table/dead-nonce-list.{hpp,cpp}.

The two scheduled events (`mark`, `adjustCapacity`) are operations that may happen at any moment, which covers every
timing. The hash of name and nonce is a parameter, so everything holds whatever CityHash64 computes.
-/
namespace Verif.Dnl

/-- Entries are 64-bit hashes (dead-nonce-list.hpp:89). -/
abbrev Entry := Nat
/-- dead-nonce-list.hpp:186 -/
abbrev MARK : Entry := 0
/-- dead-nonce-list.hpp:164 -/
abbrev INITIAL_CAPACITY : Nat := 16384
/-- dead-nonce-list.hpp:170 -/
abbrev MIN_CAPACITY : Nat := 1024
/-- dead-nonce-list.hpp:176 -/
abbrev MAX_CAPACITY : Nat := 16777216
/-- dead-nonce-list.hpp:189 -/
abbrev EXPECTED_MARK_COUNT : Nat := 5
/-- dead-nonce-list.hpp:209 -/
abbrev EVICT_LIMIT : Nat := 64

/-- `m_index` in queue order, `m_capacity`, `m_actualMarkCounts` (dead-nonce-list.hpp:131-205). -/
structure Dnl where
  queue : List Entry
  capacity : Nat
  markCounts : List Nat

/-- Constructor (dead-nonce-list.cpp:35-62); a too short lifetime, which throws, is not modelled. -/
def init : Dnl := ⟨List.replicate EXPECTED_MARK_COUNT MARK, INITIAL_CAPACITY, []⟩

/-- `countMarks` (dead-nonce-list.cpp:105-109). -/
def Dnl.countMarks (s : Dnl) : Nat := s.queue.count MARK

/-- `size` (dead-nonce-list.cpp:64-68). -/
def Dnl.size (s : Dnl) : Nat := s.queue.length - s.countMarks

/-- `evictEntries` (dead-nonce-list.cpp:146-159); the assertion at its end is part of what is proved. -/
def Dnl.evictEntries (s : Dnl) : Dnl :=
  if s.queue.length ≤ s.capacity then s
  else { s with queue := s.queue.drop (min (s.queue.length - s.capacity) EVICT_LIMIT) }

/-- `has` on the hash (dead-nonce-list.cpp:70-75). -/
def Dnl.hasEntry (s : Dnl) (e : Entry) : Bool := s.queue.contains e

/-- `add` on the hash (dead-nonce-list.cpp:77-94). For a hash equal to MARK the code relocates an unspecified one of the
marks; the model takes the oldest. -/
def Dnl.addEntry (s : Dnl) (e : Entry) : Dnl :=
  if s.hasEntry e then { s with queue := s.queue.erase e ++ [e] }
  else Dnl.evictEntries { s with queue := s.queue ++ [e] }

/-- `mark` (dead-nonce-list.cpp:111-121). -/
def Dnl.mark (s : Dnl) : Dnl :=
  let s := { s with queue := s.queue ++ [MARK] }
  { s with markCounts := s.countMarks :: s.markCounts }

/-- `adjustCapacity` (dead-nonce-list.cpp:123-144). `equal_range(5).second == begin()` means every count is above 5;
`equal_range(5).first == end()` means every count is below 5. The products with the doubles 0.9 and 1.2, truncated, equal
the integer quotients for all capacities up to 2^24. -/
def Dnl.adjustCapacity (s : Dnl) : Dnl :=
  let cap :=
    if s.markCounts.all (fun c => EXPECTED_MARK_COUNT < c) then max MIN_CAPACITY (s.capacity * 9 / 10)
    else if s.markCounts.all (fun c => c < EXPECTED_MARK_COUNT) then min MAX_CAPACITY (s.capacity * 12 / 10)
    else s.capacity
  Dnl.evictEntries { s with capacity := cap, markCounts := [] }

abbrev Nonce := Nat

/-- Things that happen to a list. -/
inductive Op
  | add (name : Name) (nonce : Nonce)
  | mark
  | adjust

variable (hash : Name → Nonce → Entry)

/-- One event; `makeEntry` (dead-nonce-list.cpp:96-103) is `hash`. -/
def Dnl.step (s : Dnl) : Op → Dnl
  | .add n x => s.addEntry (hash n x)
  | .mark => s.mark
  | .adjust => s.adjustCapacity

def Dnl.run (s : Dnl) (ops : List Op) : Dnl := ops.foldl (Dnl.step hash) s

/-- `has` (dead-nonce-list.cpp:70-75). -/
def Dnl.has (s : Dnl) (n : Name) (x : Nonce) : Bool := s.hasEntry (hash n x)

end Verif.Dnl
