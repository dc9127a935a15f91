/-
What a face that fails while a packet is sent on it does to the forwarding in progress.

A transport whose `doSend` fails synchronously closes its face before `send` returns (websocket-transport.cpp:80-92, 147-161); the face table then
removes the face (face-table.cpp:83, 88-106) and the forwarder removes it from the FIB and from the records of all PIT entries
(forwarder.cpp:78-80, cleanup.cpp:32-51), all of this within `Face::sendInterest`, `sendData` or `sendNack`. This model looks at one PIT entry and
the FIB entry that it is forwarded by. `dead` tells the faces on which sending fails. Lifetimes are explicit:
* `fibVer` changes when the vector of next hops does, or is destroyed with its entry: this invalidates the iterators `it` and `end` of a loop over it
  (all of them, a simplification: those before an erased element are not, but `end` always is, with which each step of the loop compares);
* an out-record has a serial number, by which a pointer to it names it.
`none` is undefined behaviour: an invalid iterator is used, or memory that has been freed. That `&*it` (forwarder.cpp:273) makes a pointer to a record
already erased is undefined too, strictly; here only its use is. Faces are deallocated later (face-table.cpp:104-105), so that references to them stay valid.
-/
namespace Verif.Re

abbrev FaceId := Nat

structure St where
  /-- the face table -/
  faces : List FaceId := []
  /-- next hops of the FIB entry, which exists unless the list is empty -/
  nexthops : List FaceId := []
  fibVer : Nat := 0
  /-- faces of the in-records of the PIT entry -/
  ins : List FaceId := []
  /-- out-records of the PIT entry: face and serial number -/
  outs : List (FaceId × Nat) := []
  serial : Nat := 0
  /-- the out-records written to through the pointer that `sendInterest` returned -/
  marked : List (FaceId × Nat) := []
  /-- the faces a packet was given to, in order -/
  tried : List FaceId := []
deriving DecidableEq, Repr

/-- `FaceTable::remove` with `cleanupOnFaceRemoval` (face-table.cpp:88-106, cleanup.cpp:32-51, fib.cpp:138-154, pit.cpp:127-139) -/
def removeFace (s : St) (f : FaceId) : St :=
  { s with
    faces := s.faces.filter (· != f)
    nexthops := s.nexthops.filter (· != f)
    fibVer := if s.nexthops.contains f then s.fibVer + 1 else s.fibVer
    ins := s.ins.filter (· != f)
    outs := s.outs.filter (fun r => r.1 != f) }

/-- `Face::sendInterest`, `sendData`, `sendNack` down to `Transport::send` (transport.cpp:79-98): nothing happens on a face that is closed already. -/
def sendOn (dead : FaceId → Bool) (s : St) (f : FaceId) : St :=
  if s.faces.contains f then
    let s := { s with tried := s.tried ++ [f] }
    if dead f then removeFace s f else s
  else s

/-- `insertOrUpdateOutRecord` (pit-entry.cpp:109-122): the record of the face, a new one if there is none. -/
def insertOutRecord (s : St) (f : FaceId) : St × Nat :=
  match s.outs.find? (·.1 = f) with
  | some r => (s, r.2)
  | none => ({ s with outs := s.outs ++ [(f, s.serial)], serial := s.serial + 1 }, s.serial)

/-- `Forwarder::onOutgoingInterest` (forwarder.cpp:247-274); `zero`: the HopLimit is 0 and the face is not local. -/
def onOutgoingInterest (dead zero : FaceId → Bool) (s : St) (f : FaceId) : St × Option Nat :=
  if zero f then (s, none)
  else
    let (s, r) := insertOutRecord s f
    (sendOn dead s f, some r)

/-- Writing to the out-record that a pointer points to. -/
def mark (s : St) (f : FaceId) (r : Nat) : Option St := if s.outs.contains (f, r) then some { s with marked := s.marked ++ [(f, r)] } else none

/-- The rest of `for (const auto& nexthop : fibEntry.getNextHops())`, from the index `i` on, with `n` elements to go to `end`. -/
def loopFrom (body : St → FaceId → Option St) (ver : Nat) : Nat → Nat → St → Option St
  | n, i, s =>
    if s.fibVer ≠ ver then none
    else match n with
      | 0 => some s
      | n + 1 => (s.nexthops[i]?).bind (fun f => (body s f).bind (fun s => loopFrom body ver n (i + 1) s))

def forNextHops (body : St → FaceId → Option St) (s : St) : Option St := loopFrom body s.fibVer s.nexthops.length 0 s

/-- `RetxSuppressionResult` -/
inductive Retx
  | new | forward | suppress
deriving DecidableEq, Repr

/-- What a strategy asks about a next hop; none of it depends on what is sent to other faces. -/
structure Env where
  dead : FaceId → Bool
  zero : FaceId → Bool
  eligible : FaceId → Bool
  retx : FaceId → Retx

/-- `MulticastStrategy::afterReceiveInterest` (multicast-strategy.cpp:60-86) -/
def multicast (e : Env) : St → Option St := forNextHops (fun s f =>
  if e.retx f = .suppress then some s
  else if !e.eligible f then some s
  else
    match onOutgoingInterest e.dead e.zero s f with
    | (s, some r) => if e.retx f = .forward then mark s f r else some s
    | (s, none) => some s)

/-- `AccessStrategy::multicast` (access-strategy.cpp:186-205) -/
def accessMulticast (e : Env) : St → Option St := forNextHops (fun s f =>
  if !e.eligible f then some s else some (onOutgoingInterest e.dead e.zero s f).1)

/-- The body of both loops of the self-learning strategy. -/
def learnBody (e : Env) (s : St) (f : FaceId) : Option St :=
  if !e.eligible f then some s
  else
    match onOutgoingInterest e.dead e.zero s f with
    | (s, some r) => mark s f r
    | (s, none) => some s

/-- `SelfLearningStrategy::multicastInterest` (self-learning-strategy.cpp:165-182) -/
def learnMulticast (e : Env) : St → Option St := forNextHops (learnBody e)

/-- The faces of the table from the last to the first. -/
def learnFrom (e : Env) : List FaceId → St → Option St
  | [], s => some s
  | f :: l, s => (learnBody e s f).bind (learnFrom e l)

/-- `SelfLearningStrategy::broadcastInterest` (self-learning-strategy.cpp:146-163). The iterator into the face table is not modelled: an element it could be
affected by is only erased where the record has been freed that is written to next. -/
def learnBroadcast (e : Env) (s : St) : Option St := learnFrom e s.faces.reverse s

/-- `sendInterest` to one next hop as the last thing that is done: best-route (best-route-strategy.cpp:89-92, 101-106, 113-117) and random
(random-strategy.cpp:77-78). The reference to the face that is logged stays valid. -/
def sendOne (e : Env) (f : FaceId) (s : St) : Option St := some (onOutgoingInterest e.dead e.zero s f).1

/-- `AsfStrategy::forwardInterest` (asf-strategy.cpp:183-208): the FIB entry is used after sending. -/
def asfForward (e : Env) (f : FaceId) (s : St) : Option St :=
  let s := (onOutgoingInterest e.dead e.zero s f).1
  if s.nexthops = [] then none else some s

/-- `Strategy::sendData` and `Forwarder::onOutgoingData` (strategy.cpp:232-252, forwarder.cpp:408-432); the scope is not modelled. -/
def sendData (dead : FaceId → Bool) (s : St) (f : FaceId) : St :=
  let s := { s with ins := s.ins.filter (· != f) }
  if s.faces.contains f then sendOn dead s f else s

/-- `Strategy::sendDataToAll` (strategy.cpp:254-274): `pending` are those of the in-records that it finds pending, in the order of the set of pointers. -/
def sendDataToAll (dead : FaceId → Bool) (s : St) (pending : List FaceId) : St := pending.foldl (sendData dead) s

/-- `Forwarder::onOutgoingNack` (forwarder.cpp:489-532) to a face of a point-to-point link. -/
def sendNack (dead : FaceId → Bool) (s : St) (f : FaceId) : St :=
  if !s.faces.contains f then s
  else if !s.ins.contains f then s
  else sendOn dead { s with ins := s.ins.filter (· != f) } f

/-- `Strategy::sendNacks` (strategy.cpp:276-296): `downstreams` are the faces of the in-records but for those excepted, in the order of the set. -/
def sendNacks (dead : FaceId → Bool) (s : St) (downstreams : List FaceId) : St := downstreams.foldl (sendNack dead) s

/-- `MulticastStrategy::afterNewNextHop` (multicast-strategy.cpp:88-109) for one PIT entry; `can`: one of its in-records lets the Interest be sent on the new
next hop. The reference to the next hop is valid as long as the vector has not changed. Records of this entry are not looked at. -/
def afterNewNextHop (dead : FaceId → Bool) (ver : Nat) (f : FaceId) (s : St) (can : Bool) : Option St :=
  if s.fibVer ≠ ver then none
  else some (if can then sendOn dead s f else s)

/-- `Forwarder::onNewNextHop` (forwarder.cpp:541-562) for the affected entries. -/
def onNewNextHop (dead : FaceId → Bool) (f : FaceId) (s : St) (l : List Bool) : Option St := l.foldlM (afterNewNextHop dead s.fibVer f) s

end Verif.Re
