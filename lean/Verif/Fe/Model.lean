/-! Events of faces as told by the notification stream `faces/events`, and the dataset `faces/list`: `FaceTable` (daemon/fw/face-table.cpp), `FaceManager`
(daemon/mgmt/face-manager.cpp:70-79, 352-370, 406-415, 496-525) and `Transport::setState` (daemon/face/transport.cpp:174-212). Face objects are numbered; their
properties (`copyFaceProperties`) are of any type. FaceIds are natural numbers, so that the 64-bit counter does not wrap. Other handlers of the signals, which
do not touch the table, and sending the notifications as Data packets are not modelled. `none` is a failed assertion or an exception. -/
namespace Verif.Fe

/-- `TransportState` (transport.hpp:37-44), without `NONE`. -/
inductive TState
  | up | down | closing | failed | closed
deriving DecidableEq, Repr

/-- `ndn::nfd::FaceEventKind`. -/
inductive Kind
  | created | destroyed | up | down
deriving DecidableEq, Repr

/-- `ndn::nfd::FaceEventNotification`. -/
structure Note (P : Type) where
  kind : Kind
  id : Nat
  props : P
deriving DecidableEq, Repr

/-- A face with its FaceId; 0 is `INVALID_FACEID` (face-common.hpp:51). -/
structure Face (P : Type) where
  id : Nat
  state : TState
  props : P
deriving DecidableEq, Repr

/-- A handler of a face's `afterStateChange`: that of the table (face-table.cpp:83) or that of the manager (face-manager.cpp:512-524). -/
structure Sub where
  obj : Nat
  id : Nat
  manager : Bool
deriving DecidableEq, Repr

/-- `subs` are the handlers in the order in which they were connected; those of the manager are what `m_faceStateChangeConn` holds. -/
structure St (P : Type) where
  last : Nat := 255
  objs : Nat → Option (Face P) := fun _ => none
  table : List (Nat × Nat) := []
  subs : List Sub := []
  manager : Bool := false
  out : List (Note P) := []

variable {P : Type}

def St.setObj (s : St P) (o : Nat) (f : Face P) : St P := { s with objs := fun x => if x = o then some f else s.objs x }

/-- `notifyFaceEvent` (face-manager.cpp:496-504). -/
def St.notify (s : St P) (o : Nat) (k : Kind) : St P :=
  match s.objs o with
  | none => s
  | some f => { s with out := s.out ++ [⟨k, f.id, f.props⟩] }

/-- `FaceTable::get` (face-table.cpp:37-42). -/
def St.get (s : St P) (id : Nat) : Option Nat := (s.table.find? (fun x => x.1 == id)).map (·.2)

/-- The manager's handler of `afterAdd` (face-manager.cpp:72-75, 506-525): assigning to an element of `m_faceStateChangeConn` ends the connection it held. -/
def St.afterAdd (s : St P) (o id : Nat) : St P :=
  if s.manager then
    ({ s with subs := s.subs.filter (fun x => !(x.manager && x.id == id)) ++ [⟨o, id, true⟩] } : St P).notify o .created
  else s

/-- `addImpl` (face-table.cpp:71-86). -/
def St.addImpl (s : St P) (o id : Nat) : Option (St P) :=
  match s.objs o with
  | none => none
  | some f =>
    if (s.get id).isSome then none
    else
      let s := s.setObj o { f with id := id }
      let s : St P := { s with table := (id, o) :: s.table, subs := s.subs ++ [⟨o, id, false⟩] }
      some (s.afterAdd o id)

/-- `add` (face-table.cpp:50-61). -/
def St.add (s : St P) (o : Nat) : Option (St P) :=
  match s.objs o with
  | none => none
  | some f =>
    if f.id ≠ 0 ∧ (s.get f.id).isSome then some s
    else if s.last + 1 ≤ 255 then none
    else ({ s with last := s.last + 1 } : St P).addImpl o (s.last + 1)

/-- `addReserved` (face-table.cpp:63-69). Simplification: only before the manager is made, as NFD does (nfd.cpp:81, 82, 136, 142), and not 0. -/
def St.addReserved (s : St P) (o id : Nat) : Option (St P) :=
  match s.objs o with
  | none => none
  | some f => if f.id = 0 ∧ id ≤ 255 ∧ id ≠ 0 ∧ s.manager = false then s.addImpl o id else none

/-- `remove` (face-table.cpp:88-106), with the manager's handler of `beforeRemove` (face-manager.cpp:76-78). -/
def St.remove (s : St P) (id : Nat) : Option (St P) :=
  match s.get id with
  | none => none
  | some o =>
    let s := if s.manager then s.notify o .destroyed else s
    match s.objs o with
    | none => none
    | some f => some (({ s with table := s.table.filter (fun x => x.1 != id) } : St P).setObj o { f with id := 0 })

/-- One handler of `afterStateChange` (channel.cpp:45-53, face-manager.cpp:513-524). -/
def St.handle (s : St P) (new : TState) (x : Sub) : Option (St P) :=
  if x.manager then
    match new with
    | .up => some (s.notify x.obj .up)
    | .down => some (s.notify x.obj .down)
    | .closed => some { s with subs := s.subs.filter (fun y => !(y.manager && y.id == x.id)) }
    | _ => some s
  else if new = .closed then s.remove x.id
  else some s

def St.handleAll (new : TState) : List Sub → St P → Option (St P)
  | [], s => some s
  | x :: l, s => (s.handle new x).bind (St.handleAll new l)

/-- Whether `setState` accepts the change (transport.cpp:181-203). -/
def valid : TState → TState → Bool
  | .up, .down | .up, .closing | .up, .failed => true
  | .down, .up | .down, .closing | .down, .failed => true
  | .closing, .closed | .failed, .closed => true
  | _, _ => false

/-- `setState` (transport.cpp:174-212). -/
def St.setState (s : St P) (o : Nat) (new : TState) : Option (St P) :=
  match s.objs o with
  | none => none
  | some f =>
    if f.state = new then some s
    else if valid f.state new then
      let s := s.setObj o { f with state := new }
      St.handleAll new (s.subs.filter (fun x => x.obj == o)) s
    else none

/-- What happens: a face is made (its transport is up, transport.hpp:439), added, its transport changes state, or its properties change (`faces/update`); the
manager is made. -/
inductive Ev (P : Type)
  | make (o : Nat) (props : P)
  | add (o : Nat)
  | addReserved (o id : Nat)
  | start
  | setState (o : Nat) (new : TState)
  | setProps (o : Nat) (props : P)

def St.step (s : St P) : Ev P → Option (St P)
  | .make o p => if (s.objs o).isSome then none else some (s.setObj o ⟨0, .up, p⟩)
  | .add o => s.add o
  | .addReserved o id => s.addReserved o id
  | .start => if s.manager then none else some { s with manager := true }
  | .setState o new => s.setState o new
  | .setProps o p =>
    match s.objs o with
    | none => none
    | some f => some (s.setObj o { f with props := p })

def run : St P → List (Ev P) → Option (St P)
  | s, [] => some s
  | s, e :: l => (s.step e).bind (fun s => run s l)

def init : St P := {}

/-- `listFaces` (face-manager.cpp:406-415): FaceIds and properties; the order of the hashtable is left open. -/
def St.list (s : St P) : List (Nat × P) := s.table.filterMap (fun x => (s.objs x.2).map (fun f => (f.id, f.props)))

end Verif.Fe
