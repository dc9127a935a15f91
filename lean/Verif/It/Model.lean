/-! The internal face, through which the management of NFD gets its commands: `InternalForwarderTransport` and `InternalClientTransport`
(daemon/face/internal-transport.cpp), with the event loop as a queue of posted functions (`boost::asio::post` and `defer`: first in, first out). There is one
client; it may be connected to one forwarder-side transport after the other. Forwarder-side transports are numbered, are in the face table while they are open, and
are freed by the function that the table posts when they are closed (face-table.cpp:104-105). Packets are of any type. The client's receive callback is set
(ndn-cxx). -/
namespace Verif.It

/-- Forwarder-side transports. -/
inductive Life
  /-- not made yet -/
  | no
  | opened
  /-- closed and removed from the face table, not freed yet -/
  | closed
  | freed
deriving DecidableEq, Repr

/-- Functions that wait in the event loop (internal-transport.cpp:52-55, 110-115; face-table.cpp:105). -/
inductive Task (P : Type)
  | toForwarder (t : Nat) (p : P)
  | toClient (p : P)
  | free (t : Nat)
deriving DecidableEq, Repr

inductive Fault
  /-- a member of a freed transport is used -/
  | freedForwarder
  | freedClient
deriving DecidableEq, Repr

/-- `peer t`: `m_peer` of the transport is the client (else null); `forwarder`: `m_forwarder` of the client. `clientGot` and `forwarderGot` are what has been
delivered, for the latter with the transport and whether its face was in the table. -/
structure St (P : Type) where
  life : Nat → Life := fun _ => .no
  peer : Nat → Bool := fun _ => false
  client : Bool := true
  forwarder : Option Nat := none
  queue : List (Task P) := []
  clientGot : List P := []
  forwarderGot : List (Nat × P × Bool) := []

variable {P : Type}

/-- `setPeer` (internal-transport.hpp:60-64). -/
def St.setPeer (s : St P) (t : Nat) (b : Bool) : Except Fault (St P) :=
  if s.life t = .freed ∨ s.life t = .no then .error .freedForwarder
  else .ok { s with peer := fun x => if x = t then b else s.peer x }

/-- `connectToForwarder` (internal-transport.cpp:82-105). -/
def St.connect (s : St P) (t : Option Nat) : Except Fault (St P) := do
  let s ← match s.forwarder with
    | some o => s.setPeer o false
    | none => .ok s
  let s : St P := { s with forwarder := t }
  match t with
  | some o => s.setPeer o true
  | none => .ok s

/-- `send` of the client (internal-transport.cpp:118-125) and `receivePacket` (49-56). -/
def St.clientSend (s : St P) (p : P) : Except Fault (St P) :=
  match s.forwarder with
  | none => .ok s
  | some t => if s.life t = .freed then .error .freedForwarder else .ok { s with queue := s.queue ++ [.toForwarder t p] }

/-- `send` of the transport (transport.cpp:79-98), `doSend` (internal-transport.cpp:58-65) and `receivePacket` of the client (107-116). -/
def St.forwarderSend (s : St P) (t : Nat) (p : P) : Except Fault (St P) :=
  if s.life t ≠ .opened then .ok s
  else if s.peer t then
    if s.client then .ok { s with queue := s.queue ++ [.toClient p] } else .error .freedClient
  else .ok s

/-- `close` (transport.cpp:66-77, internal-transport.cpp:67-73): the client's handler of the change of state (98-103) was connected before that of the face table,
which posts the function that frees the face. -/
def St.close (s : St P) (t : Nat) : Except Fault (St P) :=
  if s.life t ≠ .opened then .ok s
  else do
    let s : St P := { s with life := fun x => if x = t then .closed else s.life x }
    let s ← if s.forwarder = some t then s.connect none else .ok s
    .ok { s with queue := s.queue ++ [.free t] }

/-- The event loop runs the next function. -/
def St.runNext (s : St P) : Except Fault (St P) :=
  match s.queue with
  | [] => .ok s
  | .toForwarder t p :: q =>
    if s.life t = .freed then .error .freedForwarder
    else .ok { s with queue := q, forwarderGot := s.forwarderGot ++ [(t, p, s.life t == .opened)] }
  | .toClient p :: q => if s.client then .ok { s with queue := q, clientGot := s.clientGot ++ [p] } else .error .freedClient
  | .free t :: q => .ok { s with queue := q, life := fun x => if x = t then .freed else s.life x }

inductive Ev (P : Type)
  | make (t : Nat)
  | connect (t : Option Nat)
  | clientSend (p : P)
  | forwarderSend (t : Nat) (p : P)
  | close (t : Nat)
  | runNext
  /-- `~InternalClientTransport` (internal-transport.cpp:75-80) -/
  | destroyClient
deriving DecidableEq, Repr

/-- Transports that are made are new; the client connects to an open one, and does nothing after it is destroyed. -/
def St.allowed (s : St P) : Ev P → Prop
  | .make t => s.life t = .no
  | .connect (some t) => s.client = true ∧ s.life t = .opened
  | .connect none | .clientSend _ | .destroyClient => s.client = true
  | _ => True

def St.step (s : St P) : Ev P → Except Fault (St P)
  | .make t => .ok { s with life := fun x => if x = t then .opened else s.life x }
  | .connect t => s.connect t
  | .clientSend p => s.clientSend p
  | .forwarderSend t p => s.forwarderSend t p
  | .close t => s.close t
  | .runNext => s.runNext
  | .destroyClient => do
    let s ← match s.forwarder with
      | some o => s.setPeer o false
      | none => .ok s
    .ok { s with client := false, forwarder := none }

def init : St P := {}

end Verif.It
