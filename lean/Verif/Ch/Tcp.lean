/-
The TCP channel: it connects to remote endpoints, accepts connections and creates faces, whose transports are those of `Verif.Tp`.

The event loop and the operating system are modelled as follows.
* A completed operation (a connection attempt, or accepting a connection) is either handled at once, or its handler is queued. The handlers of
  different operations may be invoked in any order (more orders than the queue of Boost.Asio permits). Closing a socket aborts an outstanding
  connection attempt, but does not affect a handler that is already queued.
* The event of a timeout runs when its time has come, or later. It can be cancelled until it runs.
* When the peer resets the connection, the remote endpoint of a socket can no longer be determined (`getpeername` fails). This may happen at
  any time, so that a connection comes with the number of questions for its remote endpoint which will be answered.
* `peer` maps an endpoint to the one that a socket is connected to if it was asked to connect to the first one (they differ for the address
  0.0.0.0, for example).

Endpoints are numbers. The parameters of the link service are left out. Face number `k` is the `k`-th face of the channel, and request number `i`
is the `i`-th request to connect.
-/
import Verif.Tp.Model

namespace Verif.Ch
open Verif.Tp (TState Persist)

inductive Fault where
  /-- the transport of a face ends the run -/
  | transport (f : Tp.Fault)
  /-- an exception that nothing catches: boost::system::system_error thrown by remote_endpoint() -/
  | exception
deriving DecidableEq, Repr

/-- How a connection attempt ends. -/
inductive Res where
  /-- connected; the number of questions for the remote endpoint that will be answered -/
  | ok (q : Nat)
  | err
  | aborted
deriving DecidableEq, Repr

inductive Conn where
  | outstanding
  /-- completed, and the handler is queued -/
  | queued (r : Res)
  | finished
deriving DecidableEq, Repr

/-- A request to connect. -/
structure Attempt where
  ep : Nat
  persist : Persist
  /-- when it was made -/
  start : Nat
  conn : Conn
  /-- timeoutEvent: when it runs -/
  timer : Option Nat
  /-- the socket was closed -/
  shut : Bool
deriving DecidableEq, Repr

/-- How a request is answered. -/
inductive Answer where
  /-- onFaceCreated -/
  | created (k : Nat)
  /-- onConnectFailed(504, "Connection failed") -/
  | refused
  /-- onConnectFailed(504, "Connection timed out") -/
  | timedOut
  /-- onConnectFailed(500, "Retrieve socket remote endpoint failed") -/
  | noEndpoint
deriving DecidableEq, Repr

inductive Out where
  /-- request `i` is answered at time `t` -/
  | answer (i : Nat) (a : Answer) (t : Nat)
  /-- onFaceCreated for an accepted connection from `ep` -/
  | accepted (ep k : Nat)
  /-- onAcceptFailed(500, "Accept failed") -/
  | acceptFailed
  /-- onAcceptFailed(500, "Retrieve socket remote endpoint failed") -/
  | acceptNoEndpoint
deriving DecidableEq, Repr

structure Face where
  ep : Nat
  tp : Tp.St

structure Chan where
  now : Nat
  faces : List Face
  /-- m_channelFaces -/
  map : List (Nat × Nat)
  reqs : List Attempt
  /-- m_acceptor.is_open() -/
  isOpen : Bool
  /-- an asynchronous accept is outstanding -/
  accepting : Bool
  /-- the queued handler of a completed accept: endpoint and number of questions that will be answered; `none` is an error -/
  pending : Option (Option (Nat × Nat))
  out : List Out

def Chan.init : Chan := { now := 0, faces := [], map := [], reqs := [], isOpen := false, accepting := false, pending := none, out := [] }

/-- What does not change while the channel exists. -/
structure Cfg where
  /-- log messages of level TRACE are evaluated -/
  trace : Bool
  /-- the timeout of connection attempts (tcp-channel.hpp:98: 8 seconds) -/
  timeout : Nat
  peer : Nat → Nat

def emit (c : Chan) (o : Out) : Chan := { c with out := c.out ++ [o] }

/-- `remote_endpoint()`, throwing. -/
def ask : Nat → Except Fault Nat
  | 0 => .error .exception
  | q + 1 => .ok q

/-- Where `createFace` reports to. -/
inductive Sink where
  | req (i : Nat)
  | acceptor
deriving DecidableEq, Repr

def report (c : Chan) (ep : Nat) : Sink → Option Nat → Chan
  | .req i, some k => emit c (.answer i (.created k) c.now)
  | .req i, none => emit c (.answer i .noEndpoint c.now)
  | .acceptor, some k => emit c (.accepted ep k)
  | .acceptor, none => emit c .acceptNoEndpoint

/-- `createFace` (tcp-channel.cpp:99-159) for a socket connected to `ep`, with the constructor of the transport (tcp-transport.cpp:42-57) which
asks for the remote endpoint twice. The new face becomes known to the channel; it forgets the face when it becomes CLOSED. -/
def createFace (c : Chan) (ep q : Nat) (p : Persist) (sink : Sink) : Except Fault Chan :=
  match q with
  | 0 => .ok (report c ep sink none)
  | q + 1 =>
    match c.map.lookup ep with
    | some k => .ok (report c ep sink (some k))
    | none => do
      let q ← ask q
      let q ← ask q
      let _ ← ask q
      let c := { c with faces := c.faces ++ [⟨ep, Tp.init true p⟩], map := c.map.filter (fun x => x.1 != ep) ++ [(ep, c.faces.length)] }
      .ok (report c ep sink (some (c.faces.length - 1)))

/-- `connect` (tcp-channel.cpp:74-96). -/
def connect (cfg : Cfg) (c : Chan) (ep : Nat) (p : Persist) : Chan :=
  match c.map.lookup ep with
  | some k => emit { c with reqs := c.reqs ++ [⟨ep, p, c.now, .finished, none, false⟩] } (.answer c.reqs.length (.created k) c.now)
  | none => { c with reqs := c.reqs ++ [⟨ep, p, c.now, .outstanding, some (c.now + cfg.timeout), false⟩] }

/-- `handleConnect` (tcp-channel.cpp:187-208). -/
def handleConnect (cfg : Cfg) (c : Chan) (i : Nat) (a : Attempt) (r : Res) : Except Fault Chan :=
  let c := { c with reqs := c.reqs.set i { a with conn := .finished, timer := none } }
  match r with
  | .err => .ok (emit c (.answer i .refused c.now))
  | .aborted => .ok c
  | .ok q => do
    let q := if a.shut then 0 else q
    let q ← if cfg.trace then ask q else .ok q
    createFace c (cfg.peer a.ep) q a.persist (.req i)

/-- `handleConnectTimeout` (tcp-channel.cpp:211-223). -/
def handleTimeout (c : Chan) (i : Nat) (a : Attempt) : Chan :=
  let conn := if a.conn = .outstanding then .queued .aborted else a.conn
  emit { c with reqs := c.reqs.set i { a with conn := conn, timer := none, shut := true } } (.answer i .timedOut c.now)

/-- The handler of `accept` (tcp-channel.cpp:165-183). -/
def handleAccept (cfg : Cfg) (c : Chan) : Option (Nat × Nat) → Except Fault Chan
  | none => .ok (emit c .acceptFailed)
  | some (ep, q) => do
    let q ← if cfg.trace then ask q else .ok q
    let c ← createFace c ep q .onDemand .acceptor
    .ok { c with accepting := true }

/-- Changes face `k` to `f'`. The channel forgets a face when it becomes CLOSED (tcp-channel.cpp:144, channel.cpp:45-53). -/
def putFace (c : Chan) (k : Nat) (f f' : Face) : Chan :=
  { c with
    faces := c.faces.set k f'
    map := if f'.tp.state = .closed ∧ f.tp.state ≠ .closed then c.map.filter (fun x => x.1 != f.ep) else c.map }

inductive Event where
  /-- time passes -/
  | tick (d : Nat)
  /-- something happens to face `k` -/
  | face (k : Nat) (e : Tp.Event)
  /-- a face is requested -/
  | connect (ep : Nat) (p : Persist)
  /-- the connection attempt of request `i` completes -/
  | connected (i : Nat) (q : Option Nat) (atOnce : Bool)
  /-- the queued handler of request `i` is invoked -/
  | connNext (i : Nat)
  /-- the timeout of request `i` runs -/
  | timeout (i : Nat)
  | listen
  /-- a connection from `ep` is accepted -/
  | accept (ep q : Nat) (atOnce : Bool)
  /-- accepting fails -/
  | acceptFail (atOnce : Bool)
  /-- the queued handler of the acceptor is invoked -/
  | acceptNext
deriving DecidableEq, Repr

/-- The result of a connection attempt: `none` is an error. -/
def resOf : Option Nat → Res
  | some q => .ok q
  | none => .err

def liftT {α : Type} : Except Tp.Fault α → Except Fault α
  | .ok x => .ok x
  | .error f => .error (.transport f)

def step (cfg : Cfg) (c : Chan) : Event → Except Fault Chan
  | .tick d => .ok { c with now := c.now + d }
  | .face k e =>
    match c.faces[k]? with
    | none => .ok c
    | some f => do
      let t ← liftT (Tp.step f.tp e)
      .ok (putFace c k f { f with tp := t })
  | .connect ep p => .ok (connect cfg c ep p)
  | .connected i q atOnce =>
    match c.reqs[i]? with
    | none => .ok c
    | some a =>
      if a.conn ≠ .outstanding then .ok c
      else if atOnce then handleConnect cfg c i a (resOf q)
      else .ok { c with reqs := c.reqs.set i { a with conn := .queued (resOf q) } }
  | .connNext i =>
    match c.reqs[i]? with
    | none => .ok c
    | some a =>
      match a.conn with
      | .queued r => handleConnect cfg c i a r
      | _ => .ok c
  | .timeout i =>
    match c.reqs[i]? with
    | none => .ok c
    | some a =>
      match a.timer with
      | none => .ok c
      | some due => if c.now < due then .ok c else .ok (handleTimeout c i a)
  | .listen => if c.isOpen then .ok c else .ok { c with isOpen := true, accepting := true }
  | .accept ep q atOnce =>
    if !c.accepting then .ok c
    else if atOnce then handleAccept cfg { c with accepting := false } (some (ep, q))
    else .ok { c with accepting := false, pending := some (some (ep, q)) }
  | .acceptFail atOnce =>
    if !c.accepting then .ok c
    else if atOnce then handleAccept cfg { c with accepting := false } none
    else .ok { c with accepting := false, pending := some none }
  | .acceptNext =>
    match c.pending with
    | none => .ok c
    | some x => handleAccept cfg { c with pending := none } x

def run (cfg : Cfg) (c : Chan) : List Event → Except Fault Chan
  | [] => .ok c
  | e :: es => do
    let c ← step cfg c e
    run cfg c es

end Verif.Ch
