/-
Unicast UDP: the transport of a face, and the channel that creates the faces, with the event loop they run in.

The event loop (Boost.Asio and the scheduler of ndn-cxx, not part of /repo) is modelled as follows.
* Each face has a queue `q` of the handlers that will be invoked: completed operations of its socket, and functions posted with
  `boost::asio::defer`. Handlers of one face are invoked in this order. Handlers of different faces may be invoked in any order (more orders
  than the one queue of Boost.Asio permits).
* A completed operation is either handled at once (`now`), or its handler is appended to the queue.
* `cancel()` appends the handlers of the outstanding operations, with `operation_aborted`. It does not affect handlers already in the queue.
* A scheduled function runs when its time has come, or later.
* The operating system may refuse to create a socket, and any operation may fail.

The clock is `now`, in any unit. Objects are identified by the order in which they are created: face number `k` is the `k`-th face of the channel.

An exception that nothing catches and the use of a deallocated object end the run with a `Fault`.
-/
import Verif.Tp.Model

namespace Verif.Dg
open Verif.Lp (Bytes readElem)
open Verif.Tp (TState Persist validTransition leaving maxPacket)

inductive Err where
  | aborted | other
deriving DecidableEq, Repr

/-- Handlers of a face. -/
inductive Handler where
  /-- `handleReceive` with a datagram -/
  | recvOk (datagram : Bytes)
  /-- `handleReceive` with an error -/
  | recvErr (e : Err)
  /-- `handleSend` without error -/
  | sendOk
  /-- `handleSend` with an error -/
  | sendErr (e : Err)
  /-- the function deferred by `doClose` -/
  | close
  /-- the Face is deallocated (daemon/fw/face-table.cpp:104-105) -/
  | dealloc
deriving DecidableEq, Repr

inductive Fault where
  /-- std::runtime_error("Invalid state transition") -/
  | transition
  /-- a handler or a scheduled function is invoked after the transport is deallocated, or a datagram is dispatched to it -/
  | useAfterFree
deriving DecidableEq, Repr

/-- Effects of a face, with the time where it matters. -/
inductive Out where
  /-- afterStateChange -/
  | state (old new : TState)
  /-- the face becomes on-demand, or is created as such -/
  | onDemand (t : Nat)
  /-- a datagram was taken from the socket of the face -/
  | got (datagram : Bytes)
  /-- the channel dispatched a datagram to the face -/
  | dispatched (datagram : Bytes)
  /-- a packet handed to the link service: ++nInPackets -/
  | deliver (packet : Bytes) (t : Nat)
  /-- a packet was counted: ++nOutPackets -/
  | accepted (packet : Bytes)
  /-- a datagram left through the socket -/
  | sent (datagram : Bytes)
  /-- a datagram could not be sent -/
  | unsent (datagram : Bytes)
  /-- "Closing due to inactivity" -/
  | idle (t : Nat)
deriving DecidableEq, Repr

/-- A face with its UnicastUdpTransport. -/
structure Face where
  /-- remote endpoint -/
  ep : Nat
  persist : Persist
  state : TState
  /-- m_socket.is_open() -/
  isOpen : Bool
  /-- an asynchronous receive is outstanding -/
  reading : Bool
  /-- the outstanding asynchronous sends -/
  sends : List Bytes
  /-- m_hasRecentlyReceived -/
  recent : Bool
  /-- m_closeIfIdleEvent: when it runs -/
  timer : Option Nat
  /-- the expiration time of the face; `none` is time_point::max() -/
  expires : Option Nat
  q : List Handler
  dead : Bool
  out : List Out

def emit (f : Face) (o : Out) : Face := { f with out := f.out ++ [o] }

def post (f : Face) (h : Handler) : Face := { f with q := f.q ++ [h] }

/-- `scheduleClosureWhenIdle` (unicast-udp-transport.cpp:103-117). -/
def scheduleIdle (T now : Nat) (f : Face) : Face := { f with timer := some (now + T), expires := some (now + T) }

/-- `DatagramTransport` and `UnicastUdpTransport` constructors (datagram-transport.hpp:106-125, unicast-udp-transport.cpp:43-82). -/
def newFace (T now ep : Nat) (p : Persist) : Face :=
  let f : Face :=
    { ep := ep, persist := p, state := .up, isOpen := true, reading := true, sends := [], recent := false, timer := none, expires := none,
      q := [], dead := false, out := if p = .onDemand then [.onDemand now] else [] }
  if p = .onDemand ∧ T > 0 then scheduleIdle T now f else f

/-- `Transport::setState` (transport.cpp:174-212). When CLOSED, FaceTable::remove (daemon/fw/face-table.cpp:86-106) removes the face and
defers its deallocation. -/
def setState (f : Face) (n : TState) : Except Fault Face :=
  if f.state = n then .ok f
  else if validTransition f.state n then
    let f' := emit { f with state := n } (.state f.state n)
    .ok (if n = .closed then post f' .dealloc else f')
  else .error .transition

/-- `doClose` (datagram-transport.hpp:138-157). -/
def doClose (f : Face) : Face :=
  let f := if f.isOpen then
      { f with
        q := f.q ++ (if f.reading then [.recvErr .aborted] else []) ++ f.sends.map (fun _ => .sendErr .aborted)
        reading := false
        sends := []
        isOpen := false }
    else f
  post f .close

/-- `Transport::close` (transport.cpp:65-76). -/
def close (f : Face) : Except Fault Face :=
  if f.state ≠ .up ∧ f.state ≠ .down then .ok f
  else do
    let f ← setState f .closing
    .ok (doClose f)

/-- `Transport::send` (transport.cpp:78-98) and `doSend` (datagram-transport.hpp:159-170). -/
def send (f : Face) (packet : Bytes) : Face :=
  if f.state ≠ .up ∧ f.state ≠ .down then f
  else
    let f := if f.state = .up then emit f (.accepted packet) else f
    { f with sends := f.sends ++ [packet] }

/-- `processErrorCode` (datagram-transport.hpp:224-246). -/
def processError (f : Face) (e : Err) : Except Fault Face :=
  if leaving f.state ∨ e = .aborted then .ok f
  else if f.persist = .permanent then .ok f
  else do
    let f ← setState f .failed
    .ok (doClose f)

/-- `receiveDatagram` without error (datagram-transport.hpp:172-199), with `Transport::receive` (transport.cpp:100-111). The link service and
forwarding may send packets while they process the packet: this is modelled as happening after the handler. -/
def receiveDatagram (now : Nat) (f : Face) (b : Bytes) : Face :=
  match readElem b with
  | none => f
  | some (_, rest) =>
    if b.length - rest.length ≠ b.length then f
    else emit { f with recent := true } (.deliver b now)

/-- The end of `handleReceive` (datagram-transport.hpp:207-211). -/
def rearm (f : Face) : Face := if f.isOpen then { f with reading := true } else f

/-- The scheduled function of `scheduleClosureWhenIdle` (unicast-udp-transport.cpp:106-115). -/
def idleCheck (T now : Nat) (f : Face) : Except Fault Face :=
  let f := { f with timer := none }
  if !f.recent then close (emit f (.idle now))
  else .ok (scheduleIdle T now { f with recent := false })

/-- `Transport::setPersistency` (transport.cpp:151-167) and `afterChangePersistency` (unicast-udp-transport.cpp:90-101). -/
def setPersist (T now : Nat) (f : Face) (p : Persist) : Face :=
  if f.persist = p then f
  else
    let f := { f with persist := p }
    let f := if p = .onDemand then emit f (.onDemand now) else f
    if p = .onDemand ∧ T > 0 then scheduleIdle T now f
    else { f with timer := none, expires := none }

/-- Invokes a handler. Deallocation destroys the transport with its scheduled function. -/
def handle (now : Nat) (f : Face) : Handler → Except Fault Face
  | .recvOk b => .ok (rearm (receiveDatagram now (emit f (.got b)) b))
  | .recvErr e => do
    let f ← processError f e
    .ok (rearm f)
  | .sendOk => .ok f
  | .sendErr e => processError f e
  | .close => setState f .closed
  | .dealloc => .ok { f with dead := true, timer := none }

/-- An operation has completed. -/
def complete (now : Nat) (f : Face) (h : Handler) (atOnce : Bool) : Except Fault Face :=
  if atOnce then handle now f h else .ok (post f h)

/-- What can happen to a face. -/
inductive FEvent where
  /-- the link service sends a packet -/
  | send (packet : Bytes)
  /-- the face is closed -/
  | close
  | setPersist (p : Persist)
  /-- a datagram is taken from the socket, at most as many octets as there is space in the buffer; the rest is lost -/
  | recv (datagram : Bytes) (atOnce : Bool)
  /-- the outstanding receive fails -/
  | recvFail (atOnce : Bool)
  /-- the oldest outstanding send completes -/
  | sendDone (ok atOnce : Bool)
  /-- m_closeIfIdleEvent runs -/
  | timer
  /-- the next handler of the face is invoked -/
  | next
deriving DecidableEq, Repr

/-- A face that is CLOSED is no longer in the face table, so that nothing is sent on it and management does not find it. -/
def faceStep (T now : Nat) (f : Face) : FEvent → Except Fault Face
  | .send p => if f.state = .closed then .ok f else .ok (send f p)
  | .close => if f.state = .closed then .ok f else close f
  | .setPersist p => if f.state = .closed then .ok f else .ok (setPersist T now f p)
  | .recv b atOnce => if f.reading then complete now { f with reading := false } (.recvOk (b.take maxPacket)) atOnce else .ok f
  | .recvFail atOnce => if f.reading then complete now { f with reading := false } (.recvErr .other) atOnce else .ok f
  | .sendDone ok atOnce =>
    match f.sends with
    | [] => .ok f
    | p :: r =>
      let f := emit { f with sends := r } (if ok then .sent p else .unsent p)
      complete now f (if ok then .sendOk else .sendErr .other) atOnce
  | .timer =>
    match f.timer with
    | none => .ok f
    | some due => if now < due then .ok f else if f.dead then .error .useAfterFree else idleCheck T now f
  | .next =>
    match f.q with
    | [] => .ok f
    | h :: r => if f.dead then .error .useAfterFree else handle now { f with q := r } h

/-- The channel dispatches a datagram to the face. -/
def dispatch (now : Nat) (f : Face) (b : Bytes) : Except Fault Face :=
  if f.dead then .error .useAfterFree else .ok (receiveDatagram now (emit f (.dispatched b)) b)

/-- How a request to create a face is answered. -/
inductive Answer where
  /-- onFaceCreated, with the face -/
  | created (k : Nat)
  /-- onConnectFailed, with the status code -/
  | failed (code : Nat)
deriving DecidableEq, Repr

/-- Effects of the channel. -/
inductive COut where
  /-- a request to create a face is answered -/
  | answer (req : Nat) (a : Answer)
  /-- onFaceCreated for a face that was created for a new peer -/
  | newPeer (k : Nat)
  /-- a datagram from `ep` was dispatched to face `k` -/
  | peer (ep : Nat) (datagram : Bytes) (k : Nat)
  /-- onReceiveFailed -/
  | failed (code : Nat)
deriving DecidableEq, Repr

/-- A UdpChannel with all its faces. -/
structure Chan where
  now : Nat
  faces : List Face
  /-- m_channelFaces -/
  map : List (Nat × Nat)
  /-- m_socket.is_open() -/
  isOpen : Bool
  /-- an asynchronous receive is outstanding -/
  waiting : Bool
  /-- the handler of the completed receive: the datagram, its sender and whether the operating system will create a socket; `none` is an
  error -/
  pending : Option (Option (Nat × Bytes × Bool))
  out : List COut

def Chan.init : Chan := { now := 0, faces := [], map := [], isOpen := false, waiting := false, pending := none, out := [] }

def cemit (c : Chan) (o : COut) : Chan := { c with out := c.out ++ [o] }

/-- Changes face `k` to `f`. The channel forgets a face when it becomes CLOSED (udp-channel.cpp:195, channel.cpp:45-53). -/
def putFace (c : Chan) (k : Nat) (f f' : Face) : Chan :=
  { c with
    faces := c.faces.set k f'
    map := if f'.state = .closed ∧ f.state ≠ .closed then c.map.filter (fun x => x.1 != f.ep) else c.map }

/-- `createFace` (udp-channel.cpp:149-198). `ok` says whether the operating system creates the socket; `none` is an exception. -/
def createFace (T : Nat) (c : Chan) (ep : Nat) (p : Persist) (ok : Bool) : Option (Bool × Nat × Chan) :=
  match c.map.lookup ep with
  | some k => some (false, k, c)
  | none =>
    if !ok then none
    else some (true, c.faces.length,
      { c with faces := c.faces ++ [newFace T c.now ep p], map := c.map.filter (fun x => x.1 != ep) ++ [(ep, c.faces.length)] })

/-- `connect` (udp-channel.cpp:54-74). -/
def connect (T : Nat) (c : Chan) (req ep : Nat) (p : Persist) (ok : Bool) : Chan :=
  match createFace T c ep p ok with
  | none => cemit c (.answer req (.failed 504))
  | some (_, k, c) => cemit c (.answer req (.created k))

/-- `handleNewPeer` (udp-channel.cpp:105-147). -/
def handleNewPeer (T : Nat) (c : Chan) : Option (Nat × Bytes × Bool) → Except Fault Chan
  | none => .ok (cemit c (.failed 500))
  | some (ep, b, ok) =>
    match createFace T c ep .onDemand ok with
    | none => .ok (cemit c (.failed 504))
    | some (isCreated, k, c) =>
      let c := if isCreated then cemit c (.newPeer k) else c
      match c.faces[k]? with
      | none => .error .useAfterFree
      | some f => do
        let f' ← dispatch c.now f b
        .ok { cemit (putFace c k f f') (.peer ep b k) with waiting := true }

inductive Event where
  /-- time passes -/
  | tick (d : Nat)
  | face (k : Nat) (e : FEvent)
  /-- a face is requested -/
  | connect (req ep : Nat) (p : Persist) (ok : Bool)
  | listen
  /-- a datagram is taken from the socket of the channel -/
  | peer (ep : Nat) (datagram : Bytes) (ok atOnce : Bool)
  /-- the outstanding receive of the channel fails -/
  | peerFail (atOnce : Bool)
  /-- the pending handler of the channel is invoked -/
  | next
deriving DecidableEq, Repr

/-- `T` is m_idleFaceTimeout. -/
def step (T : Nat) (c : Chan) : Event → Except Fault Chan
  | .tick d => .ok { c with now := c.now + d }
  | .face k e =>
    match c.faces[k]? with
    | none => .ok c
    | some f => do
      let f' ← faceStep T c.now f e
      .ok (putFace c k f f')
  | .connect req ep p ok => .ok (connect T c req ep p ok)
  | .listen => if c.isOpen then .ok c else .ok { c with isOpen := true, waiting := true }
  | .peer ep b ok atOnce =>
    if !c.waiting then .ok c
    else if atOnce then handleNewPeer T { c with waiting := false } (some (ep, b.take maxPacket, ok))
    else .ok { c with waiting := false, pending := some (some (ep, b.take maxPacket, ok)) }
  | .peerFail atOnce =>
    if !c.waiting then .ok c
    else if atOnce then handleNewPeer T { c with waiting := false } none
    else .ok { c with waiting := false, pending := some none }
  | .next =>
    match c.pending with
    | none => .ok c
    | some x => handleNewPeer T { c with pending := none } x

def run (T : Nat) (c : Chan) : List Event → Except Fault Chan
  | [] => .ok c
  | e :: es => do
    let c ← step T c e
    run T c es

end Verif.Dg
