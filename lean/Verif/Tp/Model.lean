/-
Stream transports (Unix stream and TCP), with the event loop they run in.

The event loop (Boost.Asio, not part of /repo) is modelled as follows.
* `ready` is the queue of handlers that will be invoked, in order: completed operations, and functions posted with `boost::asio::defer`.
* When the socket becomes ready, an outstanding write and an outstanding read may complete at the same time. The handler of one is invoked
  at once, the other one is appended to `ready`. A read or write completing alone is handled at once.
* `cancel()` and closing a socket append the handlers of the outstanding operations to `ready`, with `operation_aborted`. They do not affect
  handlers already in `ready`.
* An operation started on a socket that is shut down fails.
* A connection attempt is noticed only after all handlers that were in `ready` when it started.

An assertion that fails, an exception that nothing catches and the use of a deallocated object end the run with a `Fault`.
-/
import Verif.Lp.Tlv

namespace Verif.Tp
open Verif.Lp (Bytes readElem)

/-- daemon/face/transport.hpp: `TransportState` (NONE is not used after construction). -/
inductive TState where
  | up | down | closing | failed | closed
deriving DecidableEq, Repr

/-- `FacePersistency` of ndn-cxx, without NONE. -/
inductive Persist where
  | onDemand | persistent | permanent
deriving DecidableEq, Repr

/-- Error codes, as far as they are distinguished (stream-transport.hpp:281-308, tcp-transport.cpp:145-157). -/
inductive Err where
  | aborted | eof | other
deriving DecidableEq, Repr

/-- Handlers in the queue of the event loop. -/
inductive Handler where
  /-- `handleReceive` with data -/
  | readOk (chunk : Bytes)
  /-- `handleReceive` with an error -/
  | readErr (e : Err)
  /-- `handleSend` without error -/
  | writeOk (n : Nat)
  /-- `handleSend` with an error -/
  | writeErr (e : Err)
  /-- `handleReconnect` with `operation_aborted` -/
  | connectAborted
  /-- `deferredClose` -/
  | deferredClose
  /-- `reconnect` -/
  | reconnect
  /-- the Face is deallocated (daemon/fw/face-table.cpp:104-105) -/
  | dealloc
deriving DecidableEq, Repr

inductive Fault where
  /-- BOOST_ASSERT(getState() == TransportState::UP) in startReceive -/
  | receiveNotUp
  /-- BOOST_ASSERT in handleSend -/
  | sendQueue
  /-- BOOST_ASSERT in reconnect -/
  | reconnectState
  /-- std::runtime_error("Invalid state transition") -/
  | transition
  /-- a handler is invoked after the transport is deallocated -/
  | useAfterFree
deriving DecidableEq, Repr

inductive Out where
  /-- afterStateChange -/
  | state (old new : TState)
  /-- a packet was counted and enqueued: ++nOutPackets -/
  | accepted (packet : Bytes)
  /-- octets taken from the socket -/
  | read (octets : Bytes)
  /-- octets that left through the socket -/
  | wire (octets : Bytes)
  /-- a packet handed to the link service: ++nInPackets -/
  | deliver (packet : Bytes)
  /-- a connection attempt, with the timeout for it in milliseconds -/
  | connecting (wait : Nat)
  /-- a new connection is established -/
  | connected
deriving DecidableEq, Repr

structure St where
  /-- TcpTransport, or UnixStreamTransport -/
  tcp : Bool
  persist : Persist
  state : TState
  /-- the first m_receiveBufferSize octets of m_receiveBuffer -/
  recvBuf : Bytes
  sendQ : List Bytes
  ready : List Handler
  /-- an asynchronous receive is outstanding -/
  reading : Bool
  /-- the octets not yet written by the outstanding asynchronous write -/
  writing : Option Bytes
  /-- an asynchronous connect is outstanding; the number of handlers in `ready` that come before its completion -/
  connecting : Option Nat
  /-- the socket is open and neither shut down nor waiting for a connection -/
  usable : Bool
  /-- m_reconnectEvent is scheduled -/
  timer : Bool
  /-- m_nextReconnectWait -/
  wait : Nat
  dead : Bool
  out : List Out

/-- `ndn::MAX_NDN_PACKET_SIZE` -/
abbrev maxPacket : Nat := 8800

/-- tcp-transport.hpp:81-91 -/
abbrev initialWait : Nat := 1000
abbrev maxWait : Nat := 300000

/-- stream-transport.hpp:115-124 with unix-stream-transport.cpp:34-52 or tcp-transport.cpp:42-57. -/
def init (tcp : Bool) (p : Persist) : St where
  tcp := tcp
  persist := if tcp then p else .onDemand
  state := .up
  recvBuf := []
  sendQ := []
  ready := []
  reading := true
  writing := none
  connecting := none
  usable := true
  timer := false
  wait := initialWait
  dead := false
  out := []

def emit (s : St) (o : Out) : St := { s with out := s.out ++ [o] }

def post (s : St) (h : Handler) : St := { s with ready := s.ready ++ [h] }

/-- The transitions of transport.cpp:182-200. -/
def validTransition : TState → TState → Bool
  | .up, n => n == .down || n == .closing || n == .failed
  | .down, n => n == .up || n == .closing || n == .failed
  | .closing, n => n == .closed
  | .failed, n => n == .closed
  | .closed, _ => false

/-- `Transport::setState` (transport.cpp:175-213). When CLOSED, FaceTable::remove (daemon/fw/face-table.cpp:86-106) removes the face and
defers its deallocation. -/
def setState (s : St) (n : TState) : Except Fault St :=
  if s.state = n then .ok s
  else if validTransition s.state n then
    let s' := emit { s with state := n } (.state s.state n)
    .ok (if n = .closed then post s' .dealloc else s')
  else .error .transition

/-- `socket::cancel` -/
def cancel (s : St) : St :=
  { s with
    ready := s.ready ++ (if s.reading then [.readErr .aborted] else []) ++ (if s.writing.isSome then [.writeErr .aborted] else []) ++
      (if s.connecting.isSome then [.connectAborted] else [])
    reading := false
    writing := none
    connecting := none }

/-- `doClose` (stream-transport.hpp:138-165, tcp-transport.cpp:186-191). -/
def doClose (s : St) : St :=
  post { cancel s with usable := false, timer := false } .deferredClose

/-- `deferredClose` (stream-transport.hpp:169-181). -/
def deferredClose (s : St) : Except Fault St :=
  setState { cancel { s with sendQ := [] } with usable := false } .closed

/-- `sendFromQueue` (stream-transport.hpp:201-207). -/
def sendFromQueue (s : St) : St :=
  if s.usable then { s with writing := some (s.sendQ.head?.getD []) } else post s (.writeErr .other)

/-- `doSend` (stream-transport.hpp:184-199). -/
def doSend (s : St) (packet : Bytes) : St :=
  if s.state ≠ .up then s
  else
    let s' := { s with sendQ := s.sendQ ++ [packet] }
    if s.sendQ = [] then sendFromQueue s' else s'

/-- `Transport::send` (transport.cpp:79-98). -/
def send (s : St) (packet : Bytes) : St :=
  if s.state = .up then doSend (emit s (.accepted packet)) packet
  else if s.state = .down then doSend s packet
  else s

/-- `Transport::close` (transport.cpp:66-77). -/
def close (s : St) : Except Fault St :=
  if s.state ≠ .up ∧ s.state ≠ .down then .ok s
  else do
    let s ← setState s .closing
    .ok (doClose s)

/-- `startReceive` (stream-transport.hpp:228-237). -/
def startReceive (s : St) : Except Fault St :=
  if s.state ≠ .up then .error .receiveNotUp
  else if s.usable then .ok { s with reading := true }
  else .ok (post s (.readErr .other))

/-- `StreamTransport::handleError` (stream-transport.hpp:296-308). -/
def handleErrorBase (s : St) (e : Err) : Except Fault St := do
  let s ← setState s (if e = .eof then .closing else .failed)
  .ok (doClose s)

/-- `TcpTransport::handleError` (tcp-transport.cpp:100-117). -/
def handleError (s : St) (e : Err) : Except Fault St :=
  if s.tcp ∧ s.persist = .permanent then do
    let s ← setState s .down
    .ok (post (cancel s) .reconnect)
  else handleErrorBase s e

/-- The transport is shutting down. -/
def leaving (t : TState) : Bool := t == .closing || t == .failed || t == .closed

/-- `processErrorCode` (stream-transport.hpp:279-294). -/
def processError (s : St) (e : Err) : Except Fault St :=
  if leaving s.state ∨ e = .aborted then .ok s else handleError s e

/-- The parsing loop of `handleReceive` (stream-transport.hpp:250-258): the elements, as octets, and the remaining octets. The fuel is the
number of octets, and each element has at least one. -/
def parseLoop : Nat → Bytes → List Bytes × Bytes
  | 0, b => ([], b)
  | n + 1, b =>
    if b = [] then ([], [])
    else match readElem b with
      | none => ([], b)
      | some (_, r) => let x := parseLoop n r; (b.take (b.length - r.length) :: x.1, x.2)

/-- `handleReceive` without error (stream-transport.hpp:240-277). The link service and forwarding may send packets while they process an
element: this is modelled as happening after the handler. Nothing on this path closes the face (management gets its Interests through a
handler of their own, internal-transport.cpp:51-58,100-109). -/
def handleReceive (s : St) (chunk : Bytes) : Except Fault St :=
  let buf := s.recvBuf ++ chunk
  let r := parseLoop buf.length buf
  let s := { s with recvBuf := r.2, out := s.out ++ .read chunk :: r.1.map .deliver }
  if r.2.length = maxPacket ∧ r.1 = [] then do
    let s ← setState s .failed
    .ok (doClose s)
  else startReceive s

/-- `handleSend` without error (stream-transport.hpp:209-226). -/
def handleSend (s : St) (n : Nat) : Except Fault St :=
  match s.sendQ with
  | [] => .error .sendQueue
  | p :: q =>
    if p.length ≠ n then .error .sendQueue
    else
      let s := { s with sendQ := q }
      .ok (if q = [] then s else sendFromQueue s)

/-- `reconnect` (tcp-transport.cpp:119-142). -/
def reconnect (s : St) : Except Fault St :=
  if leaving s.state then .ok s
  else if s.persist ≠ .permanent ∨ s.state ≠ .down then .error .reconnectState
  else
    let s := { cancel s with usable := false, recvBuf := [], sendQ := [], timer := true }
    .ok (emit { s with connecting := some s.ready.length } (.connecting s.wait))

/-- `handleReconnect` without error (tcp-transport.cpp:144-167). -/
def handleReconnect (s : St) : Except Fault St :=
  if leaving s.state then .ok s
  else do
    let s ← setState (emit { s with timer := false, wait := initialWait, usable := true } .connected) .up
    startReceive s

/-- `handleReconnectTimeout` (tcp-transport.cpp:169-183). RECONNECT_DELAY_MULTIPLIER is 2; the product in floating point is exact for the
values that occur. -/
def handleReconnectTimeout (s : St) : St :=
  post { cancel s with usable := false, wait := min (s.wait * 2) maxWait } .reconnect

/-- Invokes a handler. -/
def handle (s : St) : Handler → Except Fault St
  | .readOk c => handleReceive s c
  | .readErr e => processError s e
  | .writeOk n => handleSend s n
  | .writeErr e => processError s e
  | .connectAborted => .ok s
  | .deferredClose => deferredClose s
  | .reconnect => reconnect s
  | .dealloc => .ok { s with dead := true }

/-- What the socket does with an outstanding write. -/
inductive Wr where
  /-- nothing -/
  | none
  /-- some octets are written; the write completes when none are left -/
  | some (n : Nat)
  | err (e : Err)
deriving DecidableEq, Repr

/-- What the socket does with an outstanding read. -/
inductive Rd where
  | none
  | data (chunk : Bytes)
  | err (e : Err)
deriving DecidableEq, Repr

/-- The write makes progress; returns the handler if it completes. (`operation_aborted` is only reported after `cancel`.) -/
def doWrite (s : St) (w : Wr) : St × Option Handler :=
  match s.writing, w with
  | some rest, .some n =>
    let s := if rest.take n = [] then s else emit s (.wire (rest.take n))
    if rest.drop n = [] then ({ s with writing := none }, some (.writeOk (s.sendQ.head?.getD []).length))
    else ({ s with writing := some (rest.drop n) }, none)
  | some _, .err e => if e = .aborted then (s, none) else ({ s with writing := none }, some (.writeErr e))
  | _, _ => (s, none)

/-- The read makes progress: some octets, at most as many as there is space in the buffer (stream-transport.hpp:233-234). -/
def doRead (s : St) (r : Rd) : St × Option Handler :=
  if !s.reading then (s, none)
  else match r with
    | .none => (s, none)
    | .data c => if c = [] ∨ s.recvBuf.length + c.length > maxPacket then (s, none) else ({ s with reading := false }, some (.readOk c))
    | .err e => if e = .aborted then (s, none) else ({ s with reading := false }, some (.readErr e))

inductive Event where
  /-- the link service sends a packet -/
  | send (packet : Bytes)
  /-- the face is closed -/
  | close
  /-- the persistency is changed (TCP) -/
  | setPersist (p : Persist)
  /-- the socket becomes ready; if both operations complete, `readFirst` tells which handler is invoked at once -/
  | io (w : Wr) (r : Rd) (readFirst : Bool)
  /-- the connection attempt succeeds or fails -/
  | connect (ok : Bool)
  /-- m_reconnectEvent fires -/
  | timer
  /-- the next handler of the event loop is invoked -/
  | next
deriving DecidableEq, Repr

/-- `Transport::setPersistency` (transport.cpp:152-168) with TcpTransport::afterChangePersistency (tcp-transport.cpp:87-97). -/
def setPersist (s : St) (p : Persist) : Except Fault St :=
  if !s.tcp || s.persist = p then .ok s
  else
    let old := s.persist
    let s := { s with persist := p }
    if old = .permanent ∧ s.state = .down then do
      let s ← setState s .failed
      .ok (doClose s)
    else .ok s

/-- The completion of the first operation, when the second one may have completed too. -/
def complete (s : St) (first second : Option Handler) : Except Fault St :=
  match first, second with
  | some h, some h' => handle (post s h') h
  | some h, none => handle s h
  | none, some h => handle s h
  | none, none => .ok s

def step (s : St) (e : Event) : Except Fault St :=
  match e with
  | .send p => .ok (if s.dead then s else send s p)
  | .close => if s.dead then .ok s else close s
  | .setPersist p => if s.dead then .ok s else setPersist s p
  | .io w r readFirst =>
    if s.dead && (s.reading || s.writing.isSome) then .error .useAfterFree else
    let x := doWrite s w
    let y := doRead x.1 r
    if readFirst then complete y.1 y.2 x.2 else complete y.1 x.2 y.2
  | .connect ok =>
    if s.connecting ≠ some 0 then .ok s
    else if s.dead then .error .useAfterFree
    else if ok then handleReconnect { s with connecting := none } else .ok { s with connecting := none }
  | .timer =>
    if !s.timer then .ok s
    else if s.dead then .error .useAfterFree
    else .ok (handleReconnectTimeout { s with timer := false })
  | .next =>
    match s.ready with
    | [] => .ok s
    | h :: rest =>
      if s.dead then .error .useAfterFree
      else handle { s with ready := rest, connecting := s.connecting.map (· - 1) } h

def run (s : St) : List Event → Except Fault St
  | [] => .ok s
  | e :: es => do
    let s ← step s e
    run s es

end Verif.Tp
