import Verif.Tp.Frame

/-
WebSocket channels and their faces (daemon/face/websocket-channel.cpp, websocket-transport.cpp).

websocketpp (not part of /repo) is modelled as follows.
* A connection is live, closing (a close frame has been sent or received) or gone. Sending a message, a ping or a close frame fails unless it is live.
* A ping starts a timer of 5 seconds (the default of websocketpp, which NFD does not change), in place of the one running; a pong stops it.
* When a connection that was open is gone, the close handler is called, whatever the reason.
Timers are prompt: time does not pass beyond the moment at which one is due. Connections are numbered in the order of their opening, and never forgotten;
`known` tells whether the channel has a face for it.
-/
namespace Verif.Ws
open Verif.Lp (Bytes readElem)
open Verif.Tp (TState validTransition)

/-- The connection, as websocketpp sees it. -/
inductive Sess
  | live | closing | gone
deriving DecidableEq, Repr

/-- What happens on a connection. -/
inductive Obs
  /-- a face has been created and handed to the face table -/
  | opened (t : Nat)
  /-- a message from the peer -/
  | message (b : Bytes)
  /-- a packet handed to the link service -/
  | deliver (p : Bytes)
  /-- a packet that was sent on the face while UP -/
  | accepted (p : Bytes)
  /-- a binary message handed to websocketpp, which took it -/
  | wrote (p : Bytes)
  | pinged (t : Nat)
  | ponged (t : Nat)
  /-- the pong was not there in time -/
  | timeout (t : Nat)
  | state (s : TState)
deriving DecidableEq, Repr

inductive Fault
  /-- `setState` was asked for a transition that does not exist -/
  | transition
  /-- an exception that nothing catches -/
  | exception
  /-- BOOST_ASSERT in `handleOpen` -/
  | duplicate
deriving DecidableEq, Repr

structure Conn where
  sess : Sess := .live
  state : TState := .up
  /-- `m_channelFaces` has the handle -/
  known : Bool := true
  /-- `m_pingEventId`: when it is due -/
  ping : Option Nat := none
  /-- the timer of websocketpp: when it is due -/
  pong : Option Nat := none
  nOutPings : Nat := 0
  nInPongs : Nat := 0
  fault : Option Fault := none
  log : List Obs := []
deriving DecidableEq, Repr

/-- `m_pingInterval` (websocket-channel.cpp:38) -/
abbrev pingInterval : Nat := 10000
/-- `timeout_pong` in the configuration of websocketpp -/
abbrev pongTimeout : Nat := 5000

def Conn.note (c : Conn) (l : List Obs) : Conn := { c with log := c.log ++ l }

/-- `Transport::setState` (transport.cpp:174-213); on CLOSED the channel forgets the face (websocket-channel.cpp:132, channel.cpp:45-53). -/
def setState (c : Conn) (n : TState) : Conn :=
  if c.state = n then c
  else if validTransition c.state n then
    ({ c with state := n, known := if n = .closed then false else c.known } : Conn).note [.state n]
  else { c with fault := some .transition }

/-- `schedulePing` (websocket-transport.cpp:110-114) -/
def schedulePing (now : Nat) (c : Conn) : Conn := { c with ping := some (now + pingInterval) }

/-- `WebSocketTransport::doClose` (websocket-transport.cpp:163-175) -/
def doClose (c : Conn) : Conn :=
  setState { c with ping := none, sess := if c.sess = .live then .closing else c.sess } .closed

/-- `processErrorCode` (websocket-transport.cpp:147-161) -/
def processErrorCode (c : Conn) : Conn :=
  if c.state = .closing ∨ c.state = .failed ∨ c.state = .closed then c else doClose (setState c .failed)

/-- `Transport::close` (transport.cpp:66-77) -/
def close (c : Conn) : Conn :=
  if c.state ≠ .up ∧ c.state ≠ .down then c else doClose (setState c .closing)

/-- `doSend` (websocket-transport.cpp:80-92) -/
def doSend (c : Conn) (p : Bytes) : Conn := if c.sess = .live then c.note [.wrote p] else processErrorCode c

/-- `Transport::send` (transport.cpp:79-98) -/
def send (c : Conn) (p : Bytes) : Conn :=
  if c.state ≠ .up ∧ c.state ≠ .down then c
  else doSend (if c.state = .up then c.note [.accepted p] else c) p

/-- `receiveMessage` (websocket-transport.cpp:94-108): the first element of the message, as octets. -/
def receiveMessage (c : Conn) (b : Bytes) : Conn :=
  match readElem b with
  | none => c
  | some (_, r) => c.note [.deliver (b.take (b.length - r.length))]

/-- `sendPing` (websocket-transport.cpp:116-129) -/
def sendPing (now : Nat) (c : Conn) : Conn :=
  if c.sess = .live then
    schedulePing now (({ c with pong := some (now + pongTimeout), nOutPings := c.nOutPings + 1 } : Conn).note [.pinged now])
  else processErrorCode c

/-- `handlePongTimeout` (websocket-transport.cpp:139-145) -/
def handlePongTimeout (now : Nat) (c : Conn) : Conn := doClose (setState (c.note [.timeout now]) .failed)

/-- `handleOpen` (websocket-channel.cpp:120-135) with the constructor of the transport (websocket-transport.cpp:52-78), which asks the socket for
the addresses: an exception if the peer has reset the connection in the meantime. -/
def handleOpen (now : Nat) (reset : Bool) : Conn :=
  if reset then { known := false, fault := some .exception }
  else (schedulePing now {}).note [.opened now]

/-- What may happen to a connection. -/
inductive CEvent
  | message (b : Bytes)
  | pong
  | pongTimer
  | pingTimer
  | send (p : Bytes)
  /-- a close frame of the peer -/
  | closeFrame
  | terminated
  /-- the face is closed by NFD -/
  | close
deriving DecidableEq, Repr

/-- `none`: this cannot happen now. -/
def cstep (now : Nat) (c : Conn) : CEvent → Option Conn
  -- handleMessage (websocket-channel.cpp:107-118)
  | .message b => if c.sess = .gone then none else some (if c.known then receiveMessage (c.note [.message b]) b else c.note [.message b])
  -- handlePong (websocket-channel.cpp:95-105, websocket-transport.cpp:131-137)
  | .pong =>
    if c.sess = .gone then none
    else
      let c := ({ c with pong := none } : Conn).note [.ponged now]
      some (if c.known then { c with nInPongs := c.nInPongs + 1 } else c)
  -- handlePongTimeout (websocket-channel.cpp:83-93)
  | .pongTimer =>
    match c.pong with
    | some t => if t ≤ now then some (if c.known then handlePongTimeout now { c with pong := none } else { c with pong := none }) else none
    | none => none
  | .pingTimer =>
    match c.ping with
    | some t => if t ≤ now then some (sendPing now { c with ping := none }) else none
    | none => none
  | .send p => some (send c p)
  | .closeFrame => if c.sess = .live then some { c with sess := .closing } else none
  -- handleClose (websocket-channel.cpp:137-147)
  | .terminated => if c.sess = .gone then none else some (if c.known then close { c with sess := .gone } else { c with sess := .gone })
  | .close => some (close c)

structure St where
  conns : List Conn := []
  now : Nat := 0
deriving DecidableEq, Repr

inductive Event
  /-- a peer has connected -/
  | opened (reset : Bool)
  | on (h : Nat) (e : CEvent)
  | tick (dt : Nat)
deriving DecidableEq, Repr

/-- A timer is not due before `t`. -/
def notBefore (t : Nat) : Option Nat → Bool
  | none => true
  | some d => decide (t ≤ d)

/-- One event; `none`: it cannot happen now, also because an exception or an assertion has ended NFD. -/
def step (s : St) (e : Event) : Option St :=
  if s.conns.any (·.fault.isSome) then none
  else
    match e with
    | .opened reset => some { s with conns := s.conns ++ [handleOpen s.now reset] }
    | .on h e => (s.conns[h]?).bind (fun c => (cstep s.now c e).map (fun c => { s with conns := s.conns.set h c }))
    | .tick dt => if s.conns.all (fun c => notBefore (s.now + dt) c.ping && notBefore (s.now + dt) c.pong) then some { s with now := s.now + dt } else none

def run : St → List Event → Option St
  | s, [] => some s
  | s, e :: l => (step s e).bind (fun s => run s l)

end Verif.Ws
