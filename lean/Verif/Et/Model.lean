/-
Ethernet faces: frames, capture filters, and the transport with the event loop it runs in.

The event loop (Boost.Asio and the scheduler of ndn-cxx, not part of /repo) is modelled as for UDP (Verif/Dg/Model.lean): a queue `q` of
handlers that are invoked in order; a completed operation is handled at once or queued; `cancel()` queues the handlers of outstanding operations
with `operation_aborted` and does not affect handlers already queued; a scheduled function runs when its time has come, or later.

libpcap and the operating system (not part of /repo) decide which frames arrive, whether a frame can be sent, and whether waiting fails. A capture
filter is a predicate on frames; it is taken to hold for all frames that libpcap returns. Frames sent by the host itself are not captured
(PCAP_D_IN).

What the link service and forwarding do while they process a packet is part of the event: they may send packets on the face, or close it.
-/
import Verif.Tp.Model

namespace Verif.Et
open Verif.Lp (Bytes readElem)
open Verif.Tp (TState Persist validTransition leaving maxPacket)

/-- `ethernet::Address`: six octets. -/
abbrev Addr := { a : Bytes // a.length = 6 }

/-- `Address::isMulticast`: the group bit. -/
def isMulticast (a : Addr) : Bool := (a.1.headD 0).toNat % 2 == 1

/-- ethernet::ADDR_LEN, HDR_LEN and MIN_DATA_LEN, ETHERTYPE_NDN of ndn-cxx -/
abbrev hdrLen : Nat := 14
abbrev minData : Nat := 46
abbrev typeNdn : Bytes := [0x86, 0x24]

/-- What is on the wire. The tag of a VLAN is not among the octets. -/
structure Wire where
  vlan : Bool
  octets : Bytes
deriving DecidableEq, Repr

/-- `sendPacket` (ethernet-transport.cpp:117-131): the frame. -/
def frame (src dst : Addr) (block : Bytes) : Bytes :=
  let buffer := if block.length < minData then block ++ (List.replicate minData (0 : UInt8)).drop block.length else block
  dst.1 ++ (src.1 ++ (typeNdn ++ buffer))

/-- `ether dst`, `ether src` and `ether proto` of a filter expression. -/
def dstOf (b : Bytes) : Bytes := b.take 6
def srcOf (b : Bytes) : Bytes := (b.drop 6).take 6
def typeOf (b : Bytes) : Bytes := (b.drop 12).take 2

/-- The capture filters (unicast-ethernet-transport.cpp:54-59, multicast-ethernet-transport.cpp:70-75). -/
def passes (loc rem : Addr) (w : Wire) : Bool :=
  if isMulticast rem then typeOf w.octets == typeNdn && dstOf w.octets == rem.1 && !(srcOf w.octets == loc.1) && !w.vlan
  else typeOf w.octets == typeNdn && srcOf w.octets == rem.1 && dstOf w.octets == loc.1 && !w.vlan

/-- `pcap_set_snaplen` (pcap-helper.cpp:54): what is captured of a frame. -/
def captured (b : Bytes) : Bytes := b.take (hdrLen + maxPacket)

/-- `checkFrameHeader` (ethernet-protocol.cpp:33-57): whether the frame is accepted. `debug`: NDEBUG is not defined. -/
def headerOk (debug : Bool) (pkt : Bytes) (locAddr dest : Addr) : Bool :=
  if pkt.length < hdrLen + minData then false
  else if typeOf pkt ≠ typeNdn then false
  else if debug ∧ srcOf pkt = locAddr.1 then false
  else if debug ∧ dstOf pkt ≠ dest.1 then false
  else true

/-- `Block::fromBuffer` in `receivePayload` (ethernet-transport.cpp:199): the octets of the first element. -/
def firstBlock (payload : Bytes) : Option Bytes :=
  match readElem payload with
  | none => none
  | some (_, rest) => some (payload.take (payload.length - rest.length))

inductive Err where
  | aborted | other
deriving DecidableEq, Repr

/-- What happens on the face while a packet is processed. -/
inductive Act where
  /-- a packet is sent; `ok`: libpcap sends the whole frame -/
  | send (packet : Bytes) (ok : Bool)
  | close
deriving DecidableEq, Repr

inductive Handler where
  /-- `handleRead` without error, with what libpcap returns then (`none`: an error, or nothing to read) -/
  | readOk (pkt : Option Bytes) (during : List Act)
  /-- `handleRead` with an error -/
  | readErr (e : Err)
  /-- the function deferred by `doClose` -/
  | close
  /-- the Face is deallocated (daemon/fw/face-table.cpp:104-105) -/
  | dealloc
deriving DecidableEq, Repr

inductive Fault where
  /-- std::runtime_error("Invalid state transition") -/
  | transition
  /-- a handler is invoked after the transport is deallocated -/
  | useAfterFree
  /-- libpcap is called with a null pointer, after `PcapHelper::close` -/
  | nullPcap
  /-- BOOST_ASSERT in `Transport::send` or `Transport::receive` -/
  | assertion
deriving DecidableEq, Repr

inductive Out where
  /-- afterStateChange -/
  | state (old new : TState)
  /-- the face becomes on-demand, or is created as such -/
  | onDemand (t : Nat)
  /-- libpcap returned a frame -/
  | got (pkt : Bytes)
  /-- the channel dispatched the payload of a frame -/
  | dispatched (payload : Bytes) (sender : Bytes)
  /-- a packet handed to the link service: ++nInPackets. The endpoint is none for unicast. -/
  | deliver (packet : Bytes) (endpoint : Option Bytes) (t : Nat)
  /-- ++nOutPackets -/
  | counted (packet : Bytes)
  /-- `doSend`: the frame, if it was sent -/
  | sent (packet : Bytes) (frame : Option Bytes)
  /-- "Closing due to inactivity" -/
  | idle (t : Nat)
deriving DecidableEq, Repr

/-- What is fixed for a transport. -/
structure Cfg where
  debug : Bool
  loc : Addr
  rem : Addr
  /-- idle timeout; 0 for multicast transports, which have none -/
  T : Nat

structure Face where
  persist : Persist
  state : TState
  /-- m_socket.is_open() -/
  isOpen : Bool
  /-- m_pcap is not null -/
  pcap : Bool
  /-- an asynchronous wait is outstanding -/
  reading : Bool
  mtu : Nat
  /-- m_hasRecentlyReceived -/
  recent : Bool
  /-- m_closeIfIdleEvent: when it runs -/
  timer : Option Nat
  q : List Handler
  dead : Bool
  out : List Out

def emit (f : Face) (o : Out) : Face := { f with out := f.out ++ [o] }

def post (f : Face) (h : Handler) : Face := { f with q := f.q ++ [h] }

/-- `scheduleClosureWhenIdle` (unicast-ethernet-transport.cpp:87-100), without the expiration time. -/
def scheduleIdle (T now : Nat) (f : Face) : Face := { f with timer := some (now + T) }

/-- `Transport::setState` (transport.cpp:174-212). When CLOSED, FaceTable::remove (daemon/fw/face-table.cpp:86-106) removes the face and
defers its deallocation. -/
def setState (f : Face) (n : TState) : Except Fault Face :=
  if f.state = n then .ok f
  else if validTransition f.state n then
    let f' := emit { f with state := n } (.state f.state n)
    .ok (if n = .closed then post f' .dealloc else f')
  else .error .transition

/-- `handleNetifStateChange` (ethernet-transport.cpp:95-106). -/
def netif (f : Face) (running : Bool) : Except Fault Face :=
  if running then (if f.state = .down then setState f .up else .ok f)
  else if f.state = .up then setState f .down
  else .ok f

/-- `doClose` (ethernet-transport.cpp:74-92). -/
def doClose (f : Face) : Face :=
  let f := if f.isOpen then
      { f with q := f.q ++ (if f.reading then [.readErr .aborted] else []), reading := false, isOpen := false }
    else f
  post { f with pcap := false } .close

/-- `Transport::close` (transport.cpp:66-77). -/
def close (f : Face) : Except Fault Face :=
  if f.state ≠ .up ∧ f.state ≠ .down then .ok f
  else do
    let f ← setState f .closing
    .ok (doClose f)

/-- `handleError` (ethernet-transport.cpp:211-221). -/
def handleError (f : Face) : Except Fault Face :=
  if f.persist = .permanent then .ok f
  else do
    let f ← setState f .failed
    .ok (doClose f)

/-- `Transport::send` (transport.cpp:79-98), `doSend` and `sendPacket` (ethernet-transport.cpp:109-143). `ok`: libpcap sends the whole frame. -/
def send (c : Cfg) (f : Face) (packet : Bytes) (ok : Bool) : Except Fault Face :=
  if c.debug ∧ packet.length > f.mtu then .error .assertion
  else if f.state ≠ .up ∧ f.state ≠ .down then .ok f
  else
    let f := if f.state = .up then emit f (.counted packet) else f
    if !f.pcap then .error .nullPcap
    else if ok then .ok (emit f (.sent packet (some (frame c.loc c.rem packet))))
    else handleError (emit f (.sent packet none))

def act (c : Cfg) (f : Face) : Act → Except Fault Face
  | .send p ok => send c f p ok
  | .close => close f

def acts (c : Cfg) (f : Face) : List Act → Except Fault Face
  | [] => .ok f
  | a :: r => do
    let f ← act c f a
    acts c f r

/-- `receivePayload` (ethernet-transport.cpp:195-208) with `Transport::receive` (transport.cpp:101-111). -/
def receivePayload (c : Cfg) (now : Nat) (f : Face) (payload sender : Bytes) (during : List Act) : Except Fault Face :=
  match firstBlock payload with
  | none => .ok f
  | some b =>
    if c.debug ∧ b.length > f.mtu then .error .assertion
    else acts c (emit { f with recent := true } (.deliver b (if isMulticast c.rem then some sender else none) now)) during

/-- `asyncRead` (ethernet-transport.cpp:146-150): a wait on a descriptor that is closed fails. -/
def asyncRead (f : Face) : Face := if f.isOpen then { f with reading := true } else post f (.readErr .other)

/-- The end of `handleRead` (ethernet-transport.cpp:184-191). -/
def finishRead (c : Cfg) (f : Face) : Except Fault Face :=
  if c.debug ∧ f.pcap = false then .error .nullPcap else .ok (asyncRead f)

/-- `handleRead` without error (ethernet-transport.cpp:167-192). -/
def handleRead (c : Cfg) (now : Nat) (f : Face) (pkt : Option Bytes) (during : List Act) : Except Fault Face :=
  if !f.pcap then .error .nullPcap
  else match pkt with
    | none => finishRead c f
    | some p =>
      if headerOk c.debug p c.loc (if isMulticast c.rem then c.rem else c.loc) then do
        let f ← receivePayload c now (emit f (.got p)) (p.drop hdrLen) (srcOf p) during
        finishRead c f
      else finishRead c (emit f (.got p))

/-- Invokes a handler. `handleRead` with an error: ethernet-transport.cpp:155-165. Deallocation destroys the transport with its scheduled
function. -/
def handle (c : Cfg) (now : Nat) (f : Face) : Handler → Except Fault Face
  | .readOk pkt during => handleRead c now f pkt during
  | .readErr e => if e ≠ .aborted ∧ leaving f.state = false then handleError f else .ok f
  | .close => setState f .closed
  | .dealloc => .ok { f with dead := true, timer := none }

/-- The constructors (ethernet-transport.cpp:41-71, unicast-ethernet-transport.cpp:35-65, multicast-ethernet-transport.cpp:50-81), when no
libpcap function fails. `running`: the state of the network interface; the transport is UP before it is looked at (transport.hpp). -/
def newFace (c : Cfg) (now : Nat) (p : Persist) (mtu : Nat) (running : Bool) : Face :=
  let f : Face :=
    { persist := p, state := if running then .up else .down, isOpen := true, pcap := true, reading := true, mtu := mtu, recent := false,
      timer := none, q := [], dead := false, out := if p = .onDemand then [.onDemand now] else [] }
  if p = .onDemand ∧ c.T > 0 then scheduleIdle c.T now f else f

/-- The scheduled function of `scheduleClosureWhenIdle` (unicast-ethernet-transport.cpp:89-98). -/
def idleCheck (T now : Nat) (f : Face) : Except Fault Face :=
  let f := { f with timer := none }
  if !f.recent then close (emit f (.idle now))
  else .ok (scheduleIdle T now { f with recent := false })

/-- `Transport::setPersistency` (transport.cpp:152-167) and `afterChangePersistency` (unicast-ethernet-transport.cpp:74-84). The persistency of
multicast transports cannot be changed (transport.cpp:146-149). -/
def setPersist (c : Cfg) (now : Nat) (f : Face) (p : Persist) : Face :=
  if f.persist = p ∨ isMulticast c.rem then f
  else
    let f := { f with persist := p }
    let f := if p = .onDemand then emit f (.onDemand now) else f
    if p = .onDemand ∧ c.T > 0 then scheduleIdle c.T now f
    else { f with timer := none }

/-- What can happen. -/
inductive Event where
  /-- the link service sends a packet, or the face is closed -/
  | act (a : Act)
  | setPersist (p : Persist)
  /-- the state of the network interface changes -/
  | netif (running : Bool)
  /-- the MTU of the network interface changes (ethernet-transport.cpp:65-68) -/
  | mtu (n : Nat)
  /-- a frame is on the wire. If the filter lets it pass, the wait completes. -/
  | wire (w : Wire) (during : List Act) (atOnce : Bool)
  /-- the wait completes, but libpcap returns an error or nothing -/
  | nothing (atOnce : Bool)
  /-- the wait fails -/
  | fail (atOnce : Bool)
  /-- the channel dispatches the payload of a frame (ethernet-channel.cpp:173-175); it does not know the face when it is CLOSED -/
  | dispatch (payload sender : Bytes) (during : List Act)
  /-- m_closeIfIdleEvent runs -/
  | timer
  /-- the next handler is invoked -/
  | next
  /-- time passes -/
  | tick (d : Nat)
deriving DecidableEq, Repr

def complete (c : Cfg) (now : Nat) (f : Face) (h : Handler) (atOnce : Bool) : Except Fault Face :=
  if atOnce then handle c now f h else .ok (post f h)

structure Sys where
  now : Nat
  f : Face

def faceStep (c : Cfg) (now : Nat) (f : Face) : Event → Except Fault Face
  | .act a => if f.state = .closed then .ok f else act c f a
  | .setPersist p => if f.state = .closed then .ok f else .ok (setPersist c now f p)
  | .netif running => if f.dead then .ok f else netif f running
  | .mtu n => .ok (if f.dead then f else { f with mtu := n })
  | .wire w during atOnce =>
    if f.reading ∧ passes c.loc c.rem w then complete c now { f with reading := false } (.readOk (some (captured w.octets)) during) atOnce
    else .ok f
  | .nothing atOnce => if f.reading then complete c now { f with reading := false } (.readOk none []) atOnce else .ok f
  | .fail atOnce => if f.reading then complete c now { f with reading := false } (.readErr .other) atOnce else .ok f
  | .dispatch payload sender during =>
    if f.state = .closed ∨ isMulticast c.rem then .ok f else receivePayload c now (emit f (.dispatched payload sender)) payload sender during
  | .timer =>
    match f.timer with
    | none => .ok f
    | some due => if now < due then .ok f else idleCheck c.T now f
  | .next =>
    match f.q with
    | [] => .ok f
    | h :: r =>
      if f.dead then (if h = .readErr .aborted then .ok { f with q := r } else .error .useAfterFree)
      else handle c now { f with q := r } h
  | .tick _ => .ok f

def step (c : Cfg) (s : Sys) (e : Event) : Except Fault Sys := do
  let f ← faceStep c s.now s.f e
  .ok ⟨match e with | .tick d => s.now + d | _ => s.now, f⟩

def run (c : Cfg) (s : Sys) : List Event → Except Fault Sys
  | [] => .ok s
  | e :: es => do
    let s ← step c s e
    run c s es

end Verif.Et
