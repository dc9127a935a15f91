import Verif.Mgmt.FaceCmd

/-! The command `faces/create`: `FaceManager::createFace` (daemon/mgmt/face-manager.cpp), `FaceSystem::getFactoryByScheme`
(daemon/face/face-system.cpp), `doCreateFace` of the protocol factories (daemon/face/{protocol,tcp,udp,ethernet}-factory.cpp), `connect` and
`createFace` of the channels (daemon/face/{tcp,udp,ethernet}-channel.cpp) and `FaceTable::add` (daemon/fw/face-table.cpp), put together.

Simplified: the URIs of a command are given as the results of parsing them. A TCP connection attempt ends once, in success or failure (this is C92
for the channel itself); so do the system calls that make a UDP or Ethernet face. A face closes in two steps (CLOSING, CLOSED). FaceIds do not
wrap. `none` as a result means that an assertion fails. -/
namespace Verif.Fc
open Verif.FaceCmd (Persistency Opts)

/-- A remote endpoint: IP address and port, or Ethernet address (`host`), or the name of a device (`host`). -/
structure Ep where
  v6 : Bool
  host : Nat
  port : Nat
deriving DecidableEq, Repr

/-- `ndn::FaceUri::parse` and `isCanonical` applied to a URI (face-manager.cpp:85-113). -/
inductive Uri
  | malformed
  | nonCanonical
  | canonical (scheme : String) (ep : Ep)
deriving DecidableEq, Repr

/-- The protocol factories: those that create faces on request, and the others (unix, websocket), for which protocol-factory.cpp:96-102 applies. -/
inductive Factory | tcp | udp | ether | other
deriving DecidableEq, Repr

/-- A channel: its protocol, its local endpoint (`v6` and `ident`, or for Ethernet the device `ident`), its setting for congestion marking
and its default MTU (used for UDP only). -/
structure Chan where
  proto : Factory
  v6 : Bool
  ident : Nat
  marking : Bool
  mtu : Int
deriving DecidableEq, Repr

inductive FState | up | closing | closed
deriving DecidableEq, Repr

/-- A face made by a channel; `id = none`: it is not in the face table (`INVALID_FACEID`). -/
structure Face where
  chan : Chan
  ep : Ep
  st : FState
  id : Option Nat
  f : FaceCmd.Face
deriving DecidableEq, Repr

/-- The command. `params.faceId` is not used. The persistency is always there (`FaceCreateCommand::applyDefaultsToRequest`). -/
structure Req where
  uri : Uri
  localUri : Option Uri
  persistency : Persistency
  params : FaceCmd.Params
deriving DecidableEq, Repr

/-- The answer to a command; `body` are the parameters of face `face`. -/
structure Answer where
  code : Nat
  body : Option FaceCmd.Params := none
  face : Option Nat := none
deriving DecidableEq, Repr

/-- What does not change: which addresses are loopback and multicast addresses, the MTU of a new UDP or Ethernet transport, the default options. -/
structure Env where
  loopback : Ep → Bool
  mcast : Ep → Bool
  mtu : Chan → Ep → Int
  interval : Nat
  threshold : Nat

/-- A command; `waiting`: the channel where it waits for a connection attempt to end. -/
structure Pending where
  req : Req
  waiting : Option Chan
deriving DecidableEq, Repr

/-- `schemes`: `FaceSystem::m_factoryByScheme`; `channels`: all channels, those of each factory in the order of its map; `map`: the maps
`m_channelFaces` of all channels; `last`: `FaceTable::m_lastFaceId`; `reqs`: the commands received so far; `out`: the answers given so far. -/
structure St where
  schemes : List (String × Factory)
  channels : List Chan
  faces : List Face
  map : List ((Chan × Ep) × Nat)
  last : Nat
  reqs : List Pending
  out : List (Nat × Answer)

def init : St := { schemes := [], channels := [], faces := [], map := [], last := 255, reqs := [], out := [] }

/-- `std::numeric_limits<ssize_t>::max()`, the default of `GenericLinkService::Options::overrideMtu` (generic-link-service.hpp:145-153). -/
def noOverride : Int := FaceCmd.ssizeMax

/-- `faceParams.wantLocalFields` (face-manager.cpp:134-135). -/
def wantLocal (r : Req) : Bool := r.params.localFields == some true

/-- The options of the link service of a new face: tcp-channel.cpp:117-134, udp-channel.cpp:166-186, ethernet-channel.cpp:190-196. -/
def options (e : Env) (c : Chan) (p : FaceCmd.Params) : Opts :=
  { localFields := if c.proto = .tcp then p.localFields.getD false else false
    reliability := p.reliability.getD false
    congestion := if c.proto = .ether then false else p.congestion.getD c.marking
    interval := if c.proto = .ether then e.interval else p.interval.getD e.interval
    threshold := if c.proto = .ether then e.threshold else p.threshold.getD e.threshold
    overrideMtu := match c.proto with
      | .udp => (p.mtu.map FaceCmd.actualMtu).getD c.mtu
      | .ether => (p.mtu.map FaceCmd.actualMtu).getD noOverride
      | _ => noOverride }

/-- A new face of a channel (tcp-channel.cpp:116-144, udp-channel.cpp:160-195, ethernet-channel.cpp:189-208). The MTU of a TCP transport is
unlimited; UDP and Ethernet faces are not local. The face is not in the face table yet. -/
def mkFace (e : Env) (s : St) (c : Chan) (ep : Ep) (pers : Persistency) (p : FaceCmd.Params) (isLocal : Bool) : St × Nat :=
  let f : FaceCmd.Face :=
    { isLocal := if c.proto = .tcp then isLocal else false
      persistency := pers
      flexible := true
      transportMtu := if c.proto = .tcp then FaceCmd.mtuUnlimited else e.mtu c ep
      link := some (options e c p) }
  ({ s with faces := s.faces ++ [⟨c, ep, .up, none, f⟩], map := s.map ++ [((c, ep), s.faces.length)] }, s.faces.length)

/-- `FaceTable::add` (face-table.cpp:50-61): nothing happens to a face that is in the table. -/
def add (s : St) (k : Nat) : St :=
  match s.faces[k]? with
  | none => s
  | some f =>
    match f.id with
    | some _ => s
    | none => { s with last := s.last + 1, faces := s.faces.set k { f with id := some (s.last + 1) } }

def answer (s : St) (i : Nat) (a : Answer) : St := { s with out := s.out ++ [(i, a)] }

/-- `makeCreateFaceResponse` (face-manager.cpp:196-204) without the URIs. -/
def body (f : Face) : Option FaceCmd.Params := f.id.map (fun id => FaceCmd.makeUpdateFaceResponse id f.f)

/-- `afterCreateFaceSuccess` (face-manager.cpp:206-229). -/
def succeed (s : St) (i : Nat) (r : Req) (k : Nat) : Option St :=
  match s.faces[k]? with
  | none => some s
  | some f =>
    match f.id with
    | some _ => some (answer s i ⟨409, body f, some k⟩)
    | none =>
      if f.f.isLocal = false ∧ wantLocal r = true then none
      else
        let s := add s k
        some (answer s i ⟨200, s.faces[k]?.bind body, some k⟩)

/-- What the system does when a UDP or Ethernet face is to be made: it works; `system_error`, caught by the channel; another `runtime_error`
(ethernet-transport.cpp) before the face is known to the channel, or after that (`updateFilter`, ethernet-channel.cpp:209), caught by `FaceManager`. -/
inductive Sys | ok | systemError | error | filterError
deriving DecidableEq, Repr

/-- `UdpChannel::connect` (udp-channel.cpp:54-74), `EthernetChannel::connect` (ethernet-channel.cpp:51-71) and `TcpChannel::connect`
(tcp-channel.cpp:73-96), with the exception handlers of face-manager.cpp:151-160. -/
def connect (e : Env) (s : St) (i : Nat) (r : Req) (c : Chan) (ep : Ep) (sys : Sys) : Option St :=
  match s.map.lookup (c, ep) with
  | some k => succeed s i r k
  | none =>
    if c.proto = .tcp then some { s with reqs := s.reqs.set i ⟨r, some c⟩ }
    else
      match sys with
      | .systemError => some (answer s i ⟨504, none, none⟩)
      | .error => some (answer s i ⟨500, none, none⟩)
      | .filterError =>
        let x := mkFace e s c ep r.persistency r.params false
        if c.proto = .ether then some (answer x.1 i ⟨500, none, none⟩) else succeed x.1 i r x.2
      | .ok =>
        let x := mkFace e s c ep r.persistency r.params false
        succeed x.1 i r x.2

/-- `doCreateFace` of a factory: the channel to use, or the code of a refusal; `none`: an assertion fails (protocol-factory.cpp:96-102,
tcp-factory.cpp:149-195, udp-factory.cpp:248-299, ethernet-factory.cpp:166-215). -/
def choose (e : Env) (s : St) (f : Factory) (r : Req) (ep : Ep) : Option (Except Nat Chan) :=
  match f with
  | .other => some (.error 406)
  | .tcp =>
    if r.localUri.isSome then some (.error 406)
    else if r.persistency = .onDemand then some (.error 406)
    else if e.mcast ep = true then none
    else if wantLocal r = true ∧ e.loopback ep = false then some (.error 406)
    else if r.params.mtu.isSome then some (.error 406)
    else
      match s.channels.find? (fun c => c.proto == .tcp && c.v6 == ep.v6) with
      | some c => some (.ok c)
      | none => some (.error 504)
  | .udp =>
    if r.localUri.isSome then some (.error 406)
    else if r.persistency = .onDemand then some (.error 406)
    else if e.mcast ep = true then some (.error 406)
    else if wantLocal r = true then some (.error 406)
    else if r.params.mtu.any (fun m => FaceCmd.actualMtu m < FaceCmd.minMtu) then some (.error 406)
    else
      match s.channels.find? (fun c => c.proto == .udp && c.v6 == ep.v6) with
      | some c => some (.ok c)
      | none => some (.error 504)
  | .ether =>
    match r.localUri with
    | some (.canonical "dev" dev) =>
      if r.persistency = .onDemand then some (.error 406)
      else if e.mcast ep = true then some (.error 406)
      else if wantLocal r = true then some (.error 406)
      else if r.params.mtu.any (fun m => FaceCmd.actualMtu m < FaceCmd.minMtu) then some (.error 406)
      else
        match s.channels.find? (fun c => c.proto == .ether && c.ident == dev.host) with
        | some c => some (.ok c)
        | none => some (.error 504)
    | _ => some (.error 406)

/-- `FaceManager::createFace` (face-manager.cpp:81-161), `FaceSystem::getFactoryByScheme` (face-system.cpp:79-84). -/
def create (e : Env) (s : St) (r : Req) (sys : Sys) : Option St :=
  let i := s.reqs.length
  let s := { s with reqs := s.reqs ++ [⟨r, none⟩] }
  match r.uri with
  | .malformed => some (answer s i ⟨400, none, none⟩)
  | .nonCanonical => some (answer s i ⟨400, none, none⟩)
  | .canonical scheme ep =>
    if r.localUri = some .malformed ∨ r.localUri = some .nonCanonical then some (answer s i ⟨400, none, none⟩)
    else
      match s.schemes.lookup scheme with
      | none => some (answer s i ⟨406, none, none⟩)
      | some f =>
        match choose e s f r ep with
        | none => none
        | some (.error code) => some (answer s i ⟨code, none, none⟩)
        | some (.ok c) => connect e s i r c ep sys

/-- How a TCP connection attempt ends: refused or timed out; connected, but the remote endpoint cannot be determined any more; connected to an
endpoint, where the addresses decide on the scope (tcp-factory.cpp:217-225). -/
inductive Conn
  | refused
  | lost
  | ok (ep : Ep) (isLocal : Bool)
deriving DecidableEq, Repr

/-- `createFace` of a channel: the face of this endpoint or a new one (tcp-channel.cpp:115-154). -/
def findOrMake (e : Env) (s : St) (c : Chan) (ep : Ep) (pers : Persistency) (p : FaceCmd.Params) (isLocal : Bool) : St × Nat :=
  match s.map.lookup (c, ep) with
  | some k => (s, k)
  | none => mkFace e s c ep pers p isLocal

/-- A TCP connection attempt ends: `handleConnect`, `handleConnectTimeout` (tcp-channel.cpp:186-223) and `createFace` (tcp-channel.cpp:98-113). -/
def connected (e : Env) (s : St) (i : Nat) (x : Conn) : Option St :=
  match s.reqs[i]? with
  | none => some s
  | some p =>
    match p.waiting with
    | none => some s
    | some c =>
      let s := { s with reqs := s.reqs.set i ⟨p.req, none⟩ }
      match x with
      | .refused => some (answer s i ⟨504, none, none⟩)
      | .lost => some (answer s i ⟨500, none, none⟩)
      | .ok ep isLocal =>
        let y := findOrMake e s c ep p.req.persistency p.req.params isLocal
        succeed y.1 i p.req y.2

/-- A peer appears: a TCP connection is accepted, or a datagram or frame comes from a new endpoint (tcp-channel.cpp:162-183, udp-channel.cpp:106-147,
ethernet-channel.cpp:146-176); the new on-demand face is added to the face table. -/
def incoming (e : Env) (s : St) (c : Chan) (ep : Ep) (isLocal : Bool) : St :=
  match s.map.lookup (c, ep) with
  | some k => if c.proto = .tcp then add s k else s
  | none =>
    let y := mkFace e s c ep .onDemand { faceId := 0 } isLocal
    add y.1 y.2

def setFace (s : St) (k : Nat) (g : Face → Face) : St :=
  match s.faces[k]? with
  | none => s
  | some f => { s with faces := s.faces.set k (g f) }

/-- The face becomes CLOSED: its channel forgets it, and then the face table removes it (channel.cpp:45-53, face-table.cpp:88-106). -/
def settle (s : St) (k : Nat) : St :=
  match s.faces[k]? with
  | none => s
  | some f =>
    if f.st = .closing then
      { s with faces := s.faces.set k { f with st := .closed, id := none }, map := s.map.filter (fun x => x.1 != (f.chan, f.ep)) }
    else s

/-- What happens. `config`: the configuration is read: schemes and channels change arbitrarily. `update`: a face is changed by `faces/update`, its
scope remains. -/
inductive Ev
  | create (r : Req) (sys : Sys)
  | connected (i : Nat) (x : Conn)
  | incoming (c : Chan) (ep : Ep) (isLocal : Bool)
  | config (schemes : List (String × Factory)) (channels : List Chan)
  | update (k : Nat) (g : FaceCmd.Face → FaceCmd.Face)
  | close (k : Nat)
  | settle (k : Nat)

def step (e : Env) (s : St) : Ev → Option St
  | .create r sys => create e s r sys
  | .connected i x => connected e s i x
  | .incoming c ep isLocal => some (incoming e s c ep isLocal)
  | .config schemes channels => some { s with schemes := schemes, channels := channels }
  | .update k g => some (setFace s k (fun f => { f with f := { g f.f with isLocal := f.f.isLocal } }))
  | .close k => some (setFace s k (fun f => if f.st = .up then { f with st := .closing } else f))
  | .settle k => some (settle s k)

def run (e : Env) : St → List Ev → Option St
  | s, [] => some s
  | s, x :: l => (step e s x).bind (fun s => run e s l)

end Verif.Fc
