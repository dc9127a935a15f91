/-! UDP multicast faces: `UdpFactory` (daemon/face/udp-factory.cpp) as far as it concerns multicast. Faces have three states here: UP, CLOSING,
CLOSED; `close` of an UP face makes it CLOSING, and CLOSED later (multicast-udp-transport.cpp: `doClose`). -/
namespace Verif.Mc

/-- An IP address (with its scope id, if any). -/
structure Addr where
  v6 : Bool
  host : Nat
deriving DecidableEq, Repr

/-- `ndn::net::AddressScope`. -/
inductive Scope | nowhere | host | link | global
deriving DecidableEq, Repr

/-- A UDP endpoint. -/
structure Ep where
  addr : Addr
  port : Nat
deriving DecidableEq, Repr

/-- The remote endpoint of a multicast face; for IPv6 the scope id of the group is the index of the interface. -/
structure Remote where
  ep : Ep
  scopeId : Nat
deriving DecidableEq, Repr

/-- `ndn::net::NetworkInterface` as far as it matters here; `name` stands for everything else a whitelist may look at. -/
structure Netif where
  index : Nat
  up : Bool
  loopback : Bool
  multicast : Bool
  addrs : List (Addr × Scope)
  name : Nat
deriving DecidableEq, Repr

/-- `UdpFactory::MulticastConfig` (udp-factory.hpp:130-137); groups as host and port. -/
structure Config where
  enabled : Bool
  group : Nat × Nat
  groupV6 : Nat × Nat
  pred : Netif → Bool

inductive FState | up | closing | closed
deriving DecidableEq, Repr

/-- A multicast face; `table`: it has been added to the face table. -/
structure Face where
  loc : Ep
  remote : Remote
  st : FState
  table : Bool
deriving DecidableEq, Repr

/-- The factory: `m_mcastConfig`, the interfaces, the endpoints of `m_channels`, all faces ever made, `m_mcastFaces`, and the interfaces whose new
addresses are watched (`m_netifConns`) (udp-factory.hpp:128-146). -/
structure St where
  cfg : Config
  netifs : List Netif
  channels : List Ep
  faces : List Face
  map : List (Ep × Nat)
  watch : List Nat

/-- Before any configuration. -/
def init : St := { cfg := ⟨false, (0, 0), (0, 0), fun _ => true⟩, netifs := [], channels := [], faces := [], map := [], watch := [] }

/-- `pickAddress` (udp-factory.cpp:388-398). -/
def pick (n : Netif) (v6 : Bool) : Option Addr :=
  (n.addrs.find? (fun a => a.1.v6 == v6 && (a.2 == .link || a.2 == .global))).map (·.1)

/-- The multicast group for an address (udp-factory.cpp:450, and 337-343 for the scope id). -/
def remoteFor (c : Config) (n : Netif) (a : Addr) : Remote :=
  if a.v6 then ⟨⟨⟨true, c.groupV6.1⟩, c.groupV6.2⟩, n.index⟩ else ⟨⟨⟨false, c.group.1⟩, c.group.2⟩, 0⟩

/-- `createMulticastFace` (udp-factory.cpp:327-386): the state afterwards and the face; `none`: an exception, which is a `runtime_error`.
`opens`: whether the sockets for this local endpoint can be opened. `setChannel` is left out. -/
def createMcast (opens : Ep → Bool) (s : St) (n : Netif) (a : Addr) : Option (St × Nat) :=
  let r := remoteFor s.cfg n a
  let loc : Ep := ⟨a, r.ep.port⟩
  match s.map.lookup loc with
  | some k =>
    match s.faces[k]? with
    | some f => if f.remote = r then some (s, k) else none
    | none => none
  | none =>
    if loc ∈ s.channels then none
    else if opens loc = false then none
    else some ({ s with faces := s.faces ++ [⟨loc, r, .up, false⟩], map := s.map ++ [(loc, s.faces.length)] }, s.faces.length)

/-- `addFace` of a new face (udp-factory.cpp:456-459; `FaceTable::add`, face-table.cpp). -/
def register (s : St) (k : Nat) : St :=
  match s.faces[k]? with
  | none => s
  | some f => { s with faces := s.faces.set k { f with table := true } }

/-- The loop over the addresses chosen (udp-factory.cpp:446-461). -/
def forAddrs (opens : Ep → Bool) (n : Netif) : List Addr → St → St × List Nat
  | [], s => (s, [])
  | a :: l, s =>
    match createMcast opens s n a with
    | none => forAddrs opens n l s
    | some (s, k) =>
      let r := forAddrs opens n l (register s k)
      (r.1, k :: r.2)

/-- `applyMcastConfigToNetif` (udp-factory.cpp:400-464): the state afterwards and the faces. -/
def applyNetif (opens : Ep → Bool) (s : St) (n : Netif) : St × List Nat :=
  if s.cfg.enabled = false then (s, [])
  else if n.up = false then (s, [])
  else if n.loopback = true then (s, [])
  else if n.multicast = false then (s, [])
  else if s.cfg.pred n = false then (s, [])
  else
    let addrs := (pick n false).toList ++ (pick n true).toList
    if addrs = [] then ({ s with watch := if n.index ∈ s.watch then s.watch else n.index :: s.watch }, [])
    else forAddrs opens n addrs s

/-- The loop over the interfaces in `applyMcastConfig` (udp-factory.cpp:475-481): the state afterwards and the faces to keep. -/
def forNetifs (opens : Ep → Bool) : List Netif → St → St × List Nat
  | [], s => (s, [])
  | n :: l, s =>
    let a := applyNetif opens s n
    let b := forNetifs opens l a.1
    (b.1, a.2 ++ b.2)

/-- `Face::close` (face.hpp; transport.cpp: `Transport::close`). -/
def close (s : St) (k : Nat) : St :=
  match s.faces[k]? with
  | none => s
  | some f => if f.st = .up then { s with faces := s.faces.set k { f with st := .closing } } else s

/-- `applyMcastConfig` (udp-factory.cpp:466-487). -/
def applyConfig (opens : Ep → Bool) (s : St) : St :=
  let old := s.map.map (·.2)
  let r := forNetifs opens s.netifs s
  (old.filter (fun k => k ∉ r.2)).foldl close r.1

/-- `createChannel` (udp-factory.cpp:301-319); `none`: an exception. -/
def createChannel (s : St) (ep : Ep) : Option St :=
  if ep ∈ s.channels then some s
  else if (s.map.lookup ep).isSome then none
  else some { s with channels := ep :: s.channels }

/-- The channels requested, in order (udp-factory.cpp:190-214). -/
def createChannels : St → List Ep → St × Bool
  | s, [] => (s, true)
  | s, ep :: l =>
    match createChannel s ep with
    | none => (s, false)
    | some s => createChannels s l

/-- What happens. `config`: `doProcessConfig` that is not a dry run, with the configuration that was read (udp-factory.cpp:184-245); `added`:
an interface appears (lines 54-56); `addr`: an interface gets a new address, at the end of its list; `change`: an interface changes otherwise,
or loses an address, or disappears, where the factory does not react; `close`: a face is closed for another reason (for example by a
command); `settle`: a CLOSING face becomes CLOSED (line 374). -/
inductive Ev
  | config (c : Config) (chans : List Ep) (opens : Ep → Bool)
  | added (n : Netif) (opens : Ep → Bool)
  | addr (index : Nat) (a : Addr × Scope) (opens : Ep → Bool)
  | change (f : List Netif → List Netif)
  | close (k : Nat)
  | settle (k : Nat)

/-- The CLOSED state is reached: the face is removed from `m_mcastFaces` (udp-factory.cpp:374). -/
def settle (s : St) (k : Nat) : St :=
  match s.faces[k]? with
  | none => s
  | some f =>
    if f.st = .closing then { s with faces := s.faces.set k { f with st := .closed }, map := s.map.filter (fun x => x.1 != f.loc) } else s

/-- The interface `i` gets an address. -/
def addAddr (i : Nat) (a : Addr × Scope) (n : Netif) : Netif := if n.index = i then { n with addrs := n.addrs ++ [a] } else n

def step (s : St) : Ev → St
  | .config c chans opens =>
    let r := createChannels s chans
    if r.2 then applyConfig opens { r.1 with cfg := c } else r.1
  | .added n opens => (applyNetif opens { s with netifs := s.netifs ++ [n] } n).1
  | .addr i a opens =>
    let s := { s with netifs := s.netifs.map (addAddr i a) }
    if i ∈ s.watch then
      match s.netifs.find? (fun n => n.index == i) with
      | none => s
      | some n => (applyNetif opens s n).1
    else s
  | .change f => { s with netifs := f s.netifs }
  | .close k => close s k
  | .settle k => settle s k

def run (s : St) (es : List Ev) : St := es.foldl step s

end Verif.Mc
