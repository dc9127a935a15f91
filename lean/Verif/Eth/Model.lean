/-! Ethernet channels and multicast faces: `EthernetFactory` (daemon/face/ethernet-factory.cpp). Unicast faces are not part of this model. A multicast
face is live (UP or DOWN), CLOSING or CLOSED: `close` of a live face makes it CLOSING, and CLOSED later (ethernet-transport.cpp:73-92). -/
namespace Verif.Eth

/-- `ndn::net::NetworkInterface` as far as it matters here; `ether`: its type is ETHERNET; `address`: its Ethernet address is not null; `index` stands
for everything else a whitelist may look at. -/
structure Netif where
  name : String
  up : Bool
  ether : Bool
  address : Bool
  multicast : Bool
  index : Nat
deriving DecidableEq, Repr

/-- `EthernetFactory::UnicastConfig` (ethernet-factory.hpp:110-115), idle timeout in seconds. -/
structure Unicast where
  enabled : Bool
  listen : Bool
  idle : Nat
deriving DecidableEq, Repr

/-- `EthernetFactory::MulticastConfig` (ethernet-factory.hpp:118-124). -/
structure Multicast where
  enabled : Bool
  group : Nat
  adHoc : Bool
  pred : Netif → Bool

/-- `EthernetChannel` (ethernet-channel.hpp:124-130): `flag` is `m_isListening`; `receiving`: frames from new peers are being read. -/
structure Chan where
  name : String
  idle : Nat
  flag : Bool
  receiving : Bool
deriving DecidableEq, Repr

inductive FState | live | closing | closed
deriving DecidableEq, Repr

/-- A multicast face; `table`: it has been added to the face table. -/
structure Face where
  netif : String
  group : Nat
  adHoc : Bool
  st : FState
  table : Bool
deriving DecidableEq, Repr

/-- The factory: `m_unicastConfig`, `m_mcastConfig`, the interfaces, `m_channels`, all multicast faces ever made, `m_mcastFaces`, and whether
`providedSchemes` has "ether" (ethernet-factory.hpp:107-128, protocol-factory.hpp). -/
structure St where
  uni : Unicast
  mc : Multicast
  netifs : List Netif
  chans : List Chan
  faces : List Face
  map : List ((String × Nat) × Nat)
  scheme : Bool

/-- Before any configuration. -/
def init : St :=
  { uni := ⟨false, false, 600⟩, mc := ⟨false, 0, false, fun _ => true⟩, netifs := [], chans := [], faces := [], map := [], scheme := false }

/-- `EthernetChannel::listen` (ethernet-channel.cpp:74-94), where `works` says whether the device can be opened; the exception is caught and
logged by the factory (ethernet-factory.cpp:291-296). Exceptions of other classes (from `assign` and `updateFilter`) are left out. -/
def listen (works : Bool) (c : Chan) : Chan :=
  if c.flag then c else { c with flag := true, receiving := works }

/-- `createChannel` (ethernet-factory.cpp:217-228). That `pcap_create` may fail is left out. -/
def createChan (n : String) (idle : Nat) (cs : List Chan) : List Chan :=
  if cs.any (fun c => c.name == n) then cs else cs ++ [⟨n, idle, false, false⟩]

/-- `applyUnicastConfigToNetif` (ethernet-factory.cpp:267-299); `works`: on which interfaces `listen` can open the device. -/
def applyUni (works : String → Bool) (s : St) (n : Netif) : St :=
  if s.uni.enabled = false then s
  else if n.up = false then s
  else if n.ether = false then s
  else if n.address = false then s
  else
    let cs := createChan n.name s.uni.idle s.chans
    { s with chans := if s.uni.listen then cs.map (fun c => if c.name == n.name then listen (works n.name) c else c) else cs }

/-- `createMulticastFace` (ethernet-factory.cpp:236-265): the state afterwards and the face; `none`: an exception. `opens`: whether a transport for
this interface can be made. `setChannel` is left out. -/
def createMcast (opens : String → Bool) (s : St) (n : Netif) : Option (St × Nat) :=
  match s.map.lookup (n.name, s.mc.group) with
  | some k => some (s, k)
  | none =>
    if opens n.name = false then none
    else some ({ s with faces := s.faces ++ [⟨n.name, s.mc.group, s.mc.adHoc, .live, false⟩], map := s.map ++ [((n.name, s.mc.group), s.faces.length)] }, s.faces.length)

/-- `addFace` of a new face (ethernet-factory.cpp:343-346). -/
def register (s : St) (k : Nat) : St :=
  match s.faces[k]? with
  | none => s
  | some f => { s with faces := s.faces.set k { f with table := true } }

/-- `applyMcastConfigToNetif` (ethernet-factory.cpp:301-349): the state afterwards and the face, if any. -/
def applyMc (opens : String → Bool) (s : St) (n : Netif) : St × Option Nat :=
  if s.mc.enabled = false then (s, none)
  else if n.up = false then (s, none)
  else if n.ether = false then (s, none)
  else if n.address = false then (s, none)
  else if n.multicast = false then (s, none)
  else if s.mc.pred n = false then (s, none)
  else
    match createMcast opens s n with
    | none => (s, none)
    | some (s, k) => (register s k, some k)

/-- The loop over the interfaces in `applyConfig` (ethernet-factory.cpp:366-374): the state afterwards and the faces to keep. -/
def forNetifs (works opens : String → Bool) : List Netif → St → St × List Nat
  | [], s => (s, [])
  | n :: l, s =>
    let a := applyMc opens (applyUni works s n) n
    let b := forNetifs works opens l a.1
    (b.1, a.2.toList ++ b.2)

/-- `Face::close` (transport.cpp: `Transport::close`). -/
def close (s : St) (k : Nat) : St :=
  match s.faces[k]? with
  | none => s
  | some f => if f.st = .live then { s with faces := s.faces.set k { f with st := .closing } } else s

/-- `applyConfig` (ethernet-factory.cpp:351-380). -/
def applyConfig (works opens : String → Bool) (s : St) : St :=
  let s := { s with scheme := s.uni.enabled }
  let old := s.map.map (·.2)
  let r := forNetifs works opens s.netifs s
  (old.filter (fun k => k ∉ r.2)).foldl close r.1

/-- The CLOSED state is reached: the face is removed from `m_mcastFaces` (ethernet-factory.cpp:257). -/
def settle (s : St) (k : Nat) : St :=
  match s.faces[k]? with
  | none => s
  | some f =>
    if f.st = .closing then { s with faces := s.faces.set k { f with st := .closed }, map := s.map.filter (fun x => x.1 != (f.netif, f.group)) } else s

/-- What happens. `config`: `doProcessConfig` that is not a dry run, with the options that were read (ethernet-factory.cpp:126-163); `added`: an
interface appears (lines 48-51); `change`: an interface changes or disappears, where the factory does not react; `close`: a face is closed for
another reason (for example by a command); `settle`: a CLOSING face becomes CLOSED. -/
inductive Ev
  | config (u : Unicast) (m : Multicast) (works opens : String → Bool)
  | added (n : Netif) (works opens : String → Bool)
  | change (f : List Netif → List Netif)
  | close (k : Nat)
  | settle (k : Nat)

def step (s : St) : Ev → St
  | .config u m works opens => applyConfig works opens { s with uni := u, mc := m }
  | .added n works opens => (applyMc opens (applyUni works { s with netifs := s.netifs ++ [n] } n) n).1
  | .change f => { s with netifs := f s.netifs }
  | .close k => close s k
  | .settle k => settle s k

def run (s : St) (es : List Ev) : St := es.foldl step s

end Verif.Eth
