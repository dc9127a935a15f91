/-! The commands `faces/update`, `faces/destroy` and the query filter of `FaceManager` (daemon/mgmt/face-manager.cpp). A face is
reduced to what these commands read and change. MTUs are integers as in the code: -1 is `MTU_UNLIMITED`, -2 `MTU_INVALID`
(face-common.hpp:57-66). -/
namespace Verif.FaceCmd

/-- `ndn::nfd::FacePersistency`. -/
inductive Persistency
  | none
  | persistent
  | onDemand
  | permanent
deriving DecidableEq, Repr

def mtuUnlimited : Int := -1
/-- `MIN_MTU` (face-common.hpp:66). -/
def minMtu : Int := 64
/-- `std::numeric_limits<ssize_t>::max()`. -/
def ssizeMax : Nat := 2 ^ 63 - 1
/-- `ndn::MAX_NDN_PACKET_SIZE`. -/
def maxPacket : Nat := 8800

/-- The options of `GenericLinkService` that the command can change (generic-link-service.hpp:95-160). -/
structure Opts where
  localFields : Bool
  reliability : Bool
  congestion : Bool
  interval : Nat
  threshold : Nat
  overrideMtu : Int
deriving DecidableEq, Repr

/-- A face. `link = none`: its link service is not a `GenericLinkService`. `flexible`: what the transport's
`canChangePersistencyToImpl` answers (true for TCP, unicast UDP and unicast Ethernet, tcp-transport.cpp:81-85,
unicast-udp-transport.cpp:84-88, unicast-ethernet-transport.cpp:67-71; false otherwise, transport.cpp:145-149). -/
structure Face where
  isLocal : Bool
  persistency : Persistency
  flexible : Bool
  transportMtu : Int
  link : Option Opts
  remoteUri : String := ""
  localUri : String := ""
  remoteScheme : String := ""
  localScheme : String := ""
  linkType : Nat := 0
  closed : Bool := false
deriving DecidableEq, Repr

/-- The face table: what `FaceTable::get` finds for a FaceId. -/
abbrev Faces := Nat → Option Face

/-- `ControlParameters` of `faces/update`: a FaceId and any of the properties. -/
structure Params where
  faceId : Nat
  localFields : Option Bool := none
  reliability : Option Bool := none
  congestion : Option Bool := none
  persistency : Option Persistency := none
  interval : Option Nat := none
  threshold : Option Nat := none
  mtu : Option Nat := none
deriving DecidableEq, Repr

/-- `ControlResponse`: the body is a set of parameters, or there is none. -/
structure Response where
  code : Nat
  body : Option Params
deriving DecidableEq, Repr

/-- `Transport::canChangePersistencyTo` (transport.cpp:129-143). -/
def canChangePersistencyTo (f : Face) (p : Persistency) : Bool :=
  if f.persistency = p ∨ f.persistency = .none then true
  else if p = .none then false
  else f.flexible

/-- `GenericLinkService::canOverrideMtuTo` (generic-link-service.cpp:69-79). -/
def canOverrideMtuTo (f : Face) (mtu : Int) : Bool :=
  if f.transportMtu = mtuUnlimited then false else minMtu ≤ mtu

/-- `std::min<uint64_t>(std::numeric_limits<ssize_t>::max(), mtu)` (face-manager.cpp:259, 315). -/
def actualMtu (mtu : Nat) : Int := (min ssizeMax mtu : Nat)

/-- `Face::getMtu` (face.hpp:269-273, generic-link-service.cpp:62-67, link-service.hpp:115-119). -/
def getMtu (f : Face) : Int :=
  match f.link with
  | some o => min o.overrideMtu f.transportMtu
  | none => f.transportMtu

/-- `copyMtu` (face-manager.cpp:163-173). -/
def copyMtu (f : Face) : Option Nat :=
  if 0 ≤ getMtu f then some (min (getMtu f).toNat maxPacket)
  else if getMtu f = mtuUnlimited then some maxPacket
  else none

/-- `makeUpdateFaceResponse` (face-manager.cpp:175-194). -/
def makeUpdateFaceResponse (id : Nat) (f : Face) : Params :=
  let p : Params := { faceId := id, persistency := some f.persistency, mtu := copyMtu f }
  match f.link with
  | some o =>
    { p with interval := some o.interval
             threshold := some o.threshold
             localFields := some o.localFields
             reliability := some o.reliability
             congestion := some o.congestion }
  | none => p

/-- `updateLinkServiceOptions` (face-manager.cpp:230-263). -/
def updateOptions (f : Face) (p : Params) : Face :=
  match f.link with
  | none => f
  | some o =>
    let o' : Opts :=
      { localFields := if f.isLocal then p.localFields.getD o.localFields else o.localFields
        reliability := p.reliability.getD o.reliability
        congestion := p.congestion.getD o.congestion
        interval := p.interval.getD o.interval
        threshold := p.threshold.getD o.threshold
        overrideMtu := (p.mtu.map actualMtu).getD o.overrideMtu }
    { f with link := some o' }

/-- The checks of `updateFace` (face-manager.cpp:288-322): the invalid properties. The FaceId is not part of the body. -/
def invalidProps (f : Face) (p : Params) : Params :=
  { faceId := 0
    localFields := if p.localFields = some true ∧ f.isLocal = false then some true else none
    persistency := match p.persistency with
      | some x => if canChangePersistencyTo f x then none else some x
      | none => none
    mtu := match p.mtu with
      | some m => if f.link = none ∨ canOverrideMtuTo f (actualMtu m) = false then some m else none
      | none => none }

/-- `areParamsValid` (face-manager.cpp:290, 296, 306, 319): false iff one of the checks failed. -/
def areParamsValid (f : Face) (p : Params) : Bool :=
  (invalidProps f p).localFields.isNone && (invalidProps f p).persistency.isNone && (invalidProps f p).mtu.isNone

/-- Replace one face. -/
def put (t : Faces) (id : Nat) (f : Face) : Faces := fun i => if i = id then some f else t i

/-- The changes (face-manager.cpp:330-333). `setPersistency` (transport.cpp:151-167) asserts the change is possible, which has been
checked; what a transport does after the change (a TCP transport that is DOWN fails) is not part of this model. -/
def change (f : Face) (p : Params) : Face := updateOptions { f with persistency := p.persistency.getD f.persistency } p

/-- `FaceManager::updateFace` (face-manager.cpp:265-338); `incoming` is the IncomingFaceId tag of the command, if any. -/
def updateFace (t : Faces) (incoming : Option Nat) (p : Params) : Faces × Response :=
  match (if p.faceId = 0 then incoming else some p.faceId) with
  | none => (t, ⟨404, none⟩)
  | some id =>
    match t id with
    | none => (t, ⟨404, none⟩)
    | some f =>
      if areParamsValid f p = false then (t, ⟨409, some (invalidProps f p)⟩)
      else (put t id (change f p), ⟨200, some (makeUpdateFaceResponse id (change f p))⟩)

/-- `FaceManager::destroyFace` (face-manager.cpp:340-350). -/
def destroyFace (t : Faces) (id : Nat) : Faces × Response :=
  match t id with
  | some f => (put t id { f with closed := true }, ⟨200, some { faceId := id }⟩)
  | none => (t, ⟨200, some { faceId := id }⟩)

/-- `ndn::nfd::FaceQueryFilter`. -/
structure Filter where
  faceId : Option Nat := none
  uriScheme : Option String := none
  remoteUri : Option String := none
  localUri : Option String := none
  isLocal : Option Bool := none
  persistency : Option Persistency := none
  linkType : Option Nat := none
deriving DecidableEq, Repr

/-- `matchFilter` (face-manager.cpp:430-471). -/
def matchFilter (q : Filter) (id : Nat) (f : Face) : Bool :=
  if q.faceId.any (· != id) then false
  else if q.uriScheme.any (fun x => x != f.remoteScheme && x != f.localScheme) then false
  else if q.remoteUri.any (· != f.remoteUri) then false
  else if q.localUri.any (· != f.localUri) then false
  else if q.isLocal.any (· != f.isLocal) then false
  else if q.persistency.any (· != f.persistency) then false
  else if q.linkType.any (· != f.linkType) then false
  else true

/-- `queryFaces` (face-manager.cpp:473-494) over the faces of the table in some order, given as a list. -/
def queryFaces (q : Filter) (l : List (Nat × Face)) : List (Nat × Face) := l.filter (fun x => matchFilter q x.1 x.2)

end Verif.FaceCmd
