import Verif.Name.Model

/-! Readvertising of routes (daemon/rib/readvertise/{readvertise,host-to-gateway-readvertise-policy,client-to-nlsr-readvertise-policy,
nfd-rib-readvertise-destination,readvertise-destination}.cpp).

An iterator to a record is represented by a number that is never used again, so that using it after the record was erased is visible
(`Fault.dangling`). Commands are sent to the destination and answered in any order. Scheduled events run at any time after they were
scheduled: of a delay only its length is kept. The random ±5 ms added to each delay (readvertise.cpp:39-45) are left out. -/
namespace Verif.Readv

/-! ### Policies -/

/-- `ReadvertiseAction` (readvertise-policy.hpp): the signer is the identity, `none` for the default. -/
structure Action where
  pfx : Name
  cost : Nat
  signer : Option Name
deriving DecidableEq, Repr

def generic (s : String) : Component := ⟨ttGeneric, s.toUTF8.toList⟩
/-- `scope_prefix::LOCALHOST` (scope-prefix.hpp) -/
def localhost : Name := [generic "localhost"]
/-- `RibManager::LOCALHOP_TOP_PREFIX` (rib-manager.hpp:233) -/
def localhopTop : Name := [generic "localhop", generic "nfd"]
/-- host-to-gateway-readvertise-policy.cpp:35 -/
def ignored : Component := generic "nrd"

/-- host-to-gateway-readvertise-policy.cpp:61-66: an identity's name without a last component `nrd`. -/
def idPrefix (identity : Name) : Name := if identity.getLast? = some ignored then identity.dropLast else identity

/-- The loop over the identities (host-to-gateway-readvertise-policy.cpp:55-73): the shortest prefix so far and its identity. -/
def pick : Name → Option Name → List Name → Name × Option Name
  | best, signer, [] => (best, signer)
  | best, signer, i :: is => if Name.isPrefixOf (idPrefix i) best then pick (idPrefix i) (some i) is else pick best signer is

/-- `HostToGatewayReadvertisePolicy::handleNewRoute` (host-to-gateway-readvertise-policy.cpp:46-79). -/
def hostToGateway (identities : List Name) (name : Name) (cost : Nat) : Option Action :=
  if Name.isPrefixOf localhost name = true ∨ name = localhopTop then none
  else
    match pick name none identities with
    | (_, none) => none
    | (p, some i) => some ⟨p, cost, some i⟩

/-- `ROUTE_ORIGIN_CLIENT` -/
def originClient : Nat := 65

/-- `ClientToNlsrReadvertisePolicy::handleNewRoute` (client-to-nlsr-readvertise-policy.cpp:30-39). -/
def clientToNlsr (name : Name) (cost origin : Nat) : Option Action := if origin = originClient then some ⟨name, cost, none⟩ else none

/-! ### Readvertise -/

inductive Op
  | adv
  | wd
deriving DecidableEq, Repr

/-- `RETRY_DELAY_MIN`, `RETRY_DELAY_MAX` (readvertise.cpp:36-37) in milliseconds. -/
def retryMin : Nat := 50000
def retryMax : Nat := 3600000

/-- `ReadvertisedRoute` (readvertised-route.hpp:39-62); `evt`: what `retryEvt` will do, and the delay it was scheduled with. -/
structure Rec where
  id : Nat
  pfx : Name
  cost : Nat
  signer : Option Name
  n : Nat
  delay : Nat
  evt : Option (Op × Nat)
deriving DecidableEq, Repr

/-- A command that has been sent and not been answered, with the iterator its callbacks hold. -/
structure Cmd where
  serial : Nat
  op : Op
  target : Nat
  pfx : Name
deriving DecidableEq, Repr

/-- What can be seen from outside: commands, their answers, and the destination becoming available or unavailable. -/
inductive Out
  | sent (op : Op) (pfx : Name) (cost : Nat) (signer : Option Name)
  | answered (op : Op) (pfx : Name) (ok : Bool)
  | up
  | down
deriving DecidableEq, Repr

/-- A route: name, face and origin (rib.hpp:46-56). -/
structure Route where
  name : Name
  face : Nat
  origin : Nat
deriving DecidableEq, Repr

/-- `Readvertise` (readvertise.hpp:70-80) with the destination; `alive`: it has not been destroyed. -/
structure St where
  alive : Bool := true
  avail : Bool := false
  recs : List Rec := []
  map : List (Route × Nat) := []
  flight : List Cmd := []
  next : Nat := 0
  out : List Out := []
deriving Repr

inductive Fault
  /-- an iterator to an erased element, or a destroyed object, is used -/
  | dangling
  /-- a failed assertion -/
  | assert
deriving DecidableEq, Repr

def get (s : St) (id : Nat) : Option Rec := s.recs.find? (fun x => x.id == id)
def set (s : St) (x : Rec) : St := { s with recs := s.recs.map (fun y => if y.id = x.id then x else y) }
def del (s : St) (id : Nat) : St := { s with recs := s.recs.filter (fun y => y.id != id) }

/-- The destination is asked (nfd-rib-readvertise-destination.cpp:55-84). -/
def send (s : St) (op : Op) (x : Rec) : St :=
  { s with flight := s.flight ++ [⟨s.next, op, x.id, x.pfx⟩], next := s.next + 1, out := s.out ++ [.sent op x.pfx x.cost x.signer] }

/-- `Readvertise::advertise` (readvertise.cpp:146-169). -/
def advertise (s : St) (id : Nat) : Except Fault St :=
  match get s id with
  | none => .error .dangling
  | some x => if x.n = 0 then .error .assert else if s.avail = false then .ok s else .ok (send s .adv x)

/-- `Readvertise::withdraw` (readvertise.cpp:171-193). -/
def withdraw (s : St) (id : Nat) : Except Fault St :=
  match get s id with
  | none => .error .dangling
  | some x => if x.n ≠ 0 then .error .assert else if s.avail = false then .ok (del s id) else .ok (send s .wd x)

/-- The record for a prefix, made if there is none, with the new signer (readvertise.cpp:76-82). -/
def emplace (s : St) (a : Action) : St × Rec :=
  match s.recs.find? (fun x => x.pfx == a.pfx) with
  | some x => let y := { x with signer := a.signer }; (set s y, y)
  | none => let y : Rec := ⟨s.next, a.pfx, a.cost, a.signer, 0, 0, none⟩; ({ s with recs := y :: s.recs, next := s.next + 1 }, y)

/-- `Readvertise::afterAddRoute` (readvertise.cpp:66-98), after the policy has decided. -/
def addRoute (s : St) (r : Route) (a : Action) : Except Fault St :=
  let e := emplace s a
  if e.1.map.any (fun y => y.1 == r) then .error .assert
  else
    let s := { e.1 with map := (r, e.2.id) :: e.1.map }
    if e.2.n > 0 then .ok (set s { e.2 with n := e.2.n + 1 })
    else advertise (set s { e.2 with n := 1, delay := retryMin }) e.2.id

/-- `Readvertise::beforeRemoveRoute` (readvertise.cpp:100-121). A counter below zero would be as bad as a failed assertion. -/
def removeRoute (s : St) (r : Route) : Except Fault St :=
  match s.map.find? (fun y => y.1 == r) with
  | none => .ok s
  | some y =>
    let s := { s with map := s.map.filter (fun z => z.1 != r) }
    match get s y.2 with
    | none => .error .dangling
    | some x =>
      if x.n = 0 then .error .assert
      else if x.n > 1 then .ok (set s { x with n := x.n - 1 })
      else withdraw (set s { x with n := 0, delay := retryMin }) x.id

/-- The loop of `afterDestinationAvailable` (readvertise.cpp:126-129). -/
def advertiseAll (s : St) : List Nat → Except Fault St
  | [] => .ok s
  | id :: ids =>
    match get s id with
    | none => .error .dangling
    | some x => (advertise (set s { x with delay := retryMin }) id).bind (fun s => advertiseAll s ids)

/-- The loop of `afterDestinationUnavailable` (readvertise.cpp:135-143). -/
def stopAll (s : St) : St :=
  { s with recs := (s.recs.filter (fun x => decide (x.n > 0))).map (fun x => { x with evt := none }) }

/-- The callbacks (readvertise.cpp:157-168, 183-192). `refresh` is `m_policy->getRefreshInterval()`. -/
def answered (refresh : Nat) (s : St) (c : Cmd) (ok : Bool) : Except Fault St :=
  match get s c.target with
  | none => .error .dangling
  | some x =>
    match c.op, ok with
    | .adv, true => .ok (set s { x with delay := retryMin, evt := some (.adv, refresh) })
    | .adv, false => .ok (set s { x with delay := min retryMax (x.delay * 2), evt := some (.adv, min retryMax (x.delay * 2)) })
    | .wd, true => .ok (del s x.id)
    | .wd, false => .ok (set s { x with delay := min retryMax (x.delay * 2), evt := some (.wd, min retryMax (x.delay * 2)) })

inductive Ev
  /-- a route is added to the RIB, and what the policy says about it -/
  | add (r : Route) (a : Option Action)
  | remove (r : Route)
  /-- the destination becomes available or unavailable -/
  | available
  | unavailable
  /-- a command is answered -/
  | answer (serial : Nat) (ok : Bool)
  /-- the scheduled event of a record runs -/
  | timer (id : Nat)
  /-- readvertising is switched off by applying another configuration (service.cpp:245-248, 258-261); the daemon applies it once only -/
  | destroy
deriving Repr

def step (refresh : Nat) (s : St) : Ev → Except Fault St
  | .add _ none => .ok s
  | .add r (some a) => if s.alive then addRoute s r a else .ok s
  | .remove r => if s.alive then removeRoute s r else .ok s
  | .available =>
    if s.alive = true ∧ s.avail = false then advertiseAll { s with avail := true, out := s.out ++ [.up] } (s.recs.map (·.id)) else .ok s
  | .unavailable => if s.alive = true ∧ s.avail = true then .ok (stopAll { s with avail := false, out := s.out ++ [.down] }) else .ok s
  | .answer k ok =>
    match s.flight.find? (fun c => c.serial == k) with
    | none => .ok s
    | some c =>
      if s.alive = false then .error .dangling
      else answered refresh { s with flight := s.flight.filter (fun c => c.serial != k), out := s.out ++ [.answered c.op c.pfx ok] } c ok
  | .timer id =>
    match get s id with
    | none => .ok s
    | some x =>
      match x.evt with
      | none => .ok s
      | some (.adv, _) => advertise (set s { x with evt := none }) id
      | some (.wd, _) => withdraw (set s { x with evt := none }) id
  | .destroy => .ok { s with alive := false, avail := false, recs := [], map := [] }

def run (refresh : Nat) (s : St) : List Ev → Except Fault St
  | [] => .ok s
  | e :: es => (step refresh s e).bind (fun s => run refresh s es)

/-! ### Availability of the destination -/

/-- `NfdRibReadvertiseDestination` (nfd-rib-readvertise-destination.cpp:42-52): the entries of the RIB, whether the destination is
available, and an entry inserted or erased. -/
structure Dest where
  avail : Bool := false
deriving DecidableEq, Repr

inductive RibEv
  | insert (n : Name)
  | erase (n : Name)
deriving DecidableEq, Repr

def Dest.step (cmd : Name) (d : Dest) : RibEv → Dest
  | .insert n => if Name.isPrefixOf n cmd then ⟨true⟩ else d
  | .erase n => if Name.isPrefixOf n cmd then ⟨false⟩ else d

def Dest.run (cmd : Name) (evs : List RibEv) : Dest := evs.foldl (Dest.step cmd) {}

end Verif.Readv
