import Verif.Nt.Model

/-! The RIB manager (daemon/mgmt/rib-manager.cpp) with the lifetime of routes (daemon/rib/{route,rib,rib-entry}.cpp).

The RIB is here the list of its routes with their names; an entry is a name with at least one route (C56), and an update changes
exactly its route (C84). Updates are queued and completed one after the other in that order; an update fails only if its face does not
exist (C58, Verif.Rib.Async). Times are in nanoseconds of the steady clock, without overflow. Validation of announcements is asynchronous in the
code; here an announcement arrives when it has been validated, since nothing is read or changed before that. A scheduled event runs at
any time at or after its due time. -/
namespace Verif.RibMgr

def ms : Nat := 1000000

/-- `ndn::PrefixAnnouncement`: the announced name, the expiration period, and the validity period in the system clock if there is one. -/
structure Ann where
  name : Name
  expiration : Nat
  validity : Option (Nat × Nat)
deriving DecidableEq, Repr

/-- `Route` (route.hpp:43-120); `evt` is the expiration event. -/
structure Rt where
  face : Nat
  origin : Nat
  cost : Nat
  flags : Nat
  expires : Option Nat
  ann : Option Ann
  annExpires : Nat
  evt : Option Nat
deriving DecidableEq, Repr

/-- `ROUTE_ORIGIN_PREFIXANN`, `PA_ROUTE_COST` (route.hpp:94), `ROUTE_FLAG_CHILD_INHERIT` -/
def originAnn : Nat := 129
def annCost : Nat := 2048
def childInherit : Nat := 1

/-- `computeExpiration` (route.cpp:34-50); `sys` is the system clock. That the ends of a validity period are in it is a fact about ndn-cxx, which is not in the repository. -/
def computeExpiration (now sys : Nat) (a : Ann) : Nat :=
  match a.validity with
  | none => now + a.expiration
  | some (b, e) => if b ≤ sys ∧ sys ≤ e then now + min (e - sys) a.expiration else now + min 0 a.expiration

/-- `Route(ann, faceId)` (route.cpp:52-61). -/
def annRoute (now sys : Nat) (a : Ann) (face : Nat) : Rt :=
  ⟨face, originAnn, annCost, childInherit, some (computeExpiration now sys a), some a, computeExpiration now sys a, none⟩

/-- A scheduled expiration (rib-manager.cpp:150). -/
structure Timer where
  id : Nat
  due : Nat
  name : Name
  route : Rt
deriving DecidableEq, Repr

inductive Act where
  | register | unregister | removeFace
deriving DecidableEq, Repr

/-- `RibUpdate` with its callback: the request of the self-learning strategy that is to be told the result. `byTimer` is not in the code:
the update is there because an expiration event has run. -/
structure Upd where
  act : Act
  name : Name
  route : Rt
  cb : Option Nat := none
  byTimer : Bool := false
deriving DecidableEq, Repr

/-- `ControlParameters`; the expiration period is in milliseconds. -/
structure Params where
  name : Name
  face : Nat
  origin : Nat
  cost : Nat
  flags : Nat
  period : Option Nat
deriving DecidableEq, Repr

/-- `SlAnnounceResult` (rib-manager.hpp:94-100) -/
inductive SlRes where
  | ok | error | validationFailure | expired | notFound
deriving DecidableEq, Repr

/-- What can be seen: responses to commands, results for the self-learning strategy. -/
inductive Out where
  | reply (req code : Nat) (body : Option Params)
  | sl (req : Nat) (res : SlRes)
  | ann (req : Nat) (a : Option Ann)
deriving DecidableEq, Repr

structure St where
  now : Nat := 0
  rib : List (Name × Rt) := []
  queue : List Upd := []
  timers : List Timer := []
  next : Nat := 0
  out : List Out := []
  /-- the faces that exist, and all that ever have -/
  faces : List Nat := []
  used : List Nat := []
  /-- the daemon has been terminated by an exception -/
  fault : Bool := false
deriving DecidableEq, Repr

/-- The same face and origin (rib-entry.cpp:35-39) for the same name. -/
def sameKey (n m : Name) (r q : Rt) : Bool := n == m && r.face == q.face && r.origin == q.origin

def find (s : St) (n : Name) (r : Rt) : Option Rt := (s.rib.find? (fun x => sameKey x.1 n x.2 r)).map (·.2)

/-- `beginApplyUpdate` (rib.cpp:328-336), `addUpdateToQueue` (rib.cpp:371-381). -/
def enqueue (s : St) (u : Upd) : St := { s with queue := s.queue ++ [u] }
def emit (s : St) (o : Out) : St := { s with out := s.out ++ [o] }

/-- `Rib::onRouteExpiration` (rib.cpp:188-193). -/
def onRouteExpiration (s : St) (n : Name) (r : Rt) (byTimer : Bool) : St := enqueue s { act := .unregister, name := n, route := r, byTimer := byTimer }

/-- `RibManager::addRoute` (rib-manager.cpp:133-157). The callback is that of a request of the self-learning strategy. -/
def addRoute (s : St) (n : Name) (r : Rt) (cb : Option Nat) : St :=
  match r.expires with
  | some t =>
    if t ≤ s.now then
      let s := onRouteExpiration s n r false
      match cb with
      | some q => emit s (.sl q .expired)
      | none => s
    else enqueue { s with timers := ⟨s.next, t, n, r⟩ :: s.timers, next := s.next + 1 } { act := .register, name := n, route := { r with evt := some s.next }, cb := cb }
  | none => enqueue s { act := .register, name := n, route := r, cb := cb }

/-- FaceId 0 stands for the face the command came from (rib-manager.cpp:229-231, 255-257). -/
def targetFace (incoming face : Nat) : Nat := if face = 0 then incoming else face

/-- `time::milliseconds::max()` -/
def forever : Nat := 2 ^ 63 - 1

/-- The expiry asked for (rib-manager.cpp:242-246). -/
def expiry (now : Nat) (p : Params) : Option Nat := p.period.bind (fun d => if d = forever then none else some (now + d * ms))

/-- `RibManager::registerEntry` (rib-manager.cpp:219-249). -/
def registerEntry (s : St) (req incoming : Nat) (p : Params) : St :=
  if p.name.length > Nt.maxDepth then emit s (.reply req 414 none)
  else
    let p := { p with face := targetFace incoming p.face }
    addRoute (emit s (.reply req 200 (some p))) p.name ⟨p.face, p.origin, p.cost, p.flags, expiry s.now p, none, 0, none⟩ none

/-- `RibManager::unregisterEntry` (rib-manager.cpp:251-270). -/
def unregisterEntry (s : St) (req incoming : Nat) (p : Params) : St :=
  let p := { p with face := targetFace incoming p.face }
  enqueue (emit s (.reply req 200 (some p))) { act := .unregister, name := p.name, route := ⟨p.face, p.origin, 0, 0, none, none, 0, none⟩ }

/-- `RibManager::announceEntry` (rib-manager.cpp:272-312), with the result of the validation. -/
def announceEntry (s : St) (req incoming : Nat) (a : Ann) (valid : Bool) (sys : Nat) : St :=
  if a.name.length > Nt.maxDepth then emit s (.reply req 414 none)
  else if valid then
    let r := annRoute s.now sys a incoming
    addRoute (emit s (.reply req 200 (some ⟨a.name, r.face, r.origin, r.cost, r.flags, some ((r.annExpires - s.now) / ms)⟩))) a.name r none
  else emit s (.reply req 403 none)

/-- `RibManager::slAnnounce` (rib-manager.cpp:389-411). -/
def slAnnounce (s : St) (req : Nat) (a : Ann) (face life : Nat) (valid : Bool) (sys : Nat) : St :=
  if valid then
    let r := annRoute s.now sys a face
    addRoute s a.name { r with expires := some (min r.annExpires (s.now + life)) } (some req)
  else emit s (.sl req .validationFailure)

/-- The routes of a name: the RIB entry, if not empty. -/
def routesOf (s : St) (n : Name) : List Rt := (s.rib.filter (fun x => x.1 == n)).map (·.2)

/-- The loop of `Rib::findParent` (rib.cpp:195-206): the entry for the longest of the first `k - 1` prefixes. -/
def findUpTo (s : St) (n : Name) : Nat → Option Name
  | 0 => none
  | k + 1 => if routesOf s (n.take k) ≠ [] then some (n.take k) else findUpTo s n k

def findParent (s : St) (n : Name) : Option Name := findUpTo s n n.length

/-- `Rib::findLongestPrefix` (rib.cpp:69-81). -/
def findLongestPrefix (s : St) (n : Name) (r : Rt) : Option Rt :=
  match find s n r with
  | some x => some x
  | none => (findParent s n).bind (fun p => find s p r)

/-- `RibManager::slRenew` (rib-manager.cpp:413-437). -/
def slRenew (s : St) (req : Nat) (n : Name) (face life : Nat) : St :=
  match findLongestPrefix s n ⟨face, originAnn, 0, 0, none, none, 0, none⟩ with
  | none => emit s (.sl req .notFound)
  | some old =>
    match old.ann with
    | none => emit s (.sl req .notFound)
    | some a => addRoute s a.name { old with expires := some (min old.annExpires (s.now + life)) } (some req)

/-- The loop of `getPrefixAnnouncement` (rib-entry.cpp:232-244): the best route with an announcement, and the latest expiry (`none` is the beginning
of time, `some none` never). -/
def bestAnn : List Rt → Option Rt → Option (Option Nat) → Option Rt × Option (Option Nat)
  | [], b, e => (b, e)
  | r :: l, b, e =>
    match r.expires with
    | none => bestAnn l b (some none)
    | some t =>
      let e' := match e with
        | none => some (some t)
        | some none => some none
        | some (some u) => some (some (max u t))
      let b' := if r.ann.isSome then
          (match b with
          | none => some r
          | some q => if q.expires.any (· < t) then some r else some q)
        else b
      bestAnn l b' e'

/-- `RibEntry::getPrefixAnnouncement` (rib-entry.cpp:225-256) with the default bounds (rib-entry.hpp:183-184). -/
def prefixAnnouncement (now : Nat) (n : Name) (l : List Rt) : Ann :=
  match bestAnn l none none with
  | (some r, _) => r.ann.getD ⟨n, 0, none⟩
  | (none, e) =>
    let d := match e with
      | none => 0
      | some none => 3600000 * ms
      | some (some t) => (t - now) / ms * ms
    ⟨n, min (max d (15000 * ms)) (3600000 * ms), none⟩

/-- `RibManager::slFindAnn` (rib-manager.cpp:439-457). -/
def slFindAnn (s : St) (req : Nat) (n : Name) : St :=
  if routesOf s n ≠ [] then emit s (.ann req (some (prefixAnnouncement s.now n (routesOf s n))))
  else
    match findParent s n with
    | none => emit s (.ann req none)
    | some p => emit s (.ann req (some (prefixAnnouncement s.now p (routesOf s p))))

/-- Cancels an expiration event, if it is still scheduled. -/
def cancel (s : St) (e : Option Nat) : St := { s with timers := s.timers.filter (fun t => some t.id != e) }

/-- `Rib::insert` (rib.cpp:83-149). -/
def insert (s : St) (n : Name) (r : Rt) : St :=
  match find s n r with
  | none => { s with rib := s.rib ++ [(n, r)] }
  | some old => { cancel s old.evt with rib := s.rib.map (fun x => if sameKey x.1 n x.2 r then (n, r) else x) }

/-- `Rib::erase` (rib.cpp:151-186) with `RibEntry::eraseRoute` (rib-entry.cpp:100-116). -/
def erase (s : St) (n : Name) (r : Rt) : St :=
  match find s n r with
  | none => s
  | some old => { cancel s old.evt with rib := s.rib.filter (fun x => !sameKey x.1 n x.2 r) }

/-- The first update in the queue is completed (rib.cpp:407-449, rib-manager.cpp:159-180). It fails only if its face does not exist. A
registration succeeds only if its face exists or has existed. A registration of a name that the FIB does not take is refused by the
forwarder with code 414 (fib-manager.cpp:67-72), and `FibUpdater` throws (fib-updater.cpp:291-293), which ends the daemon (main.cpp:136-140). -/
def complete (s : St) (ok : Bool) : St :=
  match s.queue with
  | [] => s
  | u :: q =>
    if u.act = .register ∧ u.name.length > Nt.maxDepth then { s with fault := true }
    else if (ok = true ∨ u.route.face ∈ s.faces) ∧ (u.act = .register → u.route.face ∈ s.used) then
      let s := { s with queue := q }
      let s := match u.act with
        | .register => insert s u.name u.route
        | .unregister => erase s u.name u.route
        | .removeFace => erase s u.name u.route
      match u.cb with
      | some req => emit s (.sl req .ok)
      | none => s
    else
      let s := { s with queue := q }
      match u.cb with
      | some req => emit s (.sl req .error)
      | none => s

/-- `Rib::enqueueRemoveFace` (rib.cpp:360-369) for the routes that satisfy a condition. An entry may be visited more than once in the code; the
second time its updates do nothing. -/
def removeFaces (s : St) (p : Nat → Bool) : St :=
  { s with queue := s.queue ++ (s.rib.filter (fun x => p x.2.face)).map (fun x => { act := .removeFace, name := x.1, route := x.2 }) }

inductive Ev where
  | register (req incoming : Nat) (p : Params)
  | unregister (req incoming : Nat) (p : Params)
  | announce (req incoming : Nat) (a : Ann) (valid : Bool) (sys : Nat)
  | slAnnounce (req : Nat) (a : Ann) (face life : Nat) (valid : Bool) (sys : Nat)
  | slRenew (req : Nat) (n : Name) (face life : Nat)
  | slFindAnn (req : Nat) (n : Name)
  | complete (ok : Bool)
  /-- a scheduled expiration event runs -/
  | timer (id : Nat)
  /-- a face comes into being, or ceases to exist, in the forwarder -/
  | faceUp (f : Nat)
  | faceDown (f : Nat)
  /-- `onNotification` (rib-manager.cpp:494-503) and `removeInvalidFaces` (rib-manager.cpp:478-492) -/
  | notified (f : Nat)
  | fetched (active : List Nat)
  | tick (d : Nat)
deriving DecidableEq, Repr

def live (s : St) : Ev → St
  | .register req i p => registerEntry s req i p
  | .unregister req i p => unregisterEntry s req i p
  | .announce req i a v sys => announceEntry s req i a v sys
  | .slAnnounce req a f l v sys => slAnnounce s req a f l v sys
  | .slRenew req n f l => slRenew s req n f l
  | .slFindAnn req n => slFindAnn s req n
  | .complete ok => complete s ok
  | .timer id =>
    match s.timers.find? (fun t => t.id == id) with
    | none => s
    | some t => if t.due ≤ s.now then onRouteExpiration { s with timers := s.timers.filter (fun x => x.id != id) } t.name t.route true else s
  | .faceUp f => if f ∈ s.used then s else { s with faces := f :: s.faces, used := f :: s.used }
  | .faceDown f => { s with faces := s.faces.filter (· != f) }
  | .notified f => removeFaces s (· == f)
  | .fetched active => removeFaces s (fun f => !active.contains f)
  | .tick d => { s with now := s.now + d }

/-- Nothing happens in a daemon that has ended. -/
def step (s : St) (ev : Ev) : St := if s.fault then s else live s ev

def run (s : St) (evs : List Ev) : St := evs.foldl step s

/-- The distinct names in the RIB. The code has them in the order of names (rib-manager.cpp:318, a `std::map`), here it does not matter. -/
def names : List (Name × Rt) → List Name
  | [] => []
  | (n, _) :: l => if n ∈ names l then names l else n :: names l

/-- `ndn::nfd::Route`, a route in the dataset; the remaining lifetime is in milliseconds. -/
structure Item where
  face : Nat
  origin : Nat
  cost : Nat
  flags : Nat
  left : Option Int
deriving DecidableEq, Repr

/-- `RibManager::listEntries` (rib-manager.cpp:314-336). -/
def listEntries (s : St) : List (Name × List Item) :=
  (names s.rib).map (fun n => (n, (routesOf s n).map (fun r =>
    ⟨r.face, r.origin, r.cost, r.flags, r.expires.map (fun t => ((t : Int) - (s.now : Int)).tdiv (ms : Int))⟩)))

end Verif.RibMgr
