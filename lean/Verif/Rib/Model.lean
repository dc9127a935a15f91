import Verif.Name.Model

/-
Model of the RIB and of the computation of FIB updates: daemon/rib/{route,rib-entry,rib,fib-update,fib-updater}.cpp.

A route's expiration time and prefix announcement are not part of the model: a route that expires is unregistered by an event that may
happen at any time. A `shared_ptr` to an entry in the table is represented by the entry's name; an entry also has a number, which tells
different objects with the same name apart (this matters for m_faceEntries only, which may refer to entries no longer in the table).
Calls of `addFibUpdate`, `addInheritedRoute` and `removeInheritedRoute` (fib-updater.cpp) are collected in a list and carried out afterwards;
nothing reads what they write before.
-/
namespace Verif.Rib

/-- Number of values of `uint64_t`. -/
abbrev W : Nat := 18446744073709551616

/-- `Route` (route.hpp); `ci` is ROUTE_FLAG_CHILD_INHERIT, `capture` is ROUTE_FLAG_CAPTURE. -/
structure Route where
  face : Nat
  origin : Nat
  cost : Nat
  ci : Bool
  capture : Bool
deriving DecidableEq, Repr

/-- `compareFaceIdAndOrigin` (rib-entry.cpp:35-39). -/
def Route.same (a b : Route) : Bool := a.face == b.face && a.origin == b.origin

/-- `RibEntry` (rib-entry.hpp:226-243). -/
structure Entry where
  id : Nat
  name : Name
  routes : List Route
  inherited : List Route
  /-- m_nRoutesWithCaptureSet -/
  nCapture : Nat
  parent : Option Name
  children : List Name
deriving DecidableEq, Repr

namespace Entry

/-- rib-entry.cpp:41-53 -/
def findRoute (e : Entry) (r : Route) : Option Route := e.routes.find? (·.same r)

/-- `insertRoute` (rib-entry.cpp:55-71). -/
def insertRoute (e : Entry) (r : Route) : Entry × Bool :=
  match e.findRoute r with
  | none => ({ e with routes := e.routes ++ [r], nCapture := if r.capture then (e.nCapture + 1) % W else e.nCapture }, true)
  | some _ => (e, false)

/-- `eraseRoute` (rib-entry.cpp:73-77, 103-121). -/
def eraseRoute (e : Entry) (r : Route) : Entry :=
  match e.findRoute r with
  | none => e
  | some x =>
    { e with
      routes := e.routes.eraseP (·.same r)
      nCapture := if x.capture then (e.nCapture + (W - 1)) % W else e.nCapture }

/-- rib-entry.cpp:79-83 -/
def hasFace (e : Entry) (f : Nat) : Bool := e.routes.any (·.face == f)

/-- rib-entry.hpp:162-165 -/
def hasCapture (e : Entry) : Bool := decide (e.nCapture > 0)

/-- rib-entry.cpp:135-146 -/
def hasInherited (e : Entry) (f : Nat) : Bool := e.inherited.any (·.face == f)

/-- `hasChildInheritOnFaceId` (rib-entry.cpp:143-153). -/
def hasCI (e : Entry) (f : Nat) : Bool := e.routes.any (fun r => r.face == f && r.ci)

/-- The first of the routes with the lowest cost. -/
def lowest : List Route → Option Route
  | [] => none
  | r :: l => some (l.foldl (fun c x => if x.cost < c.cost then x else c) r)

/-- `getRouteWithLowestCostByFaceId` (rib-entry.cpp:155-175). -/
def lowestCost (e : Entry) (f : Nat) : Option Route := lowest (e.routes.filter (·.face == f))

/-- `getRouteWithLowestCostAndChildInheritByFaceId` (rib-entry.cpp:201-223). -/
def lowestCI (e : Entry) (f : Nat) : Option Route := lowest (e.routes.filter (fun r => r.face == f && r.ci))

/-- `getRouteWithSecondLowestCostByFaceId` (rib-entry.cpp:177-199). `std::nth_element` puts some element there whose cost is the second
lowest; which one if there are several is up to `tie`. -/
def secondLowest (tie : List Route → Nat) (e : Entry) (f : Nat) : Option Route :=
  let m := e.routes.filter (·.face == f)
  match lowest m with
  | none => none
  | some l =>
    match lowest (m.erase l) with
    | none => none
    | some r =>
      let c := m.filter (·.cost == r.cost)
      c[tie m % c.length]?

end Entry

/-! ## The table -/

/-- `std::map::find` -/
def get (t : List Entry) (n : Name) : Option Entry := t.find? (·.name == n)

/-- Replaces the entry of the same name. -/
def put (t : List Entry) (e : Entry) : List Entry := t.map (fun x => if x.name = e.name then e else x)

/-- Insertion into the ordered map; the name is not in it. -/
def add (e : Entry) : List Entry → List Entry
  | [] => [e]
  | x :: t => if Name.cmp e.name x.name = .lt then e :: x :: t else x :: add e t

/-- The loop of `Rib::findParent` (rib.cpp:198-203). -/
def findParentGo (t : List Entry) (n : Name) : Nat → Option Entry
  | 0 => none
  | i + 1 =>
    match get t (n.take i) with
    | some e => some e
    | none => findParentGo t n i

/-- `Rib::findParent` (rib.cpp:195-206). -/
def findParent (t : List Entry) (n : Name) : Option Entry := findParentGo t n n.length

/-- `Rib::findDescendants` (rib.cpp:208-227): the entries that follow in the map, as long as the name is a prefix. -/
def findDescendants (t : List Entry) (p : Name) : List Entry :=
  match t.dropWhile (·.name != p) with
  | [] => []
  | _ :: l => l.takeWhile (fun e => Name.isPrefixOf p e.name)

/-- `Rib::findDescendantsForNonInsertedName` (rib.cpp:229-241). -/
def descendantsNonInserted (t : List Entry) (p : Name) : List Entry := t.filter (fun e => Name.isPrefixOf p e.name)

/-- The signals of `Rib` (rib.hpp:219-238). -/
inductive Signal where
  | insertEntry (n : Name)
  | eraseEntry (n : Name)
  | addRoute (n : Name) (r : Route)
  | removeRoute (n : Name) (r : Route)
deriving DecidableEq, Repr

/-- `Rib` (rib.hpp:240-262), without the queue of updates. `faceEntries` is m_faceEntries: faces, and numbers of entries. -/
structure Rib where
  table : List Entry
  nItems : Nat
  faceEntries : List (Nat × Nat)
  nextId : Nat
  log : List Signal
deriving DecidableEq, Repr

def Rib.init : Rib := ⟨[], 0, [], 0, []⟩

inductive Fault where
  /-- a null pointer is dereferenced (fib-updater.cpp:468) -/
  | nullPointer
  /-- BOOST_ASSERT in RibEntry::removeChild (rib-entry.cpp:96) -/
  | removeChild
  /-- BOOST_ASSERT in Rib::modifyInheritedRoutes (rib.cpp:456) -/
  | inheritedEntry
  /-- FibUpdater::Error (fib-updater.cpp:292) -/
  | nonRecoverable
deriving DecidableEq, Repr

/-- `Rib::insert` for an existing entry (rib.cpp:89-112). -/
def insertExisting (b : Rib) (e : Entry) (r : Route) : Rib :=
  let x := e.insertRoute r
  if x.2 then
    { b with
      table := put b.table x.1
      nItems := b.nItems + 1
      faceEntries := b.faceEntries ++ [(r.face, e.id)]
      log := b.log ++ [.addRoute e.name r] }
  else { b with table := put b.table { e with routes := e.routes.map (fun y => if y.same r then r else y) } }

/-- `Rib::insert` for a new name (rib.cpp:113-148). The descendants whose parent is the parent of the new entry are moved from it to the
new entry (addChild and removeChild, rib-entry.cpp:85-100, for one after the other). The parent's children are given before the loop. -/
def insertNew (b : Rib) (n : Name) (r : Route) : Rib :=
  let new : Entry := (Entry.insertRoute ⟨b.nextId, n, [], [], 0, none, []⟩ r).1
  let t := add new b.table
  let parent := (findParent t n).map (·.name)
  let moved := ((findDescendants t n).filter (fun e => e.parent == parent)).map (·.name)
  { b with
    table := t.map (fun e =>
      if e.name = n then { e with parent := parent, children := moved }
      else if some e.name = parent then { e with children := (e.children ++ [n]).filter (fun c => !moved.contains c) }
      else if moved.contains e.name then { e with parent := some n }
      else e)
    nItems := b.nItems + 1
    faceEntries := b.faceEntries ++ [(r.face, new.id)]
    nextId := b.nextId + 1
    log := b.log ++ [.insertEntry n, .addRoute n r] }

/-- `Rib::insert` (rib.cpp:83-149). -/
def insert (b : Rib) (n : Name) (r : Route) : Rib :=
  match get b.table n with
  | some e => insertExisting b e r
  | none => insertNew b n r

/-- `Rib::eraseEntry` (rib.cpp:243-280): the children become children of the parent. -/
def eraseEntry (b : Rib) (e : Entry) : Except Fault Rib :=
  if e.children.any (fun c => !(get b.table c).any (fun x => x.parent == some e.name)) then .error .removeChild
  else .ok
    { b with
      table := (b.table.filter (fun x => x.name != e.name)).map (fun x =>
        if some x.name = e.parent then { x with children := x.children.filter (· != e.name) ++ e.children }
        else if e.children.contains x.name then { x with parent := e.parent }
        else x)
      log := b.log ++ [.eraseEntry e.name] }

/-- The unregistration from the face lookup table (rib.cpp:170-179). -/
def unregisterFace (l : List (Nat × Nat)) (f id : Nat) : List (Nat × Nat) := l.eraseP (fun x => x.1 == f && x.2 == id)

/-- `Rib::erase` (rib.cpp:151-186). -/
def erase (b : Rib) (n : Name) (r : Route) : Except Fault Rib :=
  match get b.table n with
  | none => .ok b
  | some e =>
    match e.findRoute r with
    | none => .ok b
    | some x =>
      let e' := e.eraseRoute r
      let b' : Rib := { b with
        table := put b.table e'
        nItems := b.nItems - 1
        faceEntries := if e'.hasFace r.face then b.faceEntries else unregisterFace b.faceEntries r.face e.id
        log := b.log ++ [.removeRoute n x] }
      if e'.routes = [] then eraseEntry b' e' else .ok b'

/-! ## Sets of routes, one per face (`Rib::RouteSet`, rib.hpp:176-177) -/

def rsInsert (r : Route) : List Route → List Route
  | [] => [r]
  | x :: s => if r.face < x.face then r :: x :: s else if r.face = x.face then x :: s else x :: rsInsert r s

def rsFind (s : List Route) (f : Nat) : Option Route := s.find? (·.face == f)

def rsErase (s : List Route) (f : Nat) : List Route := s.filter (·.face != f)

/-- The loop of `getAncestorRoutes` (rib.cpp:288-300, 311-323). The first argument bounds the number of steps. -/
def ancestorsGo (t : List Entry) : Nat → Option Name → List Route → List Route
  | 0, _, s => s
  | _, none, s => s
  | k + 1, some p, s =>
    match get t p with
    | none => s
    | some e =>
      let s := (e.routes.filter (·.ci)).foldl (fun s r => rsInsert r s) s
      if e.hasCapture then s else ancestorsGo t k e.parent s

/-- `getAncestorRoutes` (rib.cpp:282-326), given the parent. A parent's name is shorter than the name. -/
def ancestors (t : List Entry) (parent : Option Name) : List Route :=
  ancestorsGo t ((parent.map (·.length)).getD 0 + 1) parent []

/-! ## Computation of FIB updates -/

inductive Emit where
  /-- addFibUpdate: ADD_NEXTHOP with a cost, or REMOVE_NEXTHOP -/
  | fib (n : Name) (f : Nat) (cost : Option Nat)
  /-- addInheritedRoute or removeInheritedRoute (fib-updater.cpp:675-685) -/
  | inh (n : Name) (adding : Bool) (r : Route)
deriving DecidableEq, Repr

/-- `addInheritedRoute` with the FIB update that always goes with it. -/
def emitAdd (n : Name) (r : Route) : List Emit := [.inh n true r, .fib n r.face (some r.cost)]
def emitRemove (n : Name) (r : Route) : List Emit := [.inh n false r, .fib n r.face none]

def maxLen (t : List Entry) : Nat := t.foldl (fun m e => max m e.name.length) 0

/-- `traverseSubTree` and `modifyChildrensInheritedRoutes` (fib-updater.cpp:618-673). The first argument bounds the depth. -/
def trav (t : List Entry) : Nat → List Route → List Route → Name → List Emit
  | 0, _, _, _ => []
  | k + 1, adds, removes, n =>
    match get t n with
    | none => []
    | some e =>
      if e.hasCapture then []
      else
        let removes := removes.filter (fun r => !e.hasCI r.face)
        let adds := adds.filter (fun r => !e.hasCI r.face)
        removes.flatMap (fun r => if e.hasInherited r.face then emitRemove e.name r else []) ++
        adds.flatMap (fun r => if !e.hasFace r.face then emitAdd e.name r else []) ++
        e.children.flatMap (trav t k adds removes)

def modifyChildren (t : List Entry) (children : List Name) (adds removes : List Route) : List Emit :=
  children.flatMap (trav t (maxLen t + 1) adds removes)

/-- fib-updater.cpp:318-330 -/
def addInherited (e : Entry) (s : List Route) : List Emit :=
  s.flatMap (fun r => if !e.hasFace r.face then emitAdd e.name r else [])

/-- fib-updater.cpp:332-344 -/
def addInheritedName (n : Name) (s : List Route) (ignore : Route) : List Emit :=
  s.flatMap (fun r => if r.face != ignore.face then emitAdd n r else [])

/-- fib-updater.cpp:346-356 -/
def removeInherited (e : Entry) (s : List Route) : List Emit :=
  s.flatMap (fun r => if e.hasInherited r.face then emitRemove e.name r else [])

/-- `createFibUpdatesForNewRibEntry` (fib-updater.cpp:358-403). -/
def forNewEntry (t : List Entry) (n : Name) (r : Route) (children : List Name) : List Emit :=
  let anc := ancestors t ((findParent t n).map (·.name))
  .fib n r.face (some r.cost) ::
    if !r.ci && !r.capture then addInheritedName n anc r
    else if r.ci && r.capture then modifyChildren t children [r] anc
    else if r.ci then addInheritedName n anc r ++ modifyChildren t children (rsInsert r (rsErase anc r.face)) []
    else modifyChildren t children [] anc

/-- `createFibUpdatesForNewRoute` (fib-updater.cpp:405-442). -/
def forNewRoute (t : List Entry) (e : Entry) (r : Route) (captureOn : Bool) : List Emit :=
  let adds := if r.ci && (e.lowestCI r.face).all (fun p => r.cost ≤ p.cost) then [r] else []
  let removes := if captureOn then ancestors t e.parent else []
  removeInherited e removes ++ modifyChildren t e.children adds removes ++
    if (e.lowestCost r.face).all (fun o => r.cost ≤ o.cost) then [.fib e.name r.face (some r.cost)] else []

/-- fib-updater.cpp:459-485: the cost changed. The second component says that nothing else is to be done. -/
def forCostChange (t : List Entry) (e : Entry) (r old : Route) : Except Fault (List Emit × Bool) :=
  let prev := e.lowestCI r.face
  match e.lowestCost r.face with
  | none => .error .nullPointer
  | some l =>
    let upd : Except Fault (List Emit) :=
      if r.cost ≤ l.cost then .ok [.fib e.name r.face (some r.cost)]
      else if old.cost < l.cost then
        match prev with
        | none => .error .nullPointer
        | some p => .ok [.fib e.name p.face (some p.cost)]
      else .ok []
    upd.map (fun u =>
      if prev.all (fun p => r.cost ≤ p.cost) && r.ci == old.ci && r.capture == old.capture && r.ci then
        (u ++ modifyChildren t e.children [r] [], true)
      else (u, false))

/-- fib-updater.cpp:487-520: the child inherit flag. -/
def forCIChange (t : List Entry) (e : Entry) (r old : Route) : List Emit :=
  let prev := e.lowestCI r.face
  if !old.ci && r.ci then
    if prev.all (fun p => r.cost ≤ p.cost) then modifyChildren t e.children [r] [] else []
  else if old.ci && !r.ci then
    let adds := match prev with
      | some p => [p]
      | none => match rsFind (ancestors t e.parent) r.face with
        | some a => [a]
        | none => []
    modifyChildren t e.children adds [r]
  else []

/-- fib-updater.cpp:522-540: the capture flag. -/
def forCaptureChange (t : List Entry) (e : Entry) (r old : Route) : List Emit :=
  let anc := ancestors t e.parent
  if !old.capture && r.capture then removeInherited e anc ++ modifyChildren t e.children [] anc
  else if old.capture && !r.capture then addInherited e anc ++ modifyChildren t e.children anc []
  else []

/-- `createFibUpdatesForUpdatedRoute` (fib-updater.cpp:444-541). `e` is a copy of the entry in which the route is updated. -/
def forUpdatedRoute (t : List Entry) (e : Entry) (r old : Route) : Except Fault (List Emit) :=
  if r.ci = old.ci ∧ r.capture = old.capture ∧ r.cost = old.cost then .ok []
  else if r.cost ≠ old.cost then
    (forCostChange t e r old).map (fun x => if x.2 then x.1 else x.1 ++ forCIChange t e r old ++ forCaptureChange t e r old)
  else .ok (forCIChange t e r old ++ forCaptureChange t e r old)

/-- fib-updater.cpp:549-593: the children of an entry from which a route is erased. -/
def forErasedChildren (t : List Entry) (e : Entry) (r : Route) (captureOff : Bool) : List Emit :=
  let anc := ancestors t e.parent
  if r.ci && r.capture then
    if captureOff && !e.routes.isEmpty then addInherited e anc ++ modifyChildren t e.children anc [r]
    else modifyChildren t e.children [] [r]
  else if r.ci then modifyChildren t e.children (if e.hasCapture then [] else anc) [r]
  else if r.capture then
    if captureOff && !e.routes.isEmpty then addInherited e anc ++ modifyChildren t e.children anc []
    else modifyChildren t e.children [] []
  else []

/-- `createFibUpdatesForErasedRoute` (fib-updater.cpp:543-608). `e` is a copy of the entry from which the route is erased. -/
def forErasedRoute (t : List Entry) (e : Entry) (r : Route) (captureOff : Bool) : List Emit :=
  .fib e.name r.face none :: forErasedChildren t e r captureOff ++
    if !e.hasCapture && !e.routes.isEmpty then
      match rsFind (ancestors t e.parent) r.face with
      | some a => emitAdd e.name a
      | none => []
    else []

/-- `createFibUpdatesForErasedRibEntry` (fib-updater.cpp:610-616). -/
def forErasedEntry (e : Entry) : List Emit := e.inherited.map (fun r => .fib e.name r.face none)

/-- `computeUpdatesForRegistration` (fib-updater.cpp:88-135). -/
def forRegistration (t : List Entry) (n : Name) (r : Route) : Except Fault (List Emit) :=
  match get t n with
  | some e =>
    match e.findRoute r with
    | none => .ok (forNewRoute t e r (!e.hasCapture && r.capture))
    | some old =>
      let e' := { e with routes := e.routes.map (fun y => if y.same r then { y with ci := r.ci, capture := r.capture, cost := r.cost } else y) }
      forUpdatedRoute t e' r old
  | none =>
    let parent := (findParent t n).map (·.name)
    let children := ((descendantsNonInserted t n).filter (fun d => d.parent == parent)).map (·.name)
    .ok (forNewEntry t n r children)

/-- `computeUpdatesForUnregistration` (fib-updater.cpp:137-171). -/
def forUnregistration (tie : List Route → Nat) (t : List Entry) (n : Name) (r : Route) : List Emit :=
  match get t n with
  | none => []
  | some e =>
    match e.findRoute r with
    | none => []
    | some old =>
      let temp := e.eraseRoute r
      forErasedRoute t temp old (e.hasCapture && !temp.hasCapture) ++
        (match e.secondLowest tie r.face with
          | some next => forNewRoute t temp next false
          | none => []) ++
        if e.routes.length = 1 then forErasedEntry e else []

inductive Action where
  | register | unregister | removeFace
deriving DecidableEq, Repr

/-- `RibUpdate` (rib-update-batch.hpp:39-51). Every batch has one update (rib.cpp:395-396). -/
structure Update where
  action : Action
  name : Name
  route : Route
deriving DecidableEq, Repr

/-- `FibUpdate` (fib-update.hpp); the cost of a REMOVE_NEXTHOP is 0. -/
structure FibUpd where
  name : Name
  face : Nat
  cost : Nat
  adding : Bool
deriving DecidableEq, Repr

/-- `addFibUpdate` (fib-updater.cpp:296-316), on the list for the face. -/
def addFibUpd (u : FibUpd) : List FibUpd → List FibUpd
  | [] => [u]
  | x :: l => if x.name = u.name ∧ x.face = u.face then { x with adding := u.adding, cost := u.cost } :: l else x :: addFibUpd u l

/-- What the FibUpdater keeps during a batch (fib-updater.hpp): m_updatesForBatchFaceId, m_updatesForNonBatchFaceId, m_inheritedRoutes. -/
structure Plan where
  batch : List FibUpd
  other : List FibUpd
  inherited : List (Bool × Name × Route)
deriving DecidableEq, Repr

def emitOne (batchFace : Nat) (p : Plan) : Emit → Plan
  | .fib n f c =>
    let u : FibUpd := ⟨n, f, c.getD 0, c.isSome⟩
    if f = batchFace then { p with batch := addFibUpd u p.batch } else { p with other := addFibUpd u p.other }
  | .inh n a r => { p with inherited := p.inherited ++ [(a, n, r)] }

/-- `computeUpdates` (fib-updater.cpp:50-59, 64-86). -/
def plan (tie : List Route → Nat) (t : List Entry) (u : Update) : Except Fault Plan :=
  match u.action with
  | .register => (forRegistration t u.name u.route).map (fun l => l.foldl (emitOne u.route.face) ⟨[], [], []⟩)
  | .unregister => .ok ((forUnregistration tie t u.name u.route).foldl (emitOne u.route.face) ⟨[], [], []⟩)
  | .removeFace => .ok { (forUnregistration tie t u.name u.route).foldl (emitOne u.route.face) ⟨[], [], []⟩ with batch := [] }

/-- One round of `modifyInheritedRoutes` (rib.cpp:454-469) with addInheritedRoute and removeInheritedRoute of rib-entry.cpp:123-133. -/
def modifyInheritedOne (t : List Entry) (a : Bool) (n : Name) (r : Route) : Except Fault (List Entry) :=
  match get t n with
  | none => .error .inheritedEntry
  | some e => .ok (put t { e with inherited := if a then e.inherited ++ [r] else e.inherited.filter (·.face != r.face) })

/-- `modifyInheritedRoutes` (rib.cpp:451-470). -/
def modifyInherited (t : List Entry) : List (Bool × Name × Route) → Except Fault (List Entry)
  | [] => .ok t
  | x :: l => do
    let t ← modifyInheritedOne t x.1 x.2.1 x.2.2
    modifyInherited t l

/-- `onFibUpdateSuccess` (rib.cpp:407-425): the RIB itself is changed. -/
def commit (b : Rib) (u : Update) (inherited : List (Bool × Name × Route)) : Except Fault Rib := do
  let b ← if u.action = .register then .ok (insert b u.name u.route) else erase b u.name u.route
  let t ← modifyInherited b.table inherited
  .ok { b with table := t }

end Verif.Rib
