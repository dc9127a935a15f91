import Verif.Nt.Spec
import Verif.Packet

/-
Model of the tables that live on the name tree: FIB (daemon/table/fib.cpp, fib-entry.cpp), PIT (pit.cpp, pit-entry.cpp),
Strategy Choice (strategy-choice.cpp), Measurements (measurements.cpp) and the cleanup on face removal (cleanup.cpp).

Conventions:
* the tables are stored in the name tree of `Verif.Nt`, so a pointer to a table entry is the name of its node (and, for a PIT
  entry, its selectors); a violated BOOST_ASSERT or a dangling pointer is the result `none`;
* a `Face&` is a face id (faces and ids are in bijection, see `Verif.Face`);
* time is a number of nanoseconds; the scheduler is represented by the due time stored with the entry;
* `StrategyInfo` items are represented by the strategy type that stored them.
-/
namespace Verif.Tb

open Nt (Tree Nte Cfg Options maxDepth tblOf)

abbrev FaceId := Nat
abbrev Time := Nat

/-- An Interest with the fields that forwarding looks at. `lifetime` in nanoseconds. -/
structure FwInterest extends Interest where
  nonce : Nat := 0
  lifetime : Time := 4000000000
  hopLimit : Option Nat := none
  /-- delegations of the ForwardingHint -/
  hints : List Name := []
  /-- NextHopFaceId tag -/
  nextHop : Option FaceId := none
deriving DecidableEq, Repr, Inhabited

/-- `fib::NextHop` (fib-entry.hpp:49-79). -/
structure NextHop where
  face : FaceId
  cost : Nat
deriving DecidableEq, Repr, Inhabited

/-- `StrategyInfoHost::m_items` (strategy-info-host.hpp:98): one number per item, the type of the strategy that stored it. -/
abbrev Info := List Nat

/-- `pit::InRecord` (pit-entry.hpp:43-120). -/
structure InRec where
  face : FaceId
  nonce : Nat := 0
  renewed : Time := 0
  expiry : Time := 0
  interest : FwInterest := {name := []}
  info : Info := []
deriving DecidableEq, Repr, Inhabited

/-- `pit::OutRecord` (pit-entry.hpp:122-175); `nack` is the reason in the recorded Nack. -/
structure OutRec where
  face : FaceId
  nonce : Nat := 0
  renewed : Time := 0
  expiry : Time := 0
  nack : Option Nat := none
  info : Info := []
deriving DecidableEq, Repr, Inhabited

/-- `pit::Entry` (pit-entry.hpp:190-396). -/
structure PitEntry where
  interest : FwInterest
  ins : List InRec := []
  outs : List OutRec := []
  info : Info := []
deriving DecidableEq, Repr, Inhabited

/-- `measurements::Entry` (measurements-entry.hpp:38-66); `cleanupAt` is when the event `m_cleanup` is due. -/
structure MeasEntry where
  expiry : Time
  cleanupAt : Time
  info : Info := []
deriving DecidableEq, Repr, Inhabited

/-- The table entries attached to a name-tree entry (name-tree-entry.hpp:168-177). The FIB entry is its nexthop list, the
Strategy Choice entry the instance name of its strategy. -/
structure Tbl where
  fib : Option (List NextHop) := none
  pit : List PitEntry := []
  meas : Option MeasEntry := none
  sc : Option Name := none
deriving DecidableEq, Repr, Inhabited

/-- `hasTableEntries` (name-tree-entry.cpp:62-69). -/
def Tbl.has (x : Tbl) : Bool := x.fib.isSome || !x.pit.isEmpty || x.meas.isSome || x.sc.isSome

/-- Outcome of `Strategy::create` (daemon/fw/strategy.cpp:91-105): an instance, a null pointer, or `std::invalid_argument`. -/
inductive Created
  | ok (instanceName : Name)
  | notRegistered
  | exception
deriving DecidableEq, Repr

/-- Parameters: hashing, resizing, `std::sort` by cost, and the strategy registry. -/
structure Env where
  ch : Component → Nat
  opts : Options
  /-- `std::sort` by cost (fib-entry.cpp:76-81) is not stable: any permutation in cost order. -/
  sort : List NextHop → List NextHop
  sort_perm : ∀ l, (sort l).Perm l
  sort_le : ∀ l, (sort l).Pairwise (fun a b => a.cost ≤ b.cost)
  create : Name → Created
  /-- the registry entry `Strategy::find` gives for an instance name (strategy.cpp:47-83), `none`: null -/
  styp : Name → Option Nat

abbrev Env.cfg (e : Env) : Cfg Tbl := { ch := e.ch, opts := e.opts, has := Tbl.has, empty := {}, has_empty := rfl }

/-- Name tree and tables; `m_nItems` of each table; the clock. -/
structure Tables where
  nt : Tree Tbl
  nFib : Nat := 0
  nPit : Nat := 0
  nMeas : Nat := 0
  nSc : Nat := 0
  now : Time := 0

/-- The tables attached at a name; no node counts as no entries. -/
def view (e : Env) (s : Tables) (n : Name) : Tbl := (tblOf e.cfg s.nt n).getD {}

/-! ### FIB -/

def hasFib (_ : Name) (x : Nte Tbl) : Bool := x.tbl.fib.isSome

/-- `Fib::findLongestPrefixMatch(Name)` (fib.cpp:34-59): prefix and nexthops of the entry, or the built-in empty entry. -/
def fibLpm (e : Env) (s : Tables) (name : Name) : Name × List NextHop :=
  match Nt.lpm e.cfg s.nt hasFib name with
  | some n => (n, (view e s n).fib.getD [])
  | none => ([], [])

/-- PIT node: the name without an implicit digest, at most `maxDepth` components (pit.cpp:52-56). -/
def hasDigest (name : Name) : Bool := name.getLast?.any Component.isImplicitDigest
def pitDepth (name : Name) : Nat := min (name.length - (hasDigest name).toNat) maxDepth
def pitNode (name : Name) : Name := name.take (pitDepth name)

/-- `Fib::findLongestPrefixMatch(pit::Entry)` (fib.cpp:62-66). -/
def fibLpmPit (e : Env) (s : Tables) (pitName : Name) : Option (Name × List NextHop) :=
  (Nt.lpmPit e.cfg s.nt hasFib pitName (pitNode pitName)).map fun
    | some n => (n, (view e s n).fib.getD [])
    | none => ([], [])

/-- `Fib::findLongestPrefixMatch(measurements::Entry)` (fib.cpp:68-72) for the entry at `n`. -/
def fibLpmMeas (e : Env) (s : Tables) (n : Name) : Option (Name × List NextHop) :=
  (Nt.lpmEntry e.cfg s.nt hasFib (n.length + 1) (some n)).map fun
    | some n => (n, (view e s n).fib.getD [])
    | none => ([], [])

/-- `Fib::insert` (fib.cpp:84-96); the flag says whether the entry is new. -/
def fibInsert (e : Env) (s : Tables) (p : Name) : Option (Tables × Bool) := do
  let t ← Nt.lookup e.cfg s.nt p p.length
  if ((tblOf e.cfg t p).getD {}).fib.isSome then some ({ s with nt := t }, false)
  else
    let t ← Nt.setTbl e.cfg t p (fun x => { x with fib := some [] })
    some ({ s with nt := t, nFib := s.nFib + 1 }, true)

/-- `Fib::erase(const Name&)` (fib.cpp:98-117). -/
def fibErase (e : Env) (s : Tables) (p : Name) : Option Tables :=
  if (Nt.findExact e.cfg s.nt p p.length).isNone then some s
  else do
    let t ← Nt.setTbl e.cfg s.nt p (fun x => { x with fib := none })
    let r ← Nt.eraseIfEmpty e.cfg t p true
    some { s with nt := r.1, nFib := s.nFib - 1 }

/-- `Entry::addOrUpdateNextHop` (fib-entry.cpp:48-63): the new list, and for a new nexthop what the returned iterator
designates. The iterator was taken before the sort, so it designates a position: the last one. -/
def addOrUpdateNextHop (e : Env) (l : List NextHop) (face : FaceId) (cost : Nat) : List NextHop × Option NextHop :=
  match l.findIdx? (·.face == face) with
  | some i => (e.sort (l.set i ⟨face, cost⟩), none)
  | none => (e.sort (l ++ [⟨face, cost⟩]), (e.sort (l ++ [⟨face, cost⟩]))[l.length]?)

/-- `Fib::addOrUpdateNextHop` (fib.cpp:130-136) on the entry at `p`, which must exist; the second component is the
`afterNewNextHop` notification. -/
def fibSet (e : Env) (s : Tables) (p : Name) (face : FaceId) (cost : Nat) : Option (Tables × Option (Name × NextHop)) := do
  let l ← (view e s p).fib
  let t ← Nt.setTbl e.cfg s.nt p (fun x => { x with fib := some (addOrUpdateNextHop e l face cost).1 })
  some ({ s with nt := t }, (addOrUpdateNextHop e l face cost).2.map (p, ·))

inductive RmNextHop
  | noSuchNextHop | entryRemoved | nextHopRemoved
deriving DecidableEq, Repr

/-- `Fib::removeNextHop` (fib.cpp:138-154, fib-entry.cpp:65-74) on the entry at `p`, which must exist. The name-tree node is
left in place. -/
def fibUnset (e : Env) (s : Tables) (p : Name) (face : FaceId) : Option (Tables × RmNextHop) := do
  let l ← (view e s p).fib
  let l' := l.eraseP (·.face == face)
  if l'.length = l.length then some (s, .noSuchNextHop)
  else if l'.isEmpty then
    let t ← Nt.setTbl e.cfg s.nt p (fun x => { x with fib := none })
    some ({ s with nt := t, nFib := s.nFib - 1 }, .entryRemoved)
  else
    let t ← Nt.setTbl e.cfg s.nt p (fun x => { x with fib := some l' })
    some ({ s with nt := t }, .nextHopRemoved)

/-! ### PIT -/

/-- `Entry::canMatch` (pit-entry.cpp:67-78): the first `k` components are known to be equal and not compared. -/
def canMatch (k : Nat) (i : Interest) (p : PitEntry) : Bool :=
  p.interest.name.drop k == i.name.drop k && p.interest.canBePrefix == i.canBePrefix && p.interest.mustBeFresh == i.mustBeFresh

/-- The entry found in a node's list by `findOrInsert` (pit.cpp:70-79). -/
def findIn (l : List PitEntry) (i : Interest) : Option PitEntry := l.find? (canMatch (pitDepth i.name) i)

/-- `Pit::find` (pit.hpp:99-107, pit.cpp:49-90 with allowInsert = false). Outer `none`: the assertion at pit.cpp:82. -/
def pitFind (e : Env) (s : Tables) (i : Interest) : Option (Option PitEntry) :=
  match Nt.findExact e.cfg s.nt i.name (pitDepth i.name) with
  | none => some none
  | some (_, x) =>
    match findIn x.tbl.pit i with
    | some p => some (some p)
    | none => if x.isEmpty e.cfg then none else some none

/-- `Pit::insert` (pit.hpp:109-118, pit.cpp:49-90 with allowInsert = true). -/
def pitInsert (e : Env) (s : Tables) (i : FwInterest) : Option (Tables × PitEntry × Bool) := do
  let t ← Nt.lookup e.cfg s.nt i.name (pitDepth i.name)
  match findIn ((tblOf e.cfg t (pitNode i.name)).getD {}).pit i.toInterest with
  | some p => some ({ s with nt := t }, p, false)
  | none =>
    let t ← Nt.setTbl e.cfg t (pitNode i.name) (fun x => { x with pit := x.pit ++ [{ interest := i }] })
    some ({ s with nt := t, nPit := s.nPit + 1 }, { interest := i }, true)

/-- `std::vector` removal in `erasePitEntry` (name-tree-entry.cpp:96-109): overwrite with the last one, drop the last one. -/
def swapErase (l : List PitEntry) (j : Nat) : List PitEntry := (l.set j (l.getLast?.getD default)).dropLast

/-- Designating a live PIT entry through a pointer: the position in its node. The pointer is represented by the entry's
selectors. -/
def sameKey (i : Interest) (p : PitEntry) : Bool := p.interest.toInterest == i

/-- `Pit::erase` (pit.cpp:114-125, pit.hpp:135-140). -/
def pitErase (e : Env) (s : Tables) (i : Interest) : Option Tables := do
  let j ← (view e s (pitNode i.name)).pit.findIdx? (sameKey i)
  let t ← Nt.setTbl e.cfg s.nt (pitNode i.name) (fun x => { x with pit := swapErase x.pit j })
  let r ← Nt.eraseIfEmpty e.cfg t (pitNode i.name) true
  some { s with nt := r.1, nPit := s.nPit - 1 }

/-- `FaceRecord::update` (pit-entry.cpp:32-42): the expiry time. -/
def tenDays : Time := 864000000000000
def recExpiry (now : Time) (i : FwInterest) : Time := now + min i.lifetime tenDays

/-- `Entry::insertOrUpdateInRecord` (pit-entry.cpp:87-100, 44-49). -/
def insertOrUpdateIn (p : PitEntry) (face : FaceId) (i : FwInterest) (now : Time) : PitEntry :=
  let l := if p.ins.any (·.face == face) then p.ins else { face := face } :: p.ins
  { p with ins := l.map fun r =>
      if r.face = face then { r with nonce := i.nonce, renewed := now, expiry := recExpiry now i, interest := i } else r }

/-- `Entry::insertOrUpdateOutRecord` (pit-entry.cpp:109-122): an earlier Nack on the record is kept. -/
def insertOrUpdateOut (p : PitEntry) (face : FaceId) (i : FwInterest) (now : Time) : PitEntry :=
  let l := if p.outs.any (·.face == face) then p.outs else { face := face } :: p.outs
  { p with outs := l.map fun r =>
      if r.face = face then { r with nonce := i.nonce, renewed := now, expiry := recExpiry now i } else r }

/-- `findInRecord` then `deleteInRecord` (pit-entry.hpp:287-295). -/
def deleteIn (p : PitEntry) (face : FaceId) : PitEntry := { p with ins := p.ins.eraseP (·.face == face) }
/-- `clearInRecords` (pit-entry.hpp:297-304). -/
def clearIns (p : PitEntry) : PitEntry := { p with ins := [] }
/-- `deleteOutRecord` (pit-entry.cpp:124-132). -/
def deleteOut (p : PitEntry) (face : FaceId) : PitEntry := { p with outs := p.outs.eraseP (·.face == face) }
/-- `OutRecord::setIncomingNack` (pit-entry.cpp:51-60) on the record of `face`. -/
def setNack (p : PitEntry) (face : FaceId) (nonce reason : Nat) : PitEntry :=
  { p with outs := p.outs.map fun r => if r.face = face ∧ r.nonce = nonce then { r with nack := some reason } else r }
/-- `Pit::deleteInOutRecords` (pit.cpp:127-139). -/
def deleteInOut (p : PitEntry) (face : FaceId) : PitEntry := deleteOut (deleteIn p face) face

/-- Writing through a pointer to the PIT entry with these selectors; it must be live. -/
def pitMod (e : Env) (s : Tables) (i : Interest) (f : PitEntry → PitEntry) : Option Tables := do
  let _ ← (view e s (pitNode i.name)).pit.find? (sameKey i)
  let t ← Nt.setTbl e.cfg s.nt (pitNode i.name) (fun x => { x with pit := x.pit.map (fun p => if sameKey i p then f p else p) })
  some { s with nt := t }

def hasPit (_ : Name) (x : Nte Tbl) : Bool := !x.tbl.pit.isEmpty

/-- `Pit::findAllDataMatches` (pit.cpp:92-112). -/
def pitDataMatches (e : Env) (s : Tables) (d : Data) : Option (List PitEntry) :=
  (Nt.findAllMatches e.cfg s.nt hasPit d.name).map fun l =>
    l.flatMap (fun n => (view e s n).pit.filter (fun p => p.interest.matchesData d))

/-! ### Strategy Choice -/

def hasSc (_ : Name) (x : Nte Tbl) : Bool := x.tbl.sc.isSome

/-- `findEffectiveStrategy(Name)` (strategy-choice.cpp:176-189); a missing root entry is an assertion failure. -/
def scEffective (e : Env) (s : Tables) (name : Name) : Option Name :=
  (Nt.lpm e.cfg s.nt hasSc name).bind (fun n => (view e s n).sc)

/-- `findEffectiveStrategy(pit::Entry)` (strategy-choice.cpp:191-195). -/
def scEffectivePit (e : Env) (s : Tables) (pitName : Name) : Option Name :=
  (Nt.lpmPit e.cfg s.nt hasSc pitName (pitNode pitName)).bind (fun r => r.bind (fun n => (view e s n).sc))

/-- `findEffectiveStrategy(measurements::Entry)` (strategy-choice.cpp:197-201). -/
def scEffectiveMeas (e : Env) (s : Tables) (n : Name) : Option Name :=
  (Nt.lpmEntry e.cfg s.nt hasSc (n.length + 1) (some n)).bind (fun r => r.bind (fun n => (view e s n).sc))

/-- `clearStrategyInfo` (strategy-choice.cpp:203-220). -/
def clearPitInfo (p : PitEntry) : PitEntry :=
  { p with info := [], ins := p.ins.map (fun r => { r with info := [] }), outs := p.outs.map (fun r => { r with info := [] }) }
def clearInfo (x : Tbl) : Tbl :=
  { x with pit := x.pit.map clearPitInfo, meas := x.meas.map (fun m => { m with info := [] }) }

/-- `Strategy::areSameType` (strategy.cpp:107-111). -/
def areSameType (e : Env) (a b : Name) : Bool := e.styp a == e.styp b

/-- Sub-tree selector of `changeStrategy` (strategy-choice.cpp:242-250). -/
def changeSel (root : Name) (n : Name) (x : Nte Tbl) : Bool × Bool :=
  if n = root then (true, true) else if x.tbl.sc.isSome then (false, false) else (true, true)

/-- A loop writing to name-tree entries one after another. -/
def forEach (c : Cfg Tbl) (f : Tbl → Tbl) : List Name → Tree Tbl → Option (Tree Tbl)
  | [], t => some t
  | n :: l, t => (Nt.setTbl c t n f).bind (forEach c f l)

/-- `changeStrategy` (strategy-choice.cpp:222-254). The enumeration is taken before the loop that clears, which does not
change what it visits. -/
def changeStrategy (e : Env) (t : Tree Tbl) (p old new : Name) : Option (Tree Tbl) :=
  if areSameType e old new then some t
  else (Nt.partialEnumerate e.cfg t (changeSel p) (2 * t.size + 1) p).bind (fun l => forEach e.cfg clearInfo l t)

inductive ScResult
  | ok | notRegistered | exception | depthExceeded
deriving DecidableEq, Repr

/-- `StrategyChoice::setDefaultStrategy` (strategy-choice.cpp:51-63). -/
def scDefault (e : Env) (s : Tables) (strategy : Name) : Option Tables :=
  match e.create strategy with
  | .ok inst => do
    let t ← Nt.lookup e.cfg s.nt [] 0
    let t ← Nt.setTbl e.cfg t [] (fun x => { x with sc := some inst })
    some { s with nt := t, nSc := s.nSc + 1 }
  | _ => none

/-- `StrategyChoice::insert` (strategy-choice.cpp:65-110). -/
def scInsert (e : Env) (s : Tables) (p strategy : Name) : Option (Tables × ScResult) :=
  if p.length > maxDepth then some (s, .depthExceeded)
  else
    match e.create strategy with
    | .exception => some (s, .exception)
    | .notRegistered => some (s, .notRegistered)
    | .ok inst => do
      let t ← Nt.lookup e.cfg s.nt p p.length
      let s := { s with nt := t }
      match (view e s p).sc with
      | some cur =>
        if cur = inst then some (s, .ok)
        else
          let t ← changeStrategy e t p cur inst
          let t ← Nt.setTbl e.cfg t p (fun x => { x with sc := some inst })
          some ({ s with nt := t }, .ok)
      | none =>
        let old ← scEffective e s p
        let t ← Nt.setTbl e.cfg t p (fun x => { x with sc := some inst })
        let t ← changeStrategy e t p old inst
        some ({ s with nt := t, nSc := s.nSc + 1 }, .ok)

/-- `StrategyChoice::erase` (strategy-choice.cpp:135-158). -/
def scErase (e : Env) (s : Tables) (p : Name) : Option Tables :=
  if p.length = 0 then none
  else if (Nt.findExact e.cfg s.nt p p.length).isNone then some s
  else
    match (view e s p).sc with
    | none => some s
    | some old => do
      let parent ← scEffective e s p.dropLast
      let t ← changeStrategy e s.nt p old parent
      let t ← Nt.setTbl e.cfg t p (fun x => { x with sc := none })
      let r ← Nt.eraseIfEmpty e.cfg t p true
      some { s with nt := r.1, nSc := s.nSc - 1 }

/-- `StrategyChoice::get` (strategy-choice.cpp:160-174). -/
def scGet (e : Env) (s : Tables) (p : Name) : Option Name :=
  (Nt.findExact e.cfg s.nt p p.length).bind (fun x => x.2.tbl.sc)

/-! ### Measurements -/

/-- `getInitialLifetime` (measurements.hpp:141-145): 4 s. -/
def initialLifetime : Time := 4000000000

/-- `Measurements::get(name_tree::Entry&)` (measurements.cpp:39-55). -/
def measGetNte (e : Env) (s : Tables) (n : Name) : Option Tables :=
  if (view e s n).meas.isSome then some s
  else do
    let t ← Nt.setTbl e.cfg s.nt n (fun x => { x with meas := some ⟨s.now + initialLifetime, s.now + initialLifetime, []⟩ })
    some { s with nt := t, nMeas := s.nMeas + 1 }

/-- `Measurements::get(const Name&)` (measurements.cpp:57-62). -/
def measGet (e : Env) (s : Tables) (name : Name) : Option Tables := do
  let t ← Nt.lookup e.cfg s.nt name (min name.length maxDepth)
  measGetNte e { s with nt := t } (name.take (min name.length maxDepth))

/-- `Measurements::get(const fib::Entry&)` (measurements.cpp:64-69, name-tree.cpp:65-78): the entry at `p`, or for the
built-in empty entry the root. -/
def measGetFib (e : Env) (s : Tables) (p : Name) : Option Tables :=
  if (view e s p).fib.isSome then measGetNte e s p
  else if p = [] then do
    let t ← Nt.lookup e.cfg s.nt [] 0
    measGetNte e { s with nt := t } []
  else none

/-- The node `Measurements::get(const pit::Entry&)` uses (name-tree.cpp:80-97): the full name for a name ending in a digest. -/
def measPitNode (name : Name) : Name := if hasDigest name ∧ name.length ≤ maxDepth then name else pitNode name

/-- `Measurements::get(const pit::Entry&)` (measurements.cpp:71-76, name-tree.cpp:80-97) for the live entry with these
selectors. -/
def measGetPit (e : Env) (s : Tables) (i : Interest) : Option Tables := do
  let _ ← (view e s (pitNode i.name)).pit.find? (sameKey i)
  if hasDigest i.name ∧ i.name.length ≤ maxDepth then
    let t ← Nt.lookup e.cfg s.nt i.name i.name.length
    measGetNte e { s with nt := t } i.name
  else measGetNte e s (pitNode i.name)

/-- `Measurements::getParent` (measurements.cpp:78-89) of the entry at `n`. -/
def measGetParent (e : Env) (s : Tables) (n : Name) : Option Tables := do
  let _ ← (view e s n).meas
  if n = [] then some s
  else
    let x ← s.nt.find e.ch n
    let p ← x.parent
    measGetNte e s p

/-- `Measurements::extendLifetime` (measurements.cpp:125-139) of the entry at `n`. -/
def measExtend (e : Env) (s : Tables) (n : Name) (lifetime : Time) : Option Tables := do
  let m ← (view e s n).meas
  if m.expiry ≥ s.now + lifetime then some s
  else
    let t ← Nt.setTbl e.cfg s.nt n (fun x => { x with meas := some { m with expiry := s.now + lifetime, cleanupAt := s.now + lifetime } })
    some { s with nt := t }

/-- `Measurements::cleanup` (measurements.cpp:141-150), fired by the scheduler at or after its due time; before that the event
does not fire. -/
def measCleanup (e : Env) (s : Tables) (n : Name) : Option Tables := do
  let m ← (view e s n).meas
  if s.now < m.cleanupAt then some s
  else
    let t ← Nt.setTbl e.cfg s.nt n (fun x => { x with meas := none })
    let r ← Nt.eraseIfEmpty e.cfg t n true
    some { s with nt := r.1, nMeas := s.nMeas - 1 }

/-- `Measurements::findLongestPrefixMatch` (measurements.cpp:91-116) with a predicate; a search for more than `maxDepth`
components is a search for the first `maxDepth`. -/
def measLpm (e : Env) (s : Tables) (pred : Name → MeasEntry → Bool) (name : Name) : Option Name :=
  Nt.lpm e.cfg s.nt (fun n x => x.tbl.meas.any (pred n)) (name.take maxDepth)

/-! ### StrategyInfo stored by the strategy in charge -/

def addInfo (ty : Nat) (i : Info) : Info := if ty ∈ i then i else ty :: i

/-- The effective strategy of a PIT entry stores its information on the entry and its records
(`insertStrategyInfo`, strategy-info-host.hpp:57-74). Strategies act on a PIT entry only from the triggers of forwarder.cpp,
which all dispatch to `findEffectiveStrategy(*pitEntry)`. -/
def pitWrite (e : Env) (s : Tables) (i : Interest) : Option Tables := do
  let inst ← scEffectivePit e s i.name
  let ty ← e.styp inst
  pitMod e s i (fun p => { p with
    info := addInfo ty p.info
    ins := p.ins.map (fun r => { r with info := addInfo ty r.info })
    outs := p.outs.map (fun r => { r with info := addInfo ty r.info }) })

/-- A strategy reaches measurements entries through `MeasurementsAccessor`, which hands out only entries whose effective
strategy it is (measurements-accessor.cpp:43-55). -/
def measWrite (e : Env) (s : Tables) (n : Name) : Option Tables := do
  let m ← (view e s n).meas
  let inst ← scEffectiveMeas e s n
  let ty ← e.styp inst
  let t ← Nt.setTbl e.cfg s.nt n (fun x => { x with meas := some { m with info := addInfo ty m.info } })
  some { s with nt := t }

/-! ### Face removal -/

/-- What the first loop of `cleanupOnFaceRemoval` does to a name-tree entry (cleanup.cpp:37-46): `removeNextHop` on the FIB
entry, `deleteInOutRecords` on each PIT entry. -/
def cleanTbl (face : FaceId) (x : Tbl) : Tbl :=
  { x with
    fib := x.fib.bind (fun l =>
      if (l.eraseP (·.face == face)).length = l.length then some l
      else if (l.eraseP (·.face == face)).isEmpty then none else some (l.eraseP (·.face == face)))
    pit := x.pit.map (deleteInOut · face) }

/-- Insertion into the `std::multimap` keyed by name length, listed in reverse iteration order (cleanup.cpp:35, 48-50, 54):
longer names first, among equal lengths the latest insertion first. -/
def lenInsert (n : Name) : List Name → List Name
  | [] => [n]
  | m :: l => if m.length > n.length then m :: lenInsert n l else n :: m :: l

/-- The second loop (cleanup.cpp:53-56). -/
def eraseAll (c : Cfg Tbl) : List Name → Tree Tbl → Option (Tree Tbl)
  | [], t => some t
  | n :: l, t => (Nt.eraseIfEmpty c t n false).bind (fun r => eraseAll c l r.1)

/-- All name-tree entries (a `for` loop over the NameTree). -/
def allNodes (e : Env) (t : Tree Tbl) : List Name := Nt.fullFrom e.ch t (fun _ _ => true) (t.size + 1) none

/-- `cleanupOnFaceRemoval` (cleanup.cpp:32-61), with the assertion at its end. The enumeration is taken before the loop, whose
writes do not change what it visits. -/
def cleanup (e : Env) (s : Tables) (face : FaceId) : Option Tables := do
  let nodes := allNodes e s.nt
  let t ← forEach e.cfg (cleanTbl face) nodes s.nt
  let gone := nodes.filter (fun n => (view e s n).fib.isSome && ((tblOf e.cfg t n).getD {}).fib.isNone)
  let maybeEmpty := nodes.filter (fun n => !((tblOf e.cfg t n).getD {}).has)
  let t ← eraseAll e.cfg (maybeEmpty.foldl (fun l n => lenInsert n l) []) t
  if (allNodes e t).any (fun n => (t.find e.ch n).any (Nte.isEmpty e.cfg)) then none
  else some { s with nt := t, nFib := s.nFib - gone.length }

/-! ### Histories -/

inductive Op
  | fibInsert (p : Name)
  | fibErase (p : Name)
  | fibSet (p : Name) (face : FaceId) (cost : Nat)
  | fibUnset (p : Name) (face : FaceId)
  | pitInsert (i : FwInterest)
  | pitErase (i : Interest)
  | pitIn (i : Interest) (face : FaceId) (nonce : Nat) (lifetime : Time)
  | pitOut (i : Interest) (face : FaceId) (nonce : Nat) (lifetime : Time)
  | pitDelIn (i : Interest) (face : FaceId)
  | pitClearIn (i : Interest)
  | pitDelOut (i : Interest) (face : FaceId)
  | pitNack (i : Interest) (face : FaceId) (nonce reason : Nat)
  | pitWrite (i : Interest)
  | scInsert (p strategy : Name)
  | scErase (p : Name)
  | measGet (name : Name)
  | measGetFib (p : Name)
  | measGetPit (i : Interest)
  | measGetParent (n : Name)
  | measExtend (n : Name) (lifetime : Time)
  | measCleanup (n : Name)
  | measWrite (n : Name)
  | cleanup (face : FaceId)
  | tick (dt : Time)

/-- One operation; `none`: the caller broke the operation's contract (or an assertion failed). -/
def Op.run (e : Env) (s : Tables) : Op → Option Tables
  | .fibInsert p => (Tb.fibInsert e s p).map (·.1)
  | .fibErase p => Tb.fibErase e s p
  | .fibSet p f c => (Tb.fibSet e s p f c).map (·.1)
  | .fibUnset p f => (Tb.fibUnset e s p f).map (·.1)
  | .pitInsert i => (Tb.pitInsert e s i).map (·.1)
  | .pitErase i => Tb.pitErase e s i
  | .pitIn i f nonce lt => pitMod e s i (fun p => insertOrUpdateIn p f { toInterest := i, nonce := nonce, lifetime := lt } s.now)
  | .pitOut i f nonce lt => pitMod e s i (fun p => insertOrUpdateOut p f { toInterest := i, nonce := nonce, lifetime := lt } s.now)
  | .pitDelIn i f => pitMod e s i (deleteIn · f)
  | .pitClearIn i => pitMod e s i clearIns
  | .pitDelOut i f => pitMod e s i (deleteOut · f)
  | .pitNack i f nonce r => pitMod e s i (setNack · f nonce r)
  | .pitWrite i => Tb.pitWrite e s i
  | .scInsert p st => (Tb.scInsert e s p st).map (·.1)
  | .scErase p => Tb.scErase e s p
  | .measGet n => Tb.measGet e s n
  | .measGetFib p => Tb.measGetFib e s p
  | .measGetPit i => Tb.measGetPit e s i
  | .measGetParent n => Tb.measGetParent e s n
  | .measExtend n lt => Tb.measExtend e s n lt
  | .measCleanup n => Tb.measCleanup e s n
  | .measWrite n => Tb.measWrite e s n
  | .cleanup f => Tb.cleanup e s f
  | .tick dt => some { s with now := s.now + dt }

def run (e : Env) : Tables → List Op → Option Tables
  | s, [] => some s
  | s, op :: ops => (op.run e s).bind (fun s => run e s ops)

/-- Empty tables with a default strategy, as the forwarder's constructor leaves them (forwarder.cpp:51-81). -/
def init (e : Env) (defaultStrategy : Name) : Option Tables := scDefault e { nt := Nt.Hashtable.init e.opts } defaultStrategy

/-- A state some history leads to. -/
def Reachable (e : Env) (dflt : Name) (s : Tables) : Prop := ∃ s0 ops, init e dflt = some s0 ∧ run e s0 ops = some s

end Verif.Tb
