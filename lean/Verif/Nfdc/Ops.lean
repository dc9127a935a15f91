import Verif.Nfdc.Args

/-! What nfdc's face and route commands do: which requests they send to NFD, depending on the answers, and their exit codes (tools/nfdc/face-helpers.cpp,
face-module.cpp, rib-module.cpp). NFD and the resolver of host names are given by a `World`, whose answers may depend on everything asked before in any way. Text
output is left out; so is how arguments are taken out of `CommandArguments`. -/
namespace Verif.Nfdc.Ops

/-- A FaceUri: its scheme and a number for the rest. -/
structure Uri where
  scheme : String
  rest : Nat
deriving DecidableEq, Repr

/-- `FacePersistency`. -/
inductive Pers | none | onDemand | persistent | permanent
deriving DecidableEq, Repr

/-- `FaceQueryFilter`, the fields used. -/
structure Filter where
  id : Option Nat := none
  remote : Option Uri := none
  localUri : Option Uri := none
  scheme : Option String := none
deriving DecidableEq, Repr

/-- `FaceStatus`, the fields used. -/
structure Status where
  id : Nat
  remote : Uri
  localUri : Uri
deriving DecidableEq, Repr

/-- `ControlParameters` for faces/create and faces/update. -/
structure Params where
  id : Option Nat := none
  uri : Option Uri := none
  localUri : Option Uri := none
  pers : Option Pers := none
  reliability : Option Bool := none
  marking : Option Bool := none
  interval : Option Nat := none
  threshold : Option Nat := none
  mtu : Option Nat := none
deriving DecidableEq, Repr

/-- The body of an answer to faces/create. -/
structure Info where
  id : Nat
  uri : Uri
  pers : Pers
  reliability : Bool
  marking : Bool
  mtu : Option Nat
deriving DecidableEq, Repr

/-- An answer to faces/create or faces/update. `fail`: any code but 200 (including timeouts), with the body if it can be decoded. -/
inductive Resp
  | ok (i : Info)
  | fail (code : Nat) (body : Option Info)
deriving DecidableEq, Repr

/-- `ControlParameters` for rib/register. -/
structure Route where
  name : Nat
  face : Nat
  origin : Nat
  cost : Nat
  flags : Nat
  expires : Option Nat
deriving DecidableEq, Repr

/-- A row of the RIB dataset. -/
structure Row where
  name : Nat
  face : Nat
  origin : Nat
deriving DecidableEq, Repr

/-- Something asked, and the answer. For commands on routes and faces/destroy: `true` is code 200. -/
inductive Call
  | canon (u : Uri) (r : Option Uri)
  | query (f : Filter) (r : Option (List Status))
  | create (p : Params) (r : Resp)
  | update (p : Params) (r : Resp)
  | destroy (id : Nat) (r : Bool)
  | register (p : Route) (r : Bool)
  | unregister (p : Row) (r : Bool)
  | rib (r : Option (List Row))
deriving DecidableEq, Repr

abbrev Hist := List Call

/-- How the rest of the world answers, given what was asked before. -/
structure World where
  canCanonize : String → Bool
  canon : Hist → Uri → Option Uri
  query : Hist → Filter → Option (List Status)
  create : Hist → Params → Resp
  update : Hist → Params → Resp
  destroy : Hist → Nat → Bool
  register : Hist → Route → Bool
  unregister : Hist → Row → Bool
  rib : Hist → Option (List Row)

/-- `FindFace::Code` (face-helpers.hpp:50-58). -/
inductive Code | ok | error | notFound | canonizeError | ambiguous
deriving DecidableEq, Repr

def Code.num : Code → Nat
  | .ok => 0
  | .error => 1
  | .notFound => 3
  | .canonizeError => 4
  | .ambiguous => 5

/-- `canonize` (face-helpers.cpp:181-193). -/
def canonize (x : World) (h : Hist) (u : Uri) : Hist × Option Uri := (h ++ [.canon u (x.canon h u)], x.canon h u)

/-- `FindFace::canonize` (face-helpers.cpp:106-125). -/
def findCanonize (x : World) (h : Hist) (u : Uri) : Hist × Option Uri :=
  if x.canCanonize u.scheme then canonize x h u else (h, some u)

/-- `FindFace::query` and what is made of the results (face-helpers.cpp:92-103, 127-148). -/
def findQuery (x : World) (h : Hist) (f : Filter) (multi : Bool) : Hist × Code × List Status :=
  let r := x.query h f
  let h := h ++ [.query f r]
  match r with
  | none => (h, .error, [])
  | some l =>
    if l.length = 0 then (h, .notFound, l)
    else if l.length > 1 ∧ multi = false then (h, .ambiguous, l)
    else (h, .ok, l)

/-- `FindFace::execute(const FaceQueryFilter&, bool)` (face-helpers.cpp:69-104). -/
def findFace (x : World) (h : Hist) (f : Filter) (multi : Bool) : Hist × Code × List Status :=
  match f.remote with
  | none =>
    match f.localUri with
    | none => findQuery x h f multi
    | some l =>
      match findCanonize x h l with
      | (h, none) => (h, .canonizeError, [])
      | (h, some l) => findQuery x h { f with localUri := some l } multi
  | some r =>
    match findCanonize x h r with
    | (h, none) => (h, .canonizeError, [])
    | (h, some r) =>
      match f.localUri with
      | none => findQuery x h { f with remote := some r } multi
      | some l =>
        match findCanonize x h l with
        | (h, none) => (h, .canonizeError, [])
        | (h, some l) => findQuery x h { f with remote := some r, localUri := some l } multi

/-- A FaceId or a FaceUri. -/
inductive Target
  | id (n : Nat)
  | uri (u : Uri)
deriving DecidableEq, Repr

/-- `FindFace::execute(const std::any&, bool)` (face-helpers.cpp:41-67): more than one face is never allowed for a FaceId. -/
def findTarget (x : World) (h : Hist) (t : Target) (multi : Bool) : Hist × Code × List Status :=
  match t with
  | .id n => findFace x h { id := some n } false
  | .uri u => findFace x h { remote := some u } multi

/-- `FaceModule::list` (face-module.cpp:73-111): the faces listed. -/
def faceList (x : World) (remote localUri : Option Uri) (scheme : Option String) : Hist × Nat × List Status :=
  match findFace x [] { remote := remote, localUri := localUri, scheme := scheme } true with
  | (h, .ok, l) => (h, 0, l)
  | (h, c, _) => (h, c.num, [])

/-- `FaceModule::destroy` (face-module.cpp:320-363). -/
def faceDestroy (x : World) (t : Target) : Hist × Nat :=
  match findTarget x [] t false with
  | (h, .ok, s :: _) =>
    let r := x.destroy h s.id
    (h ++ [.destroy s.id r], if r then 0 else 1)
  | (h, c, _) => (h, c.num)

/-- `persistencyLessThan` (face-module.cpp:138-153). -/
def persLess (x y : Pers) : Bool :=
  match x with
  | .none => y ≠ .none
  | .onDemand => y = .persistent ∨ y = .permanent
  | .persistent => y = .permanent
  | .permanent => false

/-- The arguments of `face create`. `pers` has its default (face-module.cpp:160). -/
structure CreateArgs where
  remote : Uri
  localUri : Option Uri := none
  pers : Pers := .persistent
  reliability : Option Bool := none
  marking : Option Bool := none
  interval : Option Nat := none
  threshold : Option Nat := none
  mtu : Option Tok := none
deriving DecidableEq, Repr

/-- face-module.cpp:167-182: `none` is an error. -/
def mtuOf (m : Option Tok) : Option (Option Nat) :=
  match m with
  | none => some none
  | some t => if t = ['a', 'u', 't', 'o'] then some (some (2 ^ 64 - 1)) else (castUnsigned t).map some

/-- The parameters of faces/update (face-module.cpp:201-235). -/
def changes (a : CreateArgs) (mtu : Option Nat) (b : Info) : Params where
  id := some b.id
  mtu := if mtu.isSome ∧ b.mtu ≠ mtu then mtu else none
  pers := if persLess b.pers a.pers then some a.pers else none
  reliability := if a.reliability.isSome ∧ a.reliability ≠ some b.reliability then a.reliability else none
  marking := if a.marking.isSome ∧ a.marking ≠ some b.marking then a.marking else none
  interval := a.interval
  threshold := a.threshold

/-- `isChangingParams`. -/
def anyChange (p : Params) : Bool :=
  p.mtu.isSome || p.pers.isSome || p.reliability.isSome || p.marking.isSome || p.interval.isSome || p.threshold.isSome

/-- `handle409` (face-module.cpp:194-250) and what follows if it returns `false` (280-285). A body that cannot be decoded throws; `main` exits with 1. -/
def handle409 (x : World) (h : Hist) (a : CreateArgs) (mtu : Option Nat) (remote : Uri) (body : Option Info) : Hist × Nat :=
  match body with
  | none => (h, 1)
  | some b =>
    if b.uri ≠ remote then (h, 1)
    else
      let p := changes a mtu b
      if anyChange p then
        match x.update h p with
        | .ok i => (h ++ [.update p (.ok i)], 0)
        | .fail c o => (h ++ [.update p (.fail c o)], 1)
      else (h, 0)

/-- `doCreateFace` (face-module.cpp:252-287). -/
def doCreate (x : World) (h : Hist) (a : CreateArgs) (mtu : Option Nat) (remote : Uri) (localUri : Option Uri) : Hist × Nat :=
  let p : Params :=
    { uri := some remote, localUri := localUri, pers := some a.pers, reliability := a.reliability, marking := a.marking, interval := a.interval,
      threshold := a.threshold, mtu := mtu }
  match x.create h p with
  | .ok i => (h ++ [.create p (.ok i)], 0)
  | .fail c o => if c = 409 then handle409 x (h ++ [.create p (.fail c o)]) a mtu remote o else (h ++ [.create p (.fail c o)], 1)

/-- `FaceModule::create` (face-module.cpp:155-318). -/
def faceCreate (x : World) (a : CreateArgs) : Hist × Nat :=
  match mtuOf a.mtu with
  | none => ([], 2)
  | some mtu =>
    match canonize x [] a.remote with
    | (h, none) => (h, 4)
    | (h, some remote) =>
      match a.localUri with
      | none => doCreate x h a mtu remote none
      | some l =>
        match canonize x h l with
        | (h, none) => (h, 4)
        | (h, some l) => doCreate x h a mtu remote (some l)

/-- The arguments of `route add`. -/
structure AddArgs where
  prefix_ : Nat
  nexthop : Target
  origin : Option Nat := none
  cost : Option Nat := none
  noInherit : Bool := false
  capture : Bool := false
  expires : Option Nat := none
deriving DecidableEq, Repr

/-- `ROUTE_ORIGIN_STATIC` (ndn-cxx). -/
def originStatic : Nat := 255

/-- `registerRoute` (rib-module.cpp:155-188); `ROUTE_FLAG_CHILD_INHERIT` is 1, `ROUTE_FLAG_CAPTURE` 2 (ndn-cxx). -/
def registerRoute (x : World) (h : Hist) (a : AddArgs) (face : Nat) : Hist × Nat :=
  let p : Route := ⟨a.prefix_, face, a.origin.getD originStatic, a.cost.getD 0,
    (if !a.noInherit then 1 else 0) ||| (if a.capture then 2 else 0), a.expires⟩
  let r := x.register h p
  (h ++ [.register p r], if r then 0 else 1)

/-- `RibModule::add` (rib-module.cpp:144-254). -/
def routeAdd (x : World) (a : AddArgs) : Hist × Nat :=
  match findTarget x [] a.nexthop false with
  | (h, .ok, s :: _) => registerRoute x h a s.id
  | (h, .notFound, _) =>
    match a.nexthop with
    | .id _ => (h, 3)
    | .uri u =>
      if u.scheme = "ether" then (h, 3)
      else
        match canonize x h u with
        | (h, none) => (h, 4)
        | (h, some c) =>
          let p : Params := { uri := some c }
          match x.create h p with
          | .ok i => registerRoute x (h ++ [.create p (.ok i)]) a i.id
          | .fail d o => (h ++ [.create p (.fail d o)], 1)
  | (h, c, _) => (h, c.num)

/-- The loop of `RibModule::remove` (rib-module.cpp:280-299) over a `std::set` of FaceIds. -/
def unregisterAll (x : World) (name origin : Nat) : Hist → List Nat → Nat → Hist × Nat
  | h, [], n => (h, n)
  | h, f :: fs, n =>
    let p : Row := ⟨name, f, origin⟩
    let r := x.unregister h p
    unregisterAll x name origin (h ++ [.unregister p r]) fs (if r then n else 1)

/-- `FindFace::getFaceIds` (face-helpers.cpp:150-158). The order is that of the answer instead of increasing. -/
def faceIds : List Status → List Nat
  | [] => []
  | s :: l => if s.id ∈ faceIds l then faceIds l else s.id :: faceIds l

/-- `RibModule::remove` (rib-module.cpp:256-302). `none`: the assertion at 276 fails. -/
def routeRemove (x : World) (name : Nat) (t : Target) (origin : Option Nat) : Option (Hist × Nat) :=
  match findTarget x [] t true with
  | (h, .ok, l) => some (unregisterAll x name (origin.getD originStatic) h (faceIds l) 0)
  | (_, .ambiguous, _) => none
  | (h, c, _) => some (h, c.num)

/-- `RibModule::listRoutesImpl` (rib-module.cpp:117-142): the routes listed. -/
def listRoutes (x : World) (h : Hist) (keep : Row → Bool) : Hist × Nat × List Row :=
  let r := x.rib h
  match r with
  | none => (h ++ [.rib r], 1, [])
  | some rows => (h ++ [.rib r], if (rows.filter keep) = [] then 6 else 0, rows.filter keep)

/-- `RibModule::list` (rib-module.cpp:73-105). `none`: the assertion at 94 fails. -/
def routeList (x : World) (t : Option Target) (origin : Option Nat) : Option (Hist × Nat × List Row) :=
  let go (h : Hist) (nexthops : List Nat) :=
    listRoutes x h (fun r => (nexthops.isEmpty || nexthops.contains r.face) && (origin.isNone || origin == some r.origin))
  match t with
  | none => some (go [] [])
  | some t =>
    match findTarget x [] t true with
    | (h, .ok, l) => some (go h (faceIds l))
    | (_, .ambiguous, _) => none
    | (h, c, _) => some (h, c.num, [])

end Verif.Nfdc.Ops
