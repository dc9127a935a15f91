/-
Model of ndn-autoconfig (tools/ndn-autoconfig): a program that looks for an NDN gateway router ("hub"), connects NFD to it and
registers routes, once or, as a daemon, again and again.

* Stages after the first run to completion within one event (guess-from-search-domains.cpp:31-41, ndn-fch-discovery.cpp:138-201,
  guess-from-identity-name.cpp:41-61); what the DNS, the HTTP server and the key chain say is an `Outcome`. `raised` is an exception the
  stage does not catch: no default identity (guess-from-identity-name.cpp:46), or whatever follows from parsing an uninitialised buffer
  after a DNS query without answer (dns-srv.cpp:129-137, 156-166: res_query and res_search return -1 then, not 0).
* Requests to NFD, DNS resolution and Interests are answered once, at any later time. FaceUris that are canonical already are canonized
  at once by ndn-cxx; here that is an event of its own.
* Names are lists of component texts, times are milliseconds.
* Not modelled: messages on the terminal, command line and configuration file (main.cpp:102-158).
-/
namespace Verif.Ac

abbrev Text := List Char

/-- Requests of the program. -/
inductive Req
  /-- the faces with link type multi-access -/
  | faceQuery
  | ribRegister (name : List String) (face : Nat) (origin : Option Nat) (cost : Nat) (period : Option Nat)
  | setStrategy (name strategy : List String)
  /-- an Interest with CanBePrefix and MustBeFresh -/
  | interest (name : List String) (lifetime : Nat)
  | canonize (uri : Text) (timeout : Nat)
  | faceCreate (uri : Text)
deriving DecidableEq, Repr

/-- What can be observed. -/
inductive Obs
  | started (stage : Nat)
  | request (r : Req)
  /-- the request was granted -/
  | granted (r : Req)
  /-- NFD says that this face leads to this hub -/
  | face (uri : Text) (f : Nat)
  | complete (success : Bool)
deriving DecidableEq, Repr

/-- How a stage that does not wait ends (stage.cpp:42-68). -/
inductive Outcome
  | uri (t : Text)
  | failed
  | raised
deriving DecidableEq, Repr

/-- The outcomes of the stages after the first, should they be reached. -/
structure Others where
  search : Outcome := .failed
  fch : Outcome := .failed
  identity : Outcome := .failed
deriving DecidableEq, Repr

/-- The content of the hub's Data: not parseable as TLV, without Uri element, or with one. -/
inductive HubData
  | malformed
  | noUri
  | uri (t : Text)
deriving DecidableEq, Repr

/-- How NFD answers faces/create: with the face, with code 409 and a body (`none`: one that does not decode), or otherwise. -/
inductive Created
  | ok (f : Nat)
  | conflict (f : Option Nat)
  | refused
deriving DecidableEq, Repr

/-- What the first stage is waiting for (multicast-discovery.hpp:83-85 for the numbers). -/
inductive Disc
  | query
  | reg (n ok bad : Nat)
  | strategy
  | data
deriving DecidableEq, Repr

/-- What an attempt to connect to a hub is waiting for (procedure.cpp:85-139). -/
inductive Flow
  | canonize (u : Text)
  | create (u : Text)
  | register (u : Text) (f : Nat) (k : Nat)
deriving DecidableEq, Repr

structure St where
  daemon : Bool
  /-- the first stage, if in progress -/
  disc : Option Disc := none
  flows : List Flow := []
  /-- `runEvt` (main.cpp:83) -/
  timer : Option Nat := none
  now : Nat := 0
  /-- `exitCode` (main.cpp:160) -/
  code : Nat := 0
  /-- the program has ended with this exit code -/
  ended : Option Nat := none
  log : List Obs := []
deriving DecidableEq, Repr

/-- `HUB_DISCOVERY_PREFIX` (multicast-discovery.cpp:38) -/
abbrev hubDiscovery : List String := ["localhop", "ndn-autoconf", "hub"]
/-- `HUB_PREFIXES` (procedure.cpp:40) -/
abbrev hubPrefixes : List (List String) := [[], ["localhop", "nfd"]]

def St.note (s : St) (l : List Obs) : St := { s with log := s.log ++ l }

/-- An exception that reaches `main` (main.cpp:176-179). -/
def raise (s : St) : St := { s with ended := some 1 }

/-- `onComplete`: the daemon runs again in an hour (main.cpp:88-90), otherwise the exit code is set (main.cpp:171). -/
def complete (s : St) (b : Bool) : St :=
  let s := s.note [.complete b]
  if s.daemon then { s with timer := some (s.now + 3600000) } else { s with code := if b then 0 else 1 }

/-- `Procedure::connect` (procedure.cpp:85-89, 113) -/
def connect (s : St) (u : Text) : St := ({ s with flows := s.flows ++ [.canonize u] } : St).note [.request (.canonize u 4000)]

/-- The stages after the first, from number `k` on, in order (procedure.cpp:58-66, stage.cpp:30-68). -/
def rest (parses : Text → Bool) : St → Nat → List Outcome → St
  | s, _, [] => complete s false
  | s, k, o :: l =>
    let s := s.note [.started k]
    match o with
    | .raised => raise s
    | .failed => rest parses s (k + 1) l
    | .uri t => if parses t then connect s t else rest parses s (k + 1) l

/-- The first stage fails (stage.cpp:62-68). -/
def discFailed (parses : Text → Bool) (s : St) (o : Others) : St :=
  rest parses { s with disc := none } 1 [o.search, o.fch, o.identity]

/-- `runOnce`, `Stage::start` (procedure.cpp:78-83, stage.cpp:30-40), `MulticastDiscovery::doStart` (multicast-discovery.cpp:49-61). -/
def runOnce (s : St) : St :=
  if s.disc.isSome then raise s else ({ s with disc := some .query } : St).note [.started 0, .request .faceQuery]

/-- multicast-discovery.cpp:76-80 -/
abbrev discoveryRoute (f : Nat) : Req := .ribRegister hubDiscovery f none 1 (some 30000)
/-- multicast-discovery.cpp:115-117 -/
abbrev discoveryStrategy : Req := .setStrategy hubDiscovery ["localhost", "nfd", "strategy", "multicast"]
/-- multicast-discovery.cpp:130-133 -/
abbrev discoveryInterest : Req := .interest hubDiscovery 4000
/-- procedure.cpp:125-129; 66 is ROUTE_ORIGIN_AUTOCONF -/
abbrev hubRoute (n : List String) (f : Nat) : Req := .ribRegister n f (some 66) 100 none

/-- `afterReg` (multicast-discovery.cpp:98-110) -/
def afterReg (parses : Text → Bool) (s : St) (n ok bad : Nat) (o : Others) : St :=
  if ok + bad < n then { s with disc := some (.reg n ok bad) }
  else if 0 < ok then ({ s with disc := some .strategy } : St).note [.request discoveryStrategy]
  else discFailed parses s o

/-- `registerPrefixes` (procedure.cpp:116-129) of the flow at position `i`. -/
def registerPrefixes (s : St) (i : Nat) (u : Text) (f k : Nat) : St :=
  match hubPrefixes[k]? with
  | none => complete { s with flows := s.flows.eraseIdx i } true
  | some n => ({ s with flows := s.flows.set i (.register u f k) } : St).note [.request (hubRoute n f)]

inductive Event
  /-- `runEvt` fires -/
  | fire
  /-- the answer to the query for faces; `none`: an error -/
  | queried (faces : Option (List Nat)) (o : Others)
  | registered (ok : Bool) (o : Others)
  | strategySet (ok : Bool) (o : Others)
  | hubData (c : HubData) (o : Others)
  /-- Nack or timeout -/
  | hubLost (o : Others)
  | canonized (i : Nat) (u : Option Text)
  | created (i : Nat) (r : Created)
  | routed (i : Nat) (ok : Bool)
  | networkChanged
  | terminate
  /-- nothing is left to wait for (main.cpp:173) -/
  | idle
  | tick (dt : Nat)
deriving DecidableEq, Repr

/-- One event; `none` if it cannot happen now. -/
def step (parses : Text → Bool) (s : St) (ev : Event) : Option St :=
  if s.ended.isSome then none
  else
    match ev with
    | .fire =>
      match s.timer with
      | some t => if t ≤ s.now then some (runOnce { s with timer := none }) else none
      | none => none
    -- multicast-discovery.cpp:57-60, 63-96
    | .queried fs o =>
      if s.disc = some .query then
        match fs with
        | none => some (discFailed parses s o)
        | some [] => some (discFailed parses (s.note [.granted .faceQuery]) o)
        | some (f :: l) => some (({ s with disc := some (.reg (f :: l).length 0 0) } : St).note (.granted .faceQuery :: (f :: l).map (fun f => .request (discoveryRoute f))))
      else none
    -- multicast-discovery.cpp:84-94
    | .registered ok o =>
      match s.disc with
      | some (.reg n a b) => some (if ok then afterReg parses s n (a + 1) b o else afterReg parses s n a (b + 1) o)
      | _ => none
    -- multicast-discovery.cpp:119-124
    | .strategySet ok o =>
      if s.disc = some .strategy then
        some (if ok then ({ s with disc := some .data } : St).note [.granted discoveryStrategy, .request discoveryInterest] else discFailed parses s o)
      else none
    -- multicast-discovery.cpp:136-147
    | .hubData c o =>
      if s.disc = some .data then
        match c with
        | .malformed => some (raise s)
        | .noUri => some (discFailed parses s o)
        | .uri t => some (if parses t then connect { s with disc := none } t else discFailed parses s o)
      else none
    -- multicast-discovery.cpp:148-153
    | .hubLost o => if s.disc = some .data then some (discFailed parses s o) else none
    -- procedure.cpp:89-91, 109-112
    | .canonized i u =>
      match s.flows[i]? with
      | some (.canonize _) =>
        match u with
        | some u => some (({ s with flows := s.flows.set i (.create u) } : St).note [.request (.faceCreate u)])
        | none => some (complete { s with flows := s.flows.eraseIdx i } false)
      | _ => none
    -- procedure.cpp:92-107
    | .created i r =>
      match s.flows[i]? with
      | some (.create u) =>
        match r with
        | .ok f => some (registerPrefixes (s.note [.face u f]) i u f 0)
        | .conflict (some f) => some (registerPrefixes (s.note [.face u f]) i u f 0)
        | .conflict none => some (raise s)
        | .refused => some (complete { s with flows := s.flows.eraseIdx i } false)
      | _ => none
    -- procedure.cpp:130-138
    | .routed i ok =>
      match s.flows[i]? with
      | some (.register u f k) =>
        if ok then some (registerPrefixes (s.note [.granted (hubRoute (hubPrefixes[k]?.getD []) f)]) i u f (k + 1))
        else some (complete { s with flows := s.flows.eraseIdx i } false)
      | _ => none
    -- main.cpp:84-86, 92-93
    | .networkChanged => if s.daemon then some { s with timer := some (s.now + 5000) } else none
    -- main.cpp:66-80
    | .terminate => if s.daemon then some { s with ended := some 0 } else none
    | .idle => if !s.daemon && s.disc.isNone && s.flows.isEmpty then some { s with ended := some s.code } else none
    | .tick dt => some { s with now := s.now + dt }

/-- main.cpp:162-174, 95: the daemon begins after 100 ms, otherwise the procedure is run at once. -/
def init (daemon : Bool) : St := if daemon then { daemon := true, timer := some 100 } else runOnce { daemon := false }

def run (parses : Text → Bool) : St → List Event → Option St
  | s, [] => some s
  | s, e :: l => (step parses s e).bind (fun s => run parses s l)

end Verif.Ac
