import Verif.Fs.Model

/-! The RIB manager's part of the configuration: `rib::Service` (daemon/rib/service.cpp), with what `RibManager` does with it (daemon/mgmt/rib-manager.cpp:78-117,
338-355). The service reads the file once, when the RIB thread starts. Not modelled: what validators accept (`ndn::ValidatorConfig` is any type with a way to read
it), and sending the commands that set up the connection to the forwarder. -/
namespace Verif.Svc
open Verif.Cf (Node)

/-- What the code takes from outside: loading the rules of a validator, which may throw (`ValidatorConfig::load`), whether a validator accepts a command, and
reading a number (`ptree::get_optional<uint64_t>`), which gives nothing if it cannot be read. -/
structure Env (V C : Type) where
  load : Node → Option V
  accepts : V → C → Bool
  num : String → Option Nat

/-- How the RIB manager reaches the forwarder. -/
inductive Transport where
  | unix (path : String)
  | tcp (host port : String)
deriving DecidableEq, Repr

/-- `ptree::get<std::string>(key, dflt)` for a key without dots. -/
def getStr (n : Node) (key dflt : String) : String := ((n.child key).map Node.value).getD dflt

/-- `makeLocalNfdTransport` (service.cpp:65-86), on Linux; `none`: an exception. `get_child_optional("face_system.unix")` takes the first child at each step. -/
def transport (file : Node) : Option Transport :=
  match file.child "face_system" with
  | none => none
  | some f =>
    match f.child "unix" with
    | some u => some (.unix (getStr u "path" "/run/nfd/nfd.sock"))
    | none =>
      match f.child "tcp" with
      | some t => if getStr t "listen" "yes" = "yes" then some (.tcp "localhost" (getStr t "port" "6363")) else none
      | none => none

/-- What `auto_prefix_propagate` sets: the cost and the timeout of the commands (ms), and the interval of refreshing (s). -/
structure Propagate where
  cost : Nat
  timeout : Nat
  refresh : Nat
deriving DecidableEq, Repr

/-- The service and its manager; a validator without rules accepts nothing. -/
structure St (V : Type) where
  localhost : Option V := none
  localhop : Option V := none
  localhopEnabled : Bool := false
  pa : Option V := none
  propagate : Option Propagate := none
  nlsr : Bool := false

variable {V C : Type}

/-- One option in `checkConfig` (service.cpp:167-189): which of the two flags it sets, or an exception. -/
def checkItem (e : Env V C) (x : String × Node) (h : Bool × Bool) : Option (Bool × Bool) :=
  if x.1 = "localhost_security" ∨ x.1 = "prefix_announcement_validation" then (e.load x.2).map (fun _ => h)
  else if x.1 = "localhop_security" then (e.load x.2).map (fun _ => (true, h.2))
  else if x.1 = "auto_prefix_propagate" then some (h.1, true)
  else if x.1 = "readvertise_nlsr" then (Fs.yesNo x.2).map (fun _ => h)
  else none

def checkItems (e : Env V C) : List (String × Node) → Bool × Bool → Option (Bool × Bool)
  | [], h => some h
  | x :: l, h =>
    match checkItem e x h with
    | none => none
    | some h => checkItems e l h

/-- `checkConfig` (service.cpp:161-195): whether it does not throw. -/
def check (e : Env V C) (n : Node) : Bool :=
  match checkItems e n.kids (false, false) with
  | none => false
  | some (hop, prop) => !(hop && prop)

/-- The parameters of automatic propagation (service.cpp:221-233, host-to-gateway-readvertise-policy.cpp:42-43). -/
def propagateOf (e : Env V C) (n : Node) : Propagate :=
  let get (key : String) (dflt : Nat) : Nat := ((n.child key).bind (fun x => e.num x.value)).getD dflt
  ⟨get "cost" 15, get "timeout" 10000, get "refresh_interval" 25⟩

/-- The loop's variables in `applyConfig` (service.cpp:200-201). -/
structure Wants where
  propagate : Bool := false
  nlsr : Bool := false
deriving DecidableEq, Repr

/-- One option in `applyConfig` (service.cpp:203-243); `none`: an exception. -/
def applyItem (e : Env V C) (x : String × Node) (s : St V) (w : Wants) : Option (St V × Wants) :=
  if x.1 = "localhost_security" then (e.load x.2).map (fun v => ({ s with localhost := some v }, w))
  else if x.1 = "localhop_security" then (e.load x.2).map (fun v => ({ s with localhop := some v, localhopEnabled := true }, w))
  else if x.1 = "prefix_announcement_validation" then (e.load x.2).map (fun v => ({ s with pa := some v }, w))
  else if x.1 = "auto_prefix_propagate" then
    some (if s.propagate.isSome then (s, { w with propagate := true })
      else ({ s with propagate := some (propagateOf e x.2) }, { w with propagate := true }))
  else if x.1 = "readvertise_nlsr" then (Fs.yesNo x.2).map (fun b => (s, { w with nlsr := b }))
  else none

def applyItems (e : Env V C) : List (String × Node) → St V → Wants → St V × Option Wants
  | [], s, w => (s, some w)
  | x :: l, s, w =>
    match applyItem e x s w with
    | none => (s, none)
    | some (s, w) => applyItems e l s w

/-- `applyConfig` (service.cpp:197-262): the state, and whether it does not throw. -/
def apply (e : Env V C) (n : Node) (s : St V) : St V × Bool :=
  match applyItems e n.kids s {} with
  | (s, none) => (s, false)
  | (s, some w) => ({ s with propagate := if w.propagate then s.propagate else none, nlsr := w.nlsr }, true)

/-- `ConfigFile::process` (config-file.cpp:122-136) with `ignoreUnknownSection`: all sections `rib`. -/
def process (e : Env V C) (dryRun : Bool) : List (String × Node) → St V → St V × Bool
  | [], s => (s, true)
  | x :: l, s =>
    if x.1 = "rib" then
      if dryRun then (if check e x.2 then process e dryRun l s else (s, false))
      else match apply e x.2 s with
        | (s, true) => process e dryRun l s
        | (s, false) => (s, false)
    else process e dryRun l s

/-- The service as it starts: the transport, the state, and the prefixes whose commands it takes (rib-manager.cpp:103-117). -/
structure Running (V : Type) where
  transport : Transport
  st : St V
  localhopPrefix : Bool

/-- The constructor (service.cpp:88-131); `none`: an exception, which ends the thread (`Verif.Run`). -/
def start (e : Env V C) (file : List (String × Node)) : Option (Running V) :=
  match transport (.mk "" file) with
  | none => none
  | some t =>
    match process e true file {} with
    | (_, false) => none
    | (s, true) =>
      match process e false file s with
      | (_, false) => none
      | (s, true) => some ⟨t, s, s.localhopEnabled⟩

/-- Where a command comes in: its top-level prefix. -/
inductive Top where
  | localhost | localhop
deriving DecidableEq, Repr

/-- Whether a command is carried out (rib-manager.cpp:183-206, 338-355): its prefix is one of those added to the dispatcher, and the validator of the prefix
accepts it. -/
def authorized (e : Env V C) (r : Running V) (top : Top) (c : C) : Bool :=
  match top with
  | .localhost => r.st.localhost.any (fun v => e.accepts v c)
  | .localhop => r.localhopPrefix && r.st.localhop.any (fun v => e.accepts v c)

end Verif.Svc
