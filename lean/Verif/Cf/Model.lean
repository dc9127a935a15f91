import Verif.Cs.Model
import Verif.Tables.Model
import Verif.Fw.Model
import Verif.Mgmt.Auth
import Verif.Mgmt.Priv

/-! The configuration file of the forwarder: `ConfigFile` (daemon/common/config-file.cpp), the sections `general`
(daemon/mgmt/general-config-section.cpp), `forwarder` (daemon/fw/forwarder.cpp), `tables` (daemon/mgmt/tables-config-section.cpp)
and `authorizations` (daemon/mgmt/command-authenticator.cpp), and how `Nfd` uses them (daemon/nfd.cpp). The section `face_system`
is any change of a state of its own. Reading the text of the file (`boost::property_tree::read_info`) and the grammars of
numbers and names are not modelled. -/
namespace Verif.Cf

/-- `boost::property_tree::ptree`: a value and children, in the order of the file. -/
inductive Node
  | mk (value : String) (kids : List (String × Node))

def Node.value : Node → String
  | .mk v _ => v
def Node.kids : Node → List (String × Node)
  | .mk _ k => k

/-- `ptree::get_child_optional`: the first child with this key (for keys without a dot). -/
def Node.child (n : Node) (key : String) : Option Node := (n.kids.find? (fun x => x.1 == key)).map (·.2)

/-- What the code takes from outside: the tables' parameters; reading a number of a type with this largest value
(`parseNumber`, config-file.hpp:112-126) and a name (`Name(std::string)`), which may throw; the certificates that can be loaded;
the users and groups known to the system; and what the face system does with its section. -/
structure Env (Cert F : Type) where
  tb : Tb.Env
  num : (max : Nat) → String → Option Nat
  name : String → Option Name
  load : String → Option Cert
  user : String → Priv.Entry
  group : String → Priv.Entry
  userSize : Nat
  groupSize : Nat
  faceSystem : Node → (dryRun : Bool) → F → F × Bool

/-- What a configuration file can change. `configured` is `TablesConfigSection::m_isConfigured` (tables-config-section.hpp:97). -/
structure St (Cert F : Type) where
  cs : Cs.Cs
  tb : Tb.Tables
  fw : Fw.Config
  auth : Auth.Vals Cert
  priv : Priv.St
  face : F
  configured : Bool

variable {Cert F : Type}

/-- Names of Content Store policies: `cs::Policy::create` (cs-policy.cpp:44-50; cs-policy-lru.hpp:77,
cs-policy-priority-fifo.hpp:114). -/
def csPolicy (s : String) : Option Cs.PolicyKind :=
  if s = "lru" then some .lru else if s = "priority_fifo" then some .pfifo else none

/-- Names of unsolicited Data policies: `UnsolicitedDataPolicy::create` (unsolicited-data-policy.cpp:52-58;
unsolicited-data-policy.hpp:103, 116, 129, 142). -/
def unsolicitedPolicy (s : String) : Option Fw.Unsolicited :=
  if s = "drop-all" then some .dropAll else if s = "admit-local" then some .admitLocal
  else if s = "admit-network" then some .admitNetwork else if s = "admit-all" then some .admitAll else none

/-- `DefaultUnsolicitedDataPolicy` (unsolicited-data-policy.hpp:148). -/
def defaultUnsolicited : Fw.Unsolicited := .dropAll

/-- `DEFAULT_CS_MAX_PACKETS` (tables-config-section.cpp:33). -/
def defaultCsMaxPackets : Nat := 65536

/-- Largest `size_t`. -/
def sizeMax : Nat := 2 ^ 64 - 1

/-- An option that may be missing: its default, or what is read from it; `none`: an exception. -/
def readOpt {α : Type} (n : Option Node) (dflt : α) (read : String → Option α) : Option α :=
  match n with
  | none => some dflt
  | some x => read x.value

/-- `std::map<Name, Name>::try_emplace` of a key not in the map (tables-config-section.cpp:133): the map is kept in the order of
names. -/
def insertChoice (x : Name × Name) : List (Name × Name) → List (Name × Name)
  | [] => [x]
  | y :: l => if Name.lt x.1 y.1 then x :: y :: l else y :: insertChoice x l

/-- The loop of `processStrategyChoiceSection` that reads the choices (tables-config-section.cpp:123-137); `none`: an exception. -/
def readChoices (e : Env Cert F) : List (String × Node) → List (Name × Name) → Option (List (Name × Name))
  | [], m => some m
  | x :: l, m =>
    match e.name x.1 with
    | none => none
    | some p =>
      match e.name x.2.value with
      | none => none
      | some st =>
        if e.tb.create st = .notRegistered then none
        else if m.any (fun y => y.1 == p) then none
        else readChoices e l (insertChoice (p, st) m)

/-- The loop that applies them (tables-config-section.cpp:143-150): the tables afterwards, and whether it ended without
exception. -/
def applyChoices (e : Tb.Env) : Tb.Tables → List (Name × Name) → Option (Tb.Tables × Bool)
  | t, [] => some (t, true)
  | t, x :: l =>
    match Tb.scInsert e t x.1 x.2 with
    | none => none
    | some (t', .ok) => applyChoices e t' l
    | some (t', _) => some (t', false)

/-- `processStrategyChoiceSection` (tables-config-section.cpp:120-152). -/
def strategySection (e : Env Cert F) (n : Node) (dryRun : Bool) (t : Tb.Tables) : Option (Tb.Tables × Bool) :=
  match readChoices e n.kids [] with
  | none => some (t, false)
  | some m => if dryRun then some (t, true) else applyChoices e.tb t m

/-- The insertion loop of `processNetworkRegionSection` (tables-config-section.cpp:163-165): the set afterwards, and whether every
name could be read. -/
def insertRegions (name : String → Option Name) : List Name → List (String × Node) → List Name × Bool
  | r, [] => (r, true)
  | r, x :: l =>
    match name x.1 with
    | none => (r, false)
    | some n => insertRegions name (if n ∈ r then r else r ++ [n]) l

/-- `processNetworkRegionSection` (tables-config-section.cpp:154-166). -/
def regionSection (e : Env Cert F) (n : Node) (dryRun : Bool) (r : List Name) : List Name × Bool :=
  if dryRun then (r, true) else insertRegions e.name [] n.kids

/-- The policy of the Content Store is replaced if one is configured and the store is empty (tables-config-section.cpp:111-113);
the latter is part of `Cs.setPolicy`. -/
def replacePolicy (cs : Cs.Cs) : Option Cs.PolicyKind → Option Cs.Cs
  | none => some cs
  | some k => cs.setPolicy k

/-- `TablesConfigSection::processConfig` (tables-config-section.cpp:63-118): the state afterwards (also when it throws), and whether
it returned normally; `none`: an assertion fails. -/
def tablesSection (e : Env Cert F) (n : Node) (dryRun : Bool) (s : St Cert F) : Option (St Cert F × Bool) :=
  match readOpt (n.child "cs_max_packets") defaultCsMaxPackets (e.num sizeMax) with
  | none => some (s, false)
  | some limit =>
    match readOpt (n.child "cs_policy") none (fun x => (csPolicy x).map some) with
    | none => some (s, false)
    | some policy =>
      match readOpt (n.child "cs_unsolicited_policy") defaultUnsolicited unsolicitedPolicy with
      | none => some (s, false)
      | some unsolicited =>
        match (match n.child "strategy_choice" with
               | none => some (s.tb, true)
               | some x => strategySection e x dryRun s.tb) with
        | none => none
        | some (tb, false) => some ({ s with tb := tb }, false)
        | some (tb, true) =>
          let s := { s with tb := tb }
          match (match n.child "network_region" with
                 | none => (s.fw.regions, true)
                 | some x => regionSection e x dryRun s.fw.regions) with
          | (r, false) => some ({ s with fw := { s.fw with regions := r } }, false)
          | (r, true) =>
            let s := { s with fw := { s.fw with regions := r } }
            if dryRun then some (s, true)
            else
              match s.cs.setLimit limit with
              | none => none
              | some cs =>
                match replacePolicy cs policy with
                | none => none
                | some cs => some ({ s with cs := cs, fw := { s.fw with unsolicited := unsolicited }, configured := true }, true)

/-- `TablesConfigSection::ensureConfigured` (tables-config-section.cpp:49-61). -/
def ensureConfigured (s : St Cert F) : Option (St Cert F) :=
  if s.configured then some s
  else
    match s.cs.setLimit defaultCsMaxPackets with
    | none => none
    | some cs => some { s with cs := cs, fw := { s.fw with unsolicited := defaultUnsolicited }, configured := true }

/-- The loop of `Forwarder::processConfig` (forwarder.cpp:618-626). -/
def readHopLimit (e : Env Cert F) : List (String × Node) → Nat → Option Nat
  | [], h => some h
  | x :: l, _ =>
    if x.1 = "default_hop_limit" then
      match e.num 255 x.2.value with
      | none => none
      | some h => readHopLimit e l h
    else none

/-- `Forwarder::processConfig` (forwarder.cpp:613-631); the default is `Config::defaultHopLimit` (forwarder.hpp:236). -/
def forwarderSection (e : Env Cert F) (n : Node) (dryRun : Bool) (s : St Cert F) : St Cert F × Bool :=
  match readHopLimit e n.kids 0 with
  | none => (s, false)
  | some h => (if dryRun then s else { s with fw := { s.fw with defaultHopLimit := h } }, true)

/-- The loop of `general::onConfig` (general-config-section.cpp:43-66); `""`: not given. -/
def readIdentity : List (String × Node) → (user group : String) → Option (String × String)
  | [], u, g => some (u, g)
  | x :: l, u, g =>
    if x.1 = "user" then (if x.2.value = "" then none else readIdentity l x.2.value g)
    else if x.1 = "group" then (if x.2.value = "" then none else readIdentity l u x.2.value)
    else readIdentity l u g

/-- `general::onConfig` (general-config-section.cpp:31-69): it does not look at `isDryRun`. -/
def generalSection (e : Env Cert F) (n : Node) (s : St Cert F) : St Cert F × Bool :=
  match readIdentity n.kids "" "" with
  | none => (s, false)
  | some (u, g) =>
    let r := Priv.init s.priv (if u = "" then none else some (e.user u)) (if g = "" then none else some (e.group g)) e.userSize e.groupSize
    ({ s with priv := r.1 }, r.2 == .returned)

/-- How `CommandAuthenticator::processConfig` reads a child of its section (command-authenticator.cpp:138-176). -/
def authSec (x : String × Node) : Auth.Sec :=
  { name := x.1, certfile := (x.2.child "certfile").map Node.value, privileges := (x.2.child "privileges").map (fun p => p.kids.map (·.1)) }

/-- The section `authorizations` (command-authenticator.cpp:121-208). -/
def authSection (e : Env Cert F) (n : Node) (dryRun : Bool) (s : St Cert F) : St Cert F × Bool :=
  let r := Auth.processConfig e.load s.auth (n.kids.map authSec) dryRun
  ({ s with auth := r.1 }, r.2)

/-- The section `face_system` (face-system.cpp:98-158), as far as it is modelled here. -/
def faceSection (e : Env Cert F) (n : Node) (dryRun : Bool) (s : St Cert F) : St Cert F × Bool :=
  let r := e.faceSystem n dryRun s.face
  ({ s with face := r.1 }, r.2)

/-- One top-level section: the subscriptions of nfd.cpp:150-159 and `ignoreRibAndLogSections` (nfd.cpp:117-130). -/
def section1 (e : Env Cert F) (name : String) (n : Node) (dryRun : Bool) (s : St Cert F) : Option (St Cert F × Bool) :=
  if name = "general" then some (generalSection e n s)
  else if name = "forwarder" then some (forwarderSection e n dryRun s)
  else if name = "tables" then tablesSection e n dryRun s
  else if name = "authorizations" then some (authSection e n dryRun s)
  else if name = "face_system" then some (faceSection e n dryRun s)
  else if name = "rib" ∨ name = "log" then some (s, true)
  else some (s, false)

/-- `ConfigFile::process` (config-file.cpp:122-136). None of the handlers throws `std::out_of_range`. -/
def process (e : Env Cert F) : List (String × Node) → (dryRun : Bool) → St Cert F → Option (St Cert F × Bool)
  | [], _, s => some (s, true)
  | x :: l, dry, s =>
    match section1 e x.1 x.2 dry s with
    | none => none
    | some (s, false) => some (s, false)
    | some (s, true) => process e l dry s

/-- The part of `Nfd::initializeManagement` that concerns the file (nfd.cpp:150-171): a dry run, the real one, the defaults. -/
def startUp (e : Env Cert F) (file : List (String × Node)) (s : St Cert F) : Option (St Cert F × Bool) :=
  match process e file true { s with configured := false } with
  | none => none
  | some (s, false) => some (s, false)
  | some (s, true) =>
    match process e file false s with
    | none => none
    | some (s, false) => some (s, false)
    | some (s, true) => (ensureConfigured s).map (·, true)

/-- `Nfd::reloadConfigFile` (nfd.cpp:180-202): no dry run. -/
def reload (e : Env Cert F) (file : List (String × Node)) (s : St Cert F) : Option (St Cert F × Bool) :=
  process e file false { s with configured := false }

/-- `Nfd::reloadConfigFileFaceSection` (nfd.cpp:204-217): the other sections are ignored. -/
def reloadFaces (e : Env Cert F) : List (String × Node) → St Cert F → St Cert F × Bool
  | [], s => (s, true)
  | x :: l, s =>
    if x.1 = "face_system" then
      let r := faceSection e x.2 false s
      if r.2 then reloadFaces e l r.1 else r
    else reloadFaces e l s

end Verif.Cf
