/-! `CommandAuthenticator` (daemon/mgmt/command-authenticator.cpp): which management commands are accepted. Signatures,
certificates and the freshness check of signed Interests (timestamp, nonce) are those of ndn-cxx and abstract here. -/
namespace Verif.Auth

abbrev Mod := String

/-- A command Interest as ndn-cxx's validator sees it. `formed`: its SignatureInfo can be decoded and its KeyLocator is a name;
`fresh`: it passes `ValidationPolicyCommandInterest`; `signedBy c`: its KeyLocator designates certificate `c` and its signature
verifies with the key in `c`. -/
structure Cmd (Cert : Type) where
  formed : Bool
  fresh : Bool
  signedBy : Cert → Bool

/-- `ndn::security::Validator` as used here: either `ValidationPolicyAcceptAll` (command-authenticator.cpp:193-194), or
`ValidationPolicyCommandInterest` over `CommandAuthenticatorValidationPolicy` with these trust anchors (lines 126-129). -/
inductive Validator (Cert : Type)
  | all
  | anchors (l : List Cert)
deriving DecidableEq, Repr

/-- `m_validators` (command-authenticator.hpp:68-69): outer `none`: module not declared; inner `none`: null pointer. -/
abbrev Vals (Cert : Type) := Mod → Option (Option (Validator Cert))

/-- One child of the `authorizations` section: its name, its `certfile` and the children of its `privileges`, if present. -/
structure Sec where
  name : String
  certfile : Option String
  privileges : Option (List Mod)
deriving DecidableEq, Repr

/-- Replace the validator of one module. -/
def put {Cert : Type} (v : Vals Cert) (m : Mod) (x : Option (Validator Cert)) : Vals Cert := fun m' => if m' = m then some x else v m'

/-- `m_validators[module]` in `makeAuthorization` (command-authenticator.cpp:213): declares the module. -/
def declare {Cert : Type} (v : Vals Cert) (m : Mod) : Vals Cert :=
  match v m with
  | some _ => v
  | none => put v m none

/-- The reset of every declared module (command-authenticator.cpp:123-131). -/
def reset {Cert : Type} (v : Vals Cert) : Vals Cert := fun m => (v m).map (fun _ => some (.anchors []))

/-- `Validator::loadAnchor` (command-authenticator.cpp:200): adds a trust anchor; the accept-all policy ignores anchors. A null
pointer cannot occur after `reset`. -/
def loadAnchor {Cert : Type} (x : Option (Validator Cert)) (c : Cert) : Option (Validator Cert) :=
  match x with
  | some (.anchors l) => some (.anchors (l ++ [c]))
  | x => x

/-- Who a section authorizes: anybody, or the owner of a certificate. -/
inductive Who (Cert : Type)
  | anybody
  | owner (c : Cert)

/-- The validator of a module to which one more privilege is granted (command-authenticator.cpp:192-204). -/
def grant {Cert : Type} (w : Who Cert) (x : Option (Validator Cert)) : Option (Validator Cert) :=
  match w with
  | .anybody => some .all
  | .owner c => loadAnchor x c

/-- The loop over `privileges` (command-authenticator.cpp:180-205): the validators afterwards, and whether it completed. -/
def grantAll {Cert : Type} (dryRun : Bool) (w : Who Cert) : Vals Cert → List Mod → Vals Cert × Bool
  | v, [] => (v, true)
  | v, m :: ms =>
    match v m with
    | none => (v, false)
    | some x =>
      if dryRun then grantAll dryRun w v ms
      else grantAll dryRun w (put v m (grant w x)) ms

/-- The loop over the `authorize` sections (command-authenticator.cpp:137-208); `load` is `ndn::io::load<Certificate>`. -/
def grantSecs {Cert : Type} (load : String → Option Cert) (dryRun : Bool) : Vals Cert → List Sec → Vals Cert × Bool
  | v, [] => (v, true)
  | v, s :: ss =>
    if s.name ≠ "authorize" then (v, false)
    else
      match s.certfile with
      | none => (v, false)
      | some file =>
        match (if file = "any" then some (Who.anybody) else (load file).map Who.owner) with
        | none => (v, false)
        | some w =>
          match s.privileges with
          | none => (v, false)
          | some ms =>
            let r := grantAll dryRun w v ms
            if r.2 = true then grantSecs load dryRun r.1 ss else r

/-- `processConfig` (command-authenticator.cpp:120-209): the validators afterwards (also when it throws), and whether it returned
normally (`false`: `ConfigFile::Error`). -/
def processConfig {Cert : Type} (load : String → Option Cert) (v : Vals Cert) (cfg : List Sec) (dryRun : Bool) : Vals Cert × Bool :=
  let v := if dryRun then v else reset v
  if cfg = [] then (v, false) else grantSecs load dryRun v cfg

inductive Reply
  | accepted
  | status403
  | silent
deriving DecidableEq, Repr

/-- The authorization made for a module (command-authenticator.cpp:215-251): what becomes of a command. `none`: `at` throws, which
cannot happen for a declared module. The validator checks the form first, then freshness, then the signature. -/
def authorize {Cert : Type} (v : Vals Cert) (m : Mod) (c : Cmd Cert) : Option Reply :=
  match v m with
  | none => none
  | some none => some .status403
  | some (some .all) => some .accepted
  | some (some (.anchors l)) =>
    if c.formed = false then some .silent
    else if c.fresh = true ∧ l.any c.signedBy = true then some .accepted
    else some .status403

/-- What happens to a `CommandAuthenticator`: modules are declared, and configuration files are processed. -/
inductive Ev
  | declare (m : Mod)
  | config (cfg : List Sec) (dryRun : Bool)

def step {Cert : Type} (load : String → Option Cert) (v : Vals Cert) : Ev → Vals Cert
  | .declare m => declare v m
  | .config cfg dry => (processConfig load v cfg dry).1

def run {Cert : Type} (load : String → Option Cert) (evs : List Ev) : Vals Cert := evs.foldl (step load) (fun _ => none)

end Verif.Auth
