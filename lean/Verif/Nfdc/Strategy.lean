import Verif.Mgmt.TblCmd

/-! `nfdc strategy show`, `set` and `unset` (tools/nfdc/strategy-choice-module.cpp) and the strategy choice table of the NFD they talk to, through its management
commands and dataset (`Verif.TblCmd`). -/
namespace Verif.Nfdc.Strategy
open Verif Verif.Tb Verif.TblCmd

/-- What becomes of a request to NFD. -/
inductive Fate
  | answered
  /-- carried out, but nfdc does not get the answer in time -/
  | lost
  /-- not carried out (not authorized, NFD not running, not delivered); nfdc gets this error code -/
  | refused (code : Nat)
deriving DecidableEq, Repr

/-- The end of a run of nfdc: NFD, the exit code, and the prefix and the strategy printed. -/
structure Result where
  sys : Sys
  exitCode : Nat
  printed : Option (Name × Option Name)
  /-- whether a request was sent; only NFD sees it -/
  sent : Bool := true

/-- The loop of `show` (strategy-choice-module.cpp:84-90) over the dataset. -/
def longestMatch (dataset : List (Name × Option Name)) (prefix_ : Name) (m : Name × Option Name) : Name × Option Name :=
  dataset.foldl (fun m entry => if entry.1.isPrefixOf prefix_ && decide (entry.1.length ≥ m.1.length) then entry else m) m

/-- `StrategyChoiceModule::show` (strategy-choice-module.cpp:78-98); `match` has no name and no strategy at first. The failure handler: execute-command.cpp:51-58. -/
def «show» (e : Env) (fate : Fate) (s : Sys) (prefix_ : Name) : Result :=
  match fate with
  | .answered => ⟨s, 0, some (longestMatch (listChoices e s) prefix_ ([], none)), true⟩
  | _ => ⟨s, 1, none, true⟩

/-- The failure callback of `set` (strategy-choice-module.cpp:113-121). -/
def setFailure (code : Nat) : Nat := if code = 404 then 7 else 1

/-- `StrategyChoiceModule::set` (strategy-choice-module.cpp:100-125). A lost answer is a timeout, code 10060. NFD answers with the Name of the request and the
strategy instance (strategy-choice-manager.cpp:70-74). `none`: NFD fails. -/
def set (e : Env) (fate : Fate) (s : Sys) (prefix_ strategy : Name) : Option Result :=
  match fate with
  | .refused code => some ⟨s, setFailure code, none, true⟩
  | .lost => (setStrategy e s prefix_ strategy).map (fun r => ⟨r.1, setFailure 10060, none, true⟩)
  | .answered => (setStrategy e s prefix_ strategy).map (fun r =>
      if r.2.1 = 200 then ⟨r.1, 0, some (prefix_, r.2.2), true⟩ else ⟨r.1, setFailure r.2.1, none, true⟩)

/-- `StrategyChoiceModule::unset` (strategy-choice-module.cpp:127-150). -/
def unset (e : Env) (fate : Fate) (s : Sys) (prefix_ : Name) : Option Result :=
  if prefix_.isEmpty then some ⟨s, 2, none, false⟩
  else
    match fate with
    | .refused _ => some ⟨s, 1, none, true⟩
    | .lost => (unsetStrategy e s prefix_).map (fun r => ⟨r.1, 1, none, true⟩)
    | .answered => (unsetStrategy e s prefix_).map (fun r => if r.2 = 200 then ⟨r.1, 0, some (prefix_, none), true⟩ else ⟨r.1, 1, none, true⟩)

end Verif.Nfdc.Strategy
