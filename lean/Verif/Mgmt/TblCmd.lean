import Verif.Tables.Model

/-! The FIB and strategy-choice commands and datasets (daemon/mgmt/fib-manager.cpp, strategy-choice-manager.cpp), over the tables of
Verif.Tables.Model and the set of FaceIds in the face table. `none` is a failed assertion. -/
namespace Verif.TblCmd
open Verif.Tb
open Nt (maxDepth Nte)

structure Sys where
  faces : List FaceId
  tb : Tables

/-- `setFaceForSelfRegistration` (fib-manager.cpp:142-154): FaceId 0 stands for the face the command came from. -/
def targetFace (incoming face : FaceId) : FaceId := if face = 0 then incoming else face

/-- `FibManager::addNextHop` (fib-manager.cpp:58-85): the state and the status code. -/
def addNextHop (e : Env) (s : Sys) (incoming : FaceId) (p : Name) (face : FaceId) (cost : Nat) : Option (Sys × Nat) :=
  if p.length > maxDepth then some (s, 414)
  else if targetFace incoming face ∉ s.faces then some (s, 410)
  else do
    let a ← fibInsert e s.tb p
    let b ← fibSet e a.1 p (targetFace incoming face) cost
    some ({ s with tb := b.1 }, 200)

/-- `FibManager::removeNextHop` (fib-manager.cpp:87-122). -/
def removeNextHop (e : Env) (s : Sys) (incoming : FaceId) (p : Name) (face : FaceId) : Option (Sys × Nat) :=
  if targetFace incoming face ∉ s.faces then some (s, 200)
  else
    match (view e s.tb p).fib with
    | none => some (s, 200)
    | some _ => (fibUnset e s.tb p (targetFace incoming face)).map (fun r => ({ s with tb := r.1 }, 200))

/-- `FibManager::listEntries` (fib-manager.cpp:124-140) over `Fib::getRange` (fib.cpp:156-161). -/
def listFib (e : Env) (s : Sys) : List (Name × List NextHop) :=
  (Nt.fullFrom e.cfg.ch s.tb.nt hasFib (s.tb.nt.size + 1) none).map (fun n => (n, (view e s.tb n).fib.getD []))

/-- The status codes of `StrategyChoice::InsertResult` (strategy-choice.hpp:95-100). -/
def scCode : ScResult → Nat
  | .ok => 200
  | .notRegistered => 404
  | .exception => 409
  | .depthExceeded => 414

/-- `StrategyChoiceManager::setStrategy` (strategy-choice-manager.cpp:56-74): the state, the status code and the strategy instance
named in the body. The assertion at line 72 can fail. -/
def setStrategy (e : Env) (s : Sys) (p strategy : Name) : Option (Sys × Nat × Option Name) := do
  let r ← scInsert e s.tb p strategy
  if r.2 = .ok then
    let inst ← scGet e r.1 p
    some ({ s with tb := r.1 }, 200, some inst)
  else some ({ s with tb := r.1 }, scCode r.2, none)

/-- `StrategyChoiceManager::unsetStrategy` (strategy-choice-manager.cpp:76-87). The root prefix is refused by ndn-cxx before. -/
def unsetStrategy (e : Env) (s : Sys) (p : Name) : Option (Sys × Nat) :=
  if p = [] then some (s, 400) else (scErase e s.tb p).map (fun t => ({ s with tb := t }, 200))

def hasSc (_ : Name) (x : Nte Tbl) : Bool := x.tbl.sc.isSome

/-- `StrategyChoiceManager::listChoices` (strategy-choice-manager.cpp:89-99) over `StrategyChoice::getRange`
(strategy-choice.cpp:256-262). -/
def listChoices (e : Env) (s : Sys) : List (Name × Option Name) :=
  (Nt.fullFrom e.cfg.ch s.tb.nt hasSc (s.tb.nt.size + 1) none).map (fun n => (n, (view e s.tb n).sc))

/-- What happens: the four commands, faces appearing and disappearing (the forwarder cleans up before a face leaves the table,
forwarder.cpp:78-80, face-table.cpp:88-106), and everything else that works on the tables, except changes of the FIB. -/
inductive Ev
  | addNextHop (incoming : FaceId) (p : Name) (face : FaceId) (cost : Nat)
  | removeNextHop (incoming : FaceId) (p : Name) (face : FaceId)
  | setStrategy (p strategy : Name)
  | unsetStrategy (p : Name)
  | faceAdded (face : FaceId)
  | faceRemoved (face : FaceId)
  | other (op : Op)

/-- Operations on the tables that forwarding performs: neither on the FIB nor on the strategy choice. -/
def forwarding : Op → Bool
  | .fibInsert _ | .fibErase _ | .fibSet _ _ _ | .fibUnset _ _ | .cleanup _ | .scInsert _ _ | .scErase _ => false
  | _ => true

def step (e : Env) (s : Sys) : Ev → Option Sys
  | .addNextHop i p f c => (addNextHop e s i p f c).map (·.1)
  | .removeNextHop i p f => (removeNextHop e s i p f).map (·.1)
  | .setStrategy p st => (setStrategy e s p st).map (·.1)
  | .unsetStrategy p => (unsetStrategy e s p).map (·.1)
  | .faceAdded f => some { s with faces := f :: s.faces }
  | .faceRemoved f => (cleanup e s.tb f).map (fun t => ⟨s.faces.filter (· != f), t⟩)
  | .other op => if forwarding op then (op.run e s.tb).map (fun t => { s with tb := t }) else some s

def run (e : Env) : Sys → List Ev → Option Sys
  | s, [] => some s
  | s, x :: xs => (step e s x).bind (fun s => run e s xs)

/-- States reached from the start, with no faces and the default strategy `dflt`. -/
def Reached (e : Env) (dflt : Name) (s : Sys) : Prop := ∃ t evs, init e dflt = some t ∧ run e ⟨[], t⟩ evs = some s

end Verif.TblCmd
