import Verif.Rib.Model

/-
The RIB with its FIB when updates are processed one at a time: every update is computed, its commands are carried out by the forwarder in
order, and the RIB is changed. (The asynchronous queue is modelled in Verif.Rib.Async.)
-/
namespace Verif.Rib

/-- The routes of a name. -/
def Rib.routes (b : Rib) (n : Name) : List Route :=
  match get b.table n with
  | none => []
  | some e => e.routes

/-- Face numbers are not reused (C35). -/
inductive Status where
  | unborn | alive | gone
deriving DecidableEq, Repr

/-- The next hops in the FIB: cost for a name and a face. -/
abbrev Fib := Name → Nat → Option Nat

structure Sys where
  rib : Rib
  fib : Fib
  face : Nat → Status

def Sys.init : Sys := ⟨Rib.init, fun _ _ => none, fun _ => .unborn⟩

def setHop (fib : Fib) (n : Name) (f : Nat) (c : Option Nat) : Fib := fun n' f' => if n' = n ∧ f' = f then c else fib n' f'

/-- `FibManager::addNextHop` and `removeNextHop` (daemon/mgmt/fib-manager.cpp:58-122) for names that are not too long: adding is refused (410)
if there is no such face; removing always succeeds. -/
def applyFib (face : Nat → Status) (fib : Fib) (u : FibUpd) : Fib :=
  if u.adding then (if face u.face = .alive then setHop fib u.name u.face (some u.cost) else fib) else setHop fib u.name u.face none

/-- Whether the forwarder refuses (410). -/
def refused (face : Nat → Status) (u : FibUpd) : Bool := u.adding && face u.face != .alive

inductive Op where
  | update (u : Update)
  /-- a face is created -/
  | create (f : Nat)
  /-- a face is destroyed: the forwarder removes its next hops (forwarder.cpp, fib.cpp cleanupOnFaceRemoval) -/
  | destroy (f : Nat)

/-- computeAndSendFibUpdates, onUpdateSuccess, onUpdateError and onFibUpdateSuccess (fib-updater.cpp:45-62, 173-294; rib.cpp:398-440), without
timeouts, one batch after another: the updates for the face of the batch come first, and if one of them is refused the batch fails; the
refusal of others is ignored. -/
def Sys.update (tie : List Route → Nat) (s : Sys) (u : Update) : Except Fault Sys :=
  match plan tie s.rib.table u with
  | .error f => .error f
  | .ok p =>
    let fib := p.batch.foldl (applyFib s.face) s.fib
    if p.batch.any (refused s.face) then .ok { s with fib := fib }
    else
      match commit s.rib u p.inherited with
      | .error f => .error f
      | .ok b => .ok { s with rib := b, fib := p.other.foldl (applyFib s.face) fib }

def Sys.step (tie : List Route → Nat) (s : Sys) : Op → Except Fault Sys
  | .update u => s.update tie u
  | .create f => .ok (if s.face f = .unborn then { s with face := fun g => if g = f then .alive else s.face g } else s)
  | .destroy f =>
    .ok (if s.face f = .alive then
      { s with face := fun g => if g = f then .gone else s.face g, fib := fun n g => if g = f then none else s.fib n g }
    else s)

def Sys.run (tie : List Route → Nat) : Sys → List Op → Except Fault Sys
  | s, [] => .ok s
  | s, o :: l =>
    match s.step tie o with
    | .error f => .error f
    | .ok s => Sys.run tie s l

end Verif.Rib
