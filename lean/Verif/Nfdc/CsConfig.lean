import Verif.Cs.Model

/-! `nfdc cs config` (tools/nfdc/cs-module.cpp:53-86), the command cs/config and the dataset cs/info (daemon/mgmt/cs-manager.cpp), and the Content Store. -/
namespace Verif.Nfdc.CsConfig
open Verif Verif.Cs

/-- The fields of ControlParameters in use. -/
structure Params where
  capacity : Option Nat := none
  flags : Option Nat := none
  mask : Option Nat := none
deriving DecidableEq, Repr

/-- `n` with bit `b` set to `v`. -/
def putBit (n b : Nat) (v : Bool) : Nat := if v = n.testBit b then n else if v then n + 2 ^ b else n - 2 ^ b

/-- `ControlParameters::setFlagBit(bit, value, wantMask)` of ndn-cxx. -/
def Params.setFlagBit (p : Params) (b : Nat) (v : Bool) (wantMask : Bool := true) : Params :=
  let p := { p with flags := some (putBit (p.flags.getD 0) b v) }
  if wantMask then { p with mask := some (putBit (p.mask.getD 0) b true) } else p

/-- `ControlParameters::hasFlagBit` of ndn-cxx. -/
def Params.hasFlagBit (p : Params) (b : Nat) : Bool := (p.mask.getD 0).testBit b
/-- `ControlParameters::getFlagBit` of ndn-cxx. -/
def Params.getFlagBit (p : Params) (b : Nat) : Bool := (p.flags.getD 0).testBit b

/-- `ndn::nfd::BIT_CS_ENABLE_ADMIT`, `BIT_CS_ENABLE_SERVE` -/
def bitAdmit : Nat := 0
def bitServe : Nat := 1

/-- The parameters of the command (cs-module.cpp:58-71); `none` is an argument that was not given. -/
def request (capacity : Option Nat) (admit serve : Option Bool) : Params :=
  let p : Params := { capacity := capacity }
  let p := match admit with | some v => p.setFlagBit bitAdmit v | none => p
  match serve with | some v => p.setFlagBit bitServe v | none => p

/-- cs-manager.cpp:59-61 -/
def setCapacity (s : Cs) : Option Nat → Option Cs
  | some n => s.setLimit n
  | none => some s

/-- `CsManager::changeConfig` (cs-manager.cpp:53-76). `none`: the store is in undefined behaviour. -/
def changeConfig (s : Cs) (q : Params) : Option (Cs × Params) :=
  (setCapacity s q.capacity).map (fun (s : Cs) =>
    let s := if q.hasFlagBit bitAdmit then { s with admit := q.getFlagBit bitAdmit } else s
    let s := if q.hasFlagBit bitServe then { s with serve := q.getFlagBit bitServe } else s
    let body : Params := { capacity := some s.limit }
    let body := body.setFlagBit bitAdmit s.admit false
    (s, body.setFlagBit bitServe s.serve false))

/-- What becomes of the command. -/
inductive Fate
  | answered
  /-- carried out, but nfdc does not get the answer in time -/
  | lost
  /-- not carried out; nfdc gets an error or no answer -/
  | refused
deriving DecidableEq, Repr

structure Result where
  cs : Cs
  exitCode : Nat
  /-- capacity, admit, serve as printed -/
  printed : Option (Nat × Bool × Bool)
deriving DecidableEq, Repr

/-- `CsModule::config` (cs-module.cpp:53-86). -/
def config (fate : Fate) (s : Cs) (capacity : Option Nat) (admit serve : Option Bool) : Option Result :=
  match fate with
  | .refused => some ⟨s, 1, none⟩
  | .lost => (changeConfig s (request capacity admit serve)).map (fun r => ⟨r.1, 1, none⟩)
  | .answered => (changeConfig s (request capacity admit serve)).map (fun r =>
      ⟨r.1, 0, some (r.2.capacity.getD 0, r.2.getFlagBit bitAdmit, r.2.getFlagBit bitServe)⟩)

end Verif.Nfdc.CsConfig
