import Verif.Tables.Accessor

/-! The measurements of the access strategy (daemon/fw/access-strategy.cpp): where they are kept and looked up, and what they say. -/
namespace Verif.Tb

/-- Eight seconds, in nanoseconds (access-strategy.cpp:276). -/
def accessLifetime : Time := 8000000000

/-- `AccessStrategy::addPrefixMeasurements` (access-strategy.cpp:263-278) in the strategy at `q`: the entry that has the information about Data of this name. `none` is the failed
assertion (access-strategy.cpp:273) or, in a release build, the use of a null pointer (access-strategy.cpp:276). -/
def addPrefixMeasurements (e : Env) (q name : Name) (s : Tables) : Option (Tables × Name) :=
  (if name = [] then some (s, none) else accGet e s q name.dropLast).bind (fun r =>
    match r.2 with
    | some m => (useEntry e r.1 accessLifetime m).map (fun s => (s, m))
    | none =>
      (accGet e r.1 q name).bind (fun r => r.2.bind (fun m => (useEntry e r.1 accessLifetime m).map (fun s => (s, m)))))

/-- `AccessStrategy::findPrefixMeasurements` (access-strategy.cpp:248-261) in the strategy at `q` of type `ty`: the entry with the information for an Interest of this name.
The search by PIT entry is one by its name (measurements.cpp:113-116). -/
def findPrefixMeasurements (e : Env) (q : Name) (ty : Nat) (name : Name) (s : Tables) : Option (Option Name) :=
  (accLpm e s q (fun _ _ => true) name).map (fun r => r.bind (fun m =>
    match (view e s m).meas with
    | some x => if ty ∈ x.info then some m else none
    | none => none))

/-! What the information says. An estimate of the round-trip time is given by the samples that went into it, since ndn-cxx computes it from these. -/
namespace Access

/-- `MtInfo` (access-strategy.hpp:88-106); 0 is `INVALID_FACEID` -/
structure Mt where
  lastNexthop : FaceId := 0
  rtt : List Nat := []
deriving DecidableEq, Repr

/-- The information of the prefixes (those that have any) and `m_fit` (access-strategy.hpp:171). -/
structure St where
  mt : List (Name × Mt) := []
  fit : List (FaceId × List Nat) := []
deriving DecidableEq, Repr

/-- `find` of `std::unordered_map` -/
def look {α β : Type} [DecidableEq α] (l : List (α × β)) (k : α) : Option β := (l.find? (fun p => p.1 = k)).map (·.2)
/-- Assignment to an element of `std::unordered_map` -/
def put {α β : Type} [DecidableEq α] (l : List (α × β)) (k : α) (v : β) : List (α × β) := (k, v) :: l.filter (fun p => p.1 ≠ k)
/-- `erase` of `std::unordered_map` -/
def drop {α β : Type} [DecidableEq α] (l : List (α × β)) (k : α) : List (α × β) := l.filter (fun p => p.1 ≠ k)

/-- `AccessStrategy::updateMeasurements` (access-strategy.cpp:232-246), where the information is kept at `m` -/
def update (s : St) (m : Name) (face : FaceId) (rtt : Nat) : St :=
  let fi := (look s.fit face).getD [] ++ [rtt]
  let mi := (look s.mt m).getD {}
  { fit := put s.fit face fi, mt := put s.mt m (if mi.lastNexthop ≠ face then { lastNexthop := face, rtt := fi } else { mi with rtt := mi.rtt ++ [rtt] }) }

inductive Ev
  /-- Data that passes the checks of `beforeSatisfyInterest` (access-strategy.cpp:207-230), from this face, with information kept at this name -/
  | data (m : Name) (face : FaceId) (rtt : Nat)
  /-- the face is removed (access-strategy.cpp:39) -/
  | gone (face : FaceId)
  /-- the measurements entry goes away or is cleared -/
  | cleared (m : Name)
deriving DecidableEq, Repr

/-- access-strategy.cpp:39 and 229; an entry that is cleared has no information until the next Data -/
def step (s : St) : Ev → St
  | .data m face rtt => update s m face rtt
  | .gone face => { s with fit := drop s.fit face }
  | .cleared m => { s with mt := drop s.mt m }

/-- A history of events -/
def run (s : St) (l : List Ev) : St := l.foldl step s

end Access
end Verif.Tb
