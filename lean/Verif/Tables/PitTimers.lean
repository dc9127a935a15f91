import Verif.Tables.Timers

/-! The timers of the access strategy: one for each PIT entry at most, held by the information that the strategy keeps on the entry. -/
namespace Verif.Tb

/-- A pending timeout (access-strategy.cpp:149-153). `owner` is the object whose `this` the callback has captured, `entry` the PIT entry whose information
holds the event (`PitInfo::rtoTimer`, access-strategy.hpp:83, a `ScopedEventId`). -/
structure PitTimer where
  owner : Nat
  entry : Interest
  due : Time

/-- The tables and the strategy objects (as in `Timers`, without the events of ASF), and the timeouts of the access strategy. -/
structure PSys where
  sys : Sys
  timers : List PitTimer

inductive PEv
  /-- any operation on the tables -/
  | table (op : Op)
  /-- the access strategy in charge of the entry sends the Interest to the last working next hop -/
  | send (i : Interest) (rto : Time)
  /-- Data satisfies the entry (access-strategy.cpp:211-214) -/
  | cancel (i : Interest)
  /-- the scheduler runs an event that is due -/
  | fire (k : Nat)

inductive POut
  | ok (x : PSys)
  | dangling
  | stuck

/-- The information of the access strategy (type `acc`) on the entry still exists. `clearStrategyInfo` (strategy-choice.cpp:208-216) and the removal of the
entry destroy it. -/
def PitTimer.held (e : Env) (acc : Nat) (s : Tables) (t : PitTimer) : Bool :=
  (view e s (pitNode t.entry.name)).pit.any (fun p => sameKey t.entry p && p.info.contains acc)

/-- The prefix of the strategy that the forwarder calls for a PIT entry (strategy-choice.cpp:191-195). -/
def scOwnerPit (e : Env) (s : Tables) (name : Name) : Option Name :=
  (Nt.lpmPit e.cfg s.nt hasSc name (pitNode name)).bind id

/-- One event. The new timeout replaces the one of the same entry (assignment of a `ScopedEventId`, access-strategy.cpp:150). -/
def pstep (e : Env) (acc : Nat) (x : PSys) : PEv → POut
  | .table op =>
    match step e acc 0 x.sys (.table op) with
    | .ok y => .ok ⟨y, x.timers.filter (·.held e acc y.tb)⟩
    | _ => .stuck
  | .send i rto =>
    match scOwnerPit e x.sys.tb i.name with
    | none => .stuck
    | some q =>
      match x.sys.objs.find? (fun o => o.1 = q) with
      | none => .stuck
      | some o =>
        if (scAt e x.sys.tb q).bind e.styp = some acc then
          match step e acc 0 x.sys (.table (.pitWrite i)) with
          | .ok y => .ok ⟨y, ⟨o.2, i, x.sys.tb.now + rto⟩ :: x.timers.filter (fun t => t.entry ≠ i)⟩
          | _ => .stuck
        else .stuck
  | .cancel i => .ok { x with timers := x.timers.filter (fun t => t.entry ≠ i) }
  | .fire k =>
    match x.timers[k]? with
    | none => .stuck
    | some t =>
      if x.sys.tb.now < t.due then .stuck
      else if (x.sys.objs.find? (fun o => o.2 = t.owner)).isSome then .ok { x with timers := x.timers.eraseIdx k }
      else .dangling

/-- Events one after another, until one goes wrong. -/
def psteps (e : Env) (acc : Nat) (x : PSys) : List PEv → POut
  | [] => .ok x
  | ev :: evs =>
    match pstep e acc x ev with
    | .ok x' => psteps e acc x' evs
    | .dangling => .dangling
    | .stuck => .stuck

end Verif.Tb
