import Verif.Tables.Accessor
import Verif.Tables.Spec

/-! Strategy objects and the timers of the ASF strategy. A strategy object lives in an entry of the strategy choice table and is destroyed with it or when another
object takes its place; its timers call back into it. `Tables` (C15–C24) has the names of the strategies only; here each object has an identity. -/
namespace Verif.Tb

/-- A pending event. `owner` is the object whose `this` the callback has captured. `holder` is the measurements entry whose information holds the event
(a `ScopedEventId`, which cancels the event when it is destroyed), or `none` if nothing does. `name` is the name the callback looks up. -/
structure Timer where
  owner : Nat
  holder : Option Name
  due : Time
  name : Name

/-- The tables, the object in each entry of the strategy choice table, the next identity, and the pending events. -/
structure Sys where
  tb : Tables
  objs : List (Name × Nat)
  fresh : Nat
  timers : List Timer

inductive Ev
  /-- any operation on the tables -/
  | table (op : Op)
  /-- the ASF strategy in charge forwards an Interest by the FIB entry at `p`: a timeout after `rto` if none is pending for the face, and a probe if one is to be
  scheduled -/
  | forward (p name : Name) (rto probe : Option Time)
  /-- a held timer is cancelled (Data arrives, or the information about the face expires) -/
  | cancel (i : Nat)
  /-- the scheduler runs an event that is due -/
  | fire (i : Nat)

/-- `dangling`: a callback uses an object that has been destroyed. `stuck`: the event cannot happen here, or an assertion fails. -/
inductive Out
  | ok (x : Sys)
  | dangling
  | stuck

def Op.scPrefix : Op → Option Name
  | .scInsert p _ => some p
  | .scErase p => some p
  | _ => none

/-- The objects after an operation: a strategy that is set replaces the object of the entry (strategy-choice.cpp:108) unless it has the same instance name
(lines 90-93, the new object is destroyed at once); one that is unset destroys it (line 155). -/
def objsAfter (e : Env) (x : Sys) (op : Op) (s' : Tables) : List (Name × Nat) × Nat :=
  match op.scPrefix with
  | none => (x.objs, x.fresh)
  | some p =>
    if scAt e s' p = scAt e x.tb p then (x.objs, x.fresh)
    else if (scAt e s' p).isSome then ((p, x.fresh) :: x.objs.filter (fun o => o.1 ≠ p), x.fresh + 1)
    else (x.objs.filter (fun o => o.1 ≠ p), x.fresh)

/-- The information that holds the event still exists. `clearStrategyInfo` (strategy-choice.cpp:217-219) and the removal of the entry destroy it. -/
def Timer.held (e : Env) (s : Tables) (t : Timer) : Bool :=
  match t.holder with
  | none => true
  | some n => (measAt e s n).any (fun m => !m.info.isEmpty)

/-- The prefix of the strategy that the forwarder calls for a name (forwarder.cpp `dispatchToStrategy`, strategy-choice.cpp:185-189). -/
def scOwner (e : Env) (s : Tables) (name : Name) : Option Name := Nt.lpm e.cfg s.nt hasSc name

/-- The events scheduled by `forwardInterest` (asf-strategy.cpp:198-205; held by the information about the face, asf-measurements.hpp:116) and by
`scheduleProbe` (asf-probing-module.cpp:45-61; the identifier is dropped). -/
def newTimers (now : Time) (o : Nat) (m p name : Name) (rto probe : Option Time) : List Timer :=
  (rto.map (fun dt => (⟨o, some m, now + dt, name⟩ : Timer))).toList ++ (probe.map (fun dt => (⟨o, none, now + dt, p⟩ : Timer))).toList

/-- One event. `asf` is the type of the ASF strategy, `lt` the lifetime of its measurements. The timeout and the probe look up the information by name
(asf-strategy.cpp:305-307, asf-probing-module.cpp:51-60). Which of the events are scheduled and after how long is left open. -/
def step (e : Env) (asf : Nat) (lt : Time) (x : Sys) : Ev → Out
  | .table op =>
    match op.run e x.tb with
    | none => .stuck
    | some s' => .ok ⟨s', (objsAfter e x op s').1, (objsAfter e x op s').2, x.timers.filter (·.held e s')⟩
  | .forward p name rto probe =>
    if (fibAt e x.tb p).isSome ∨ p = [] then
      match scOwner e x.tb name with
      | none => .stuck
      | some q =>
        match x.objs.find? (fun o => o.1 = q) with
        | none => .stuck
        | some o =>
          if (scAt e x.tb q).bind e.styp = some asf then
            match getOrCreateNamespaceInfo e lt q p name x.tb with
            | none => .stuck
            | some r => .ok { x with tb := r.1, timers := newTimers x.tb.now o.2 r.2 p name rto probe ++ x.timers }
          else .stuck
    else .stuck
  | .cancel i =>
    match x.timers[i]? with
    | none => .stuck
    | some t => if t.holder.isSome then .ok { x with timers := x.timers.eraseIdx i } else .stuck
  | .fire i =>
    match x.timers[i]? with
    | none => .stuck
    | some t =>
      if x.tb.now < t.due then .stuck
      else
        match x.objs.find? (fun o => o.2 = t.owner) with
        | none => .dangling
        | some o =>
          match getNamespaceInfo e lt o.1 t.name x.tb with
          | none => .stuck
          | some r => .ok { x with tb := r.1, timers := x.timers.eraseIdx i }

/-- The forwarder as it starts: the default strategy is the first object. -/
def startSys (s : Tables) : Sys := ⟨s, [([], 0)], 1, []⟩

/-- Events one after another, until one goes wrong. -/
def steps (e : Env) (asf : Nat) (lt : Time) (x : Sys) : List Ev → Out
  | [] => .ok x
  | ev :: evs =>
    match step e asf lt x ev with
    | .ok x' => steps e asf lt x' evs
    | .dangling => .dangling
    | .stuck => .stuck

end Verif.Tb
