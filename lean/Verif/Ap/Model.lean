/-! When ASF probes: the flags of a namespace, the timers that set them and the lifetime of the measurements in which they are kept (daemon/fw/asf-probing-module.cpp:45-61,
191-219, daemon/fw/asf-measurements.cpp:97-141, daemon/fw/asf-strategy.cpp:210-228, daemon/table/measurements.cpp:39-69, 91-139). Times are in milliseconds. Names are lists
of components of any type. Simplifications: the strategy choices do not change, no other strategy makes measurements entries, and names are not longer than the
maximum depth of the name tree. -/
namespace Verif.Ap

variable {α : Type} [DecidableEq α]

/-- A measurements entry with its `NamespaceInfo` (asf-measurements.hpp:178-179). An entry outside the strategy's namespace has none: both flags are false. -/
structure Ent where
  due : Bool := false
  first : Bool := false
  expiry : Nat
deriving DecidableEq, Repr

structure Cfg (α : Type) where
  /-- `m_probingInterval` -/
  interval : Nat
  /-- `m_measurementsLifetime` -/
  lifetime : Nat
  /-- the effective strategy of this name is this one (`MeasurementsAccessor::filter`, measurements-accessor.cpp:43-55) -/
  under : List α → Bool

/-- The checks of the parameters (asf-probing-module.cpp:221-231, asf-strategy.cpp:54-58) -/
def Cfg.ok (c : Cfg α) : Bool := decide (1000 ≤ c.interval ∧ c.interval < c.lifetime)

structure St (α : Type) where
  now : Nat := 0
  ents : List α → Option Ent := fun _ => none
  /-- the scheduled functions of `scheduleProbe`: time and prefix -/
  timers : List (Nat × List α) := []
  /-- for the properties: FIB entries and times at which probes were sent, and at which a first probe was scheduled -/
  probes : List (List α × Nat) := []
  begun : List (List α × Nat) := []

/-- `Measurements::get` (measurements.cpp:39-55), with the initial lifetime of four seconds -/
def St.get (s : St α) (n : List α) : St α :=
  match s.ents n with
  | some _ => s
  | none => { s with ents := fun m => if m = n then some { expiry := s.now + 4000 } else s.ents m }

/-- `Measurements::extendLifetime` (measurements.cpp:125-139) -/
def St.extend (s : St α) (n : List α) (lifetime : Nat) : St α :=
  { s with ents := fun m => if m = n then (s.ents n).map (fun e => if e.expiry ≥ s.now + lifetime then e else { e with expiry := s.now + lifetime }) else s.ents m }

def St.setDue (s : St α) (n : List α) (b : Bool) : St α :=
  { s with ents := fun m => if m = n then (s.ents n).map (fun e => { e with due := b }) else s.ents m }

def St.setFirst (s : St α) (n : List α) : St α :=
  { s with ents := fun m => if m = n then (s.ents n).map (fun e => { e with first := true }) else s.ents m }

/-- The loop of `getOrCreateNamespaceInfo` (asf-measurements.cpp:120-124), with `k` prefixes of the name still to be tried, from length `len`; `none`: the assertion
fails. -/
def St.search (c : Cfg α) (name : List α) : Nat → Nat → St α → Option (St α × List α)
  | 0, _, _ => none
  | k + 1, len, s =>
    let n := name.take len
    if c.under n then some (s.get n, n) else search c name k (len + 1) (s.get n)

/-- `getOrCreateNamespaceInfo` (asf-measurements.cpp:113-135) -/
def St.getOrCreate (c : Cfg α) (s : St α) (fib name : List α) : Option (St α × List α) :=
  let s := s.get fib
  ((if c.under fib then some (s, fib) else s.search c name (name.length - fib.length) (fib.length + 1))).map (fun (s, n) => (s.extend n c.lifetime, n))

/-- `Measurements::findLongestPrefixMatch` (measurements.cpp:91-110) -/
def St.longest (s : St α) (n : List α) : Nat → Option (List α)
  | 0 => if (s.ents []).isSome then some [] else none
  | k + 1 => if (s.ents (n.take (k + 1))).isSome then some (n.take (k + 1)) else longest s n k

/-- `getNamespaceInfo` (asf-measurements.cpp:97-111) -/
def St.find (c : Cfg α) (s : St α) (n : List α) : Option (St α × List α) :=
  ((s.longest n n.length).filter c.under).map (fun m => (s.extend m c.lifetime, m))

/-- `scheduleProbe` (asf-probing-module.cpp:45-61) -/
def St.schedule (s : St α) (fib : List α) (d : Nat) : St α := { s with timers := s.timers ++ [(s.now + d, fib)] }

inductive Ev (α : Type)
  /-- a new Interest is forwarded, and `sendProbe` is called: `random` is the time until a first probe; `other`: there is a face to probe -/
  | interest (fib name : List α) (random : Nat) (other : Bool)
  /-- the namespace is looked up for an Interest that is not followed by a probe: it is a retransmission, or there is no next hop (asf-strategy.cpp:84-88, 97-114, with
  asf-measurements.cpp:85-95) -/
  | lookup (fib name : List α)
  /-- Data, a Nack or a timeout for this name (asf-strategy.cpp:144, 307) -/
  | touch (name : List α)
  /-- a scheduled function runs -/
  | fire (t : Nat) (fib : List α)
  /-- the lifetime of an entry has ended (`cleanup`) -/
  | expire (name : List α)
  | tick (d : Nat)

/-- `sendProbe` (asf-strategy.cpp:210-228) with `isProbingNeeded` and `afterForwardingProbe` (asf-probing-module.cpp:191-219) -/
def St.sendProbe (c : Cfg α) (s : St α) (fib name : List α) (random : Nat) (other : Bool) : Option (St α) := do
  let (s, n) ← s.getOrCreate c fib name
  let e ← s.ents n
  let s := if e.first then s else { (s.schedule fib random).setFirst n with begun := s.begun ++ [(fib, s.now)] }
  if e.due && other then do
    let (s, n) ← s.getOrCreate c fib name
    some { (s.setDue n false).schedule fib c.interval with probes := s.probes ++ [(fib, s.now)] }
  else some s

/-- `none`: an assertion fails, or there is nothing to run. -/
def St.step (c : Cfg α) (s : St α) : Ev α → Option (St α)
  | .interest fib name random other => s.sendProbe c fib name random other
  | .lookup fib name => (s.getOrCreate c fib name).map Prod.fst
  | .touch name =>
    match s.find c name with
    | some (s, _) => some s
    | none => some s
  | .fire t fib =>
    if (t, fib) ∈ s.timers ∧ t ≤ s.now then
      let s := { s with timers := s.timers.erase (t, fib) }
      match s.find c fib with
      | some (s, n) => some (s.setDue n true)
      | none => some s
    else none
  | .expire n => (s.ents n).bind (fun e => if e.expiry ≤ s.now then some { s with ents := fun m => if m = n then none else s.ents m } else none)
  | .tick d => some { s with now := s.now + d }

/-- The FIB entry is found for the name, which this strategy is in charge of; the random number is at most 5000; and the scheduler runs what is due earlier first. -/
def St.allowed (c : Cfg α) (s : St α) : Ev α → Prop
  | .interest fib name random _ => fib <+: name ∧ c.under name = true ∧ random ≤ 5000
  | .lookup fib name => fib <+: name ∧ c.under name = true
  | .expire n => ∀ e, s.ents n = some e → ∀ x ∈ s.timers, e.expiry ≤ x.1
  | _ => True

end Verif.Ap
