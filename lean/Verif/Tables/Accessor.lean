import Verif.Tables.Model

/-! `MeasurementsAccessor` (daemon/table/measurements-accessor.{hpp,cpp}), through which strategies reach the measurements, and its use by the ASF strategy
(daemon/fw/asf-measurements.cpp). A strategy object belongs to one entry of the strategy choice table (strategy-choice-entry.hpp:79-80), so the prefix of this entry
stands for the object. `none` is a failed assertion or the use of a null pointer. -/
namespace Verif.Tb
open Nt (maxDepth)

/-- The object that `findEffectiveStrategy(measurements::Entry)` (strategy-choice.cpp:197-201) returns, given by its prefix. -/
def scOwnerMeas (e : Env) (s : Tables) (n : Name) : Option Name := (Nt.lpmEntry e.cfg s.nt hasSc (n.length + 1) (some n)).bind id

/-- `MeasurementsAccessor::filter` (measurements-accessor.cpp:43-55) in the strategy at `q`, for the entry at `n`. -/
def filter (e : Env) (s : Tables) (q n : Name) : Option (Option Name) :=
  (scOwnerMeas e s n).map (fun o => if o = q then some n else none)

/-- `get(const Name&)` (measurements-accessor.hpp:120-124). -/
def accGet (e : Env) (s : Tables) (q name : Name) : Option (Tables × Option Name) :=
  (measGet e s name).bind (fun s' => (filter e s' q (name.take (min name.length maxDepth))).map (fun r => (s', r)))

/-- `get(const fib::Entry&)` (measurements-accessor.hpp:126-130). -/
def accGetFib (e : Env) (s : Tables) (q p : Name) : Option (Tables × Option Name) :=
  (measGetFib e s p).bind (fun s' => (filter e s' q p).map (fun r => (s', r)))

/-- `getParent` (measurements-accessor.hpp:138-142); the root has none. -/
def accGetParent (e : Env) (s : Tables) (q n : Name) : Option (Tables × Option Name) :=
  (measGetParent e s n).bind (fun s' => if n = [] then some (s', none) else (filter e s' q n.dropLast).map (fun r => (s', r)))

/-- `findLongestPrefixMatch` (measurements-accessor.hpp:144-156). -/
def accLpm (e : Env) (s : Tables) (q : Name) (pred : Name → MeasEntry → Bool) (name : Name) : Option (Option Name) :=
  match measLpm e s pred name with
  | none => some none
  | some n => filter e s q n

/-- The loop of `getOrCreateNamespaceInfo` (asf-measurements.cpp:120-124); `k` is the number of lengths left. -/
def nsLoop (e : Env) (q name : Name) : Nat → Nat → Tables → Option Name → Option (Tables × Option Name)
  | 0, _, s, me => some (s, me)
  | k + 1, len, s, me =>
    match me with
    | some m => some (s, some m)
    | none => (accGet e s q (name.take len)).bind (fun r => nsLoop e q name k (len + 1) r.1 r.2)

/-- Extending the entry and storing the information (asf-measurements.cpp:106-108, 130-132). -/
def useEntry (e : Env) (s : Tables) (lifetime : Time) (m : Name) : Option Tables := (measExtend e s m lifetime).bind (fun s => measWrite e s m)

/-- `AsfMeasurements::getOrCreateNamespaceInfo` (asf-measurements.cpp:113-135) in the strategy at `q`, for the FIB entry at `p` and the name of the Interest:
the entry that has the information. -/
def getOrCreateNamespaceInfo (e : Env) (lifetime : Time) (q p name : Name) (s : Tables) : Option (Tables × Name) :=
  (accGetFib e s q p).bind (fun r =>
    (nsLoop e q name (name.length - p.length) (p.length + 1) r.1 r.2).bind (fun r =>
      r.2.bind (fun m => (useEntry e r.1 lifetime m).map (fun s => (s, m)))))

/-- `AsfMeasurements::getNamespaceInfo` (asf-measurements.cpp:97-111). -/
def getNamespaceInfo (e : Env) (lifetime : Time) (q name : Name) (s : Tables) : Option (Tables × Option Name) :=
  (accLpm e s q (fun _ _ => true) name).bind (fun r =>
    match r with
    | none => some (s, none)
    | some m => (useEntry e s lifetime m).map (fun s => (s, some m)))

end Verif.Tb
