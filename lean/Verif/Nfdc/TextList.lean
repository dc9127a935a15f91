import Verif.Nfdc.Report
/-! The lists that nfdc prints as text, one line for each item (`formatStatusText` and `formatItemText` of the modules, and format-helpers.cpp:118-201). The data
and the conventions are those of the XML report (Report.lean). -/
namespace Verif.Nfdc.TextList

open Report

/-- `std::to_string` of a signed number -/
def decI (n : Int) : Str := if n < 0 then '-' :: dec n.natAbs else dec n.natAbs

/-- `ItemAttributes` in single-line style (format-helpers.cpp:149-183): the attributes of an item, the first one if nothing was printed before -/
def attrs : Bool → List (Str × Str) → Str
  | _, [] => []
  | first, (a, v) :: l => (if first then [] else [' ']) ++ (a ++ '=' :: v) ++ attrs false l

/-- `Separator` (format-helpers.cpp:129-147): the strings with a separator before each but the first -/
def sepBy (sep : Str) : Bool → List Str → Str
  | _, [] => []
  | first, x :: l => (if first then [] else sep) ++ x ++ sepBy sep false l

/-- `formatDuration<time::seconds>` and `<time::milliseconds>` (format-helpers.hpp:254-260), of nanoseconds -/
def seconds (d : Int) : Str := decI (d.tdiv 1000000000) ++ lit "s"
def millis (d : Int) : Str := decI (d.tdiv 1000000) ++ lit "ms"

/-- face-module.cpp:481-492 -/
def congestion (f : FaceStatus) : Option Str :=
  if f.interval.isSome || f.threshold.isSome then
    some ('{' :: sepBy [' '] true
      ((f.interval.map (fun d => lit "base-marking-interval=" ++ millis d)).toList ++ (f.threshold.map (fun n => lit "default-threshold=" ++ dec n ++ lit "B")).toList) ++ ['}'])
  else none

/-- face-module.cpp:498-508 -/
def counters (f : FaceStatus) : Str :=
  lit "{in={" ++ dec f.nInInterests ++ lit "i " ++ dec f.nInData ++ lit "d " ++ dec f.nInNacks ++ lit "n " ++ dec f.nInBytes ++ lit "B} " ++
  lit "out={" ++ dec f.nOutInterests ++ lit "i " ++ dec f.nOutData ++ lit "d " ++ dec f.nOutNacks ++ lit "n " ++ dec f.nOutBytes ++ lit "B}}"

/-- face-module.cpp:510-524 -/
def flagWords (f : FaceStatus) : List Str :=
  [f.scope, f.persistency, f.linkType] ++ (if bit f.flags 0 then [lit "local-fields"] else []) ++ (if bit f.flags 1 then [lit "lp-reliability"] else []) ++
  (if bit f.flags 2 then [lit "congestion-marking"] else [])

/-- `FaceModule::formatItemText` (face-module.cpp:468-527) in single-line style -/
def faceAttrs (f : FaceStatus) : List (Str × Str) :=
  [(lit "faceid", dec f.id), (lit "remote", f.remote), (lit "local", f.local)] ++
  (f.expires.map (fun d => (lit "expires", seconds d))).toList ++
  ((congestion f).map (fun s => (lit "congestion", s))).toList ++
  (f.mtu.map (fun n => (lit "mtu", dec n))).toList ++
  [(lit "counters", counters f), (lit "flags", '{' :: sepBy [' '] true (flagWords f) ++ ['}'])]

def faceText (f : FaceStatus) : Str := attrs true (faceAttrs f)

/-- `FaceModule::formatStatusText` (face-module.cpp:457-466) -/
def facesText (l : List FaceStatus) : Str := lit "Faces:\n" ++ l.flatMap (fun f => lit "  " ++ faceText f ++ ['\n'])

/-- `FibModule::formatItemText` (fib-module.cpp:85-99) -/
def hopText (h : Nat × Nat) : Str := lit "faceid=" ++ dec h.1 ++ lit " (cost=" ++ dec h.2 ++ lit ")"
def fibItemText (i : FibItem) : Str := i.prefix_ ++ lit " nexthops={" ++ sepBy (lit ", ") true (i.hops.map hopText) ++ lit "}"
/-- `FibModule::formatStatusText` (fib-module.cpp:76-83) -/
def fibText (l : List FibItem) : Str := lit "FIB:\n" ++ l.flatMap (fun i => lit "  " ++ fibItemText i ++ ['\n'])

/-- `RibModule::formatRouteText` without the prefix (rib-module.cpp:391-410); `fl` is what ndn-cxx prints for flags. -/
def routeText (fl : Nat → Str) (r : RouteItem) : Str :=
  attrs true [(lit "nexthop", dec r.face), (lit "origin", r.origin), (lit "cost", dec r.cost), (lit "flags", fl r.flags),
    (lit "expires", match r.expires with | some d => decI d ++ lit "s" | none => lit "never")]
/-- `RibModule::formatEntryText` (rib-module.cpp:377-389) -/
def ribItemText (fl : Nat → Str) (i : RibItem) : Str := i.prefix_ ++ lit " routes={" ++ sepBy (lit ", ") true (i.routes.map (routeText fl)) ++ lit "}"
/-- `RibModule::formatStatusText` (rib-module.cpp:366-375) -/
def ribText (fl : Nat → Str) (l : List RibItem) : Str := lit "RIB:\n" ++ l.flatMap (fun i => lit "  " ++ ribItemText fl i ++ ['\n'])

/-- `StrategyChoiceModule::formatStatusText` and `formatItemText` (strategy-choice-module.cpp:185-203) in single-line style -/
def strategyText (i : Str × Str) : Str := attrs true [(lit "prefix", i.1), (lit "strategy", i.2)]
def strategiesText (l : List (Str × Str)) : Str := lit "Strategy choices:\n" ++ l.flatMap (fun i => lit "  " ++ strategyText i ++ ['\n'])

/-- `ChannelModule::formatStatusText` and `formatItemText` (channel-module.cpp:65-79) -/
def channelsText (l : List Str) : Str := lit "Channels:\n" ++ l.flatMap (fun u => lit "  " ++ u ++ ['\n'])

end Verif.Nfdc.TextList
