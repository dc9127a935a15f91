/-! The XML report of `nfdc status report` (tools/nfdc/status.cpp, status-report.cpp, format-helpers.cpp and the `formatStatusXml` functions of the modules).
Text is a list of characters. Names and timestamps are given by the text that ndn-cxx prints for them, and so are the enumerations. -/
namespace Verif.Nfdc.Report

abbrev Str := List Char

/-- A literal of the program. -/
abbrev lit (s : String) : Str := s.toList

def digitChar (d : Nat) : Char := Char.ofNat (48 + d)

/-- What `operator<<` prints for an unsigned integer. -/
def dec (n : Nat) : Str := if n < 10 then [digitChar n] else dec (n / 10) ++ [digitChar (n % 10)]
termination_by n

/-- `operator<<(std::ostream&, const Text&)` (format-helpers.cpp:48-74) -/
def text : Str → Str
  | [] => []
  | c :: s =>
    (if c = '"' then lit "&quot;"
     else if c = '&' then lit "&amp;"
     else if c = '\'' then lit "&apos;"
     else if c = '<' then lit "&lt;"
     else if c = '>' then lit "&gt;"
     else [c]) ++ text s

/-- `operator<<(std::ostream&, Flag)` (format-helpers.cpp:76-83) -/
def flag (name : String) (b : Bool) : Str := if b then '<' :: (lit name ++ lit "/>") else []

/-- `setw(3)` with `setfill('0')` -/
def pad3 (s : Str) : Str := List.replicate (3 - s.length) '0' ++ s

/-- `formatDuration` (format-helpers.cpp:85-108) for a number of nanoseconds. -/
def duration (d : Int) : Str :=
  let a := d.natAbs
  let s := a / 1000000000
  let ms := (a - s * 1000000000) / 1000000
  (if d < 0 then lit "-" else []) ++ lit "PT" ++ dec s ++ (if 1 ≤ ms then lit "." ++ pad3 (dec ms) else []) ++ lit "S"

structure General where
  version : Str := []
  startTime : Str := lit "1970-01-01T00:00:00"
  currentTime : Str := lit "1970-01-01T00:00:00"
  /-- `calculateUptime`, as seconds -/
  uptime : Int := 0
  nNameTree : Nat := 0
  nFib : Nat := 0
  nPit : Nat := 0
  nMeasurements : Nat := 0
  nCs : Nat := 0
  nInInterests : Nat := 0
  nInData : Nat := 0
  nInNacks : Nat := 0
  nOutInterests : Nat := 0
  nOutData : Nat := 0
  nOutNacks : Nat := 0
  nSatisfied : Nat := 0
  nUnsatisfied : Nat := 0
deriving DecidableEq, Repr

structure FaceStatus where
  id : Nat
  remote : Str
  «local» : Str
  /-- nanoseconds -/
  expires : Option Int := none
  scope : Str
  persistency : Str
  linkType : Str
  interval : Option Int := none
  threshold : Option Nat := none
  mtu : Option Nat := none
  flags : Nat := 0
  nInInterests : Nat := 0
  nInData : Nat := 0
  nInNacks : Nat := 0
  nOutInterests : Nat := 0
  nOutData : Nat := 0
  nOutNacks : Nat := 0
  nInBytes : Nat := 0
  nOutBytes : Nat := 0
deriving DecidableEq, Repr

structure FibItem where
  prefix_ : Str
  /-- FaceId and cost -/
  hops : List (Nat × Nat)
deriving DecidableEq, Repr

structure RouteItem where
  face : Nat
  origin : Str
  cost : Nat
  flags : Nat
  /-- seconds -/
  expires : Option Int
deriving DecidableEq, Repr

structure RibItem where
  prefix_ : Str
  routes : List RouteItem
deriving DecidableEq, Repr

structure CsItem where
  capacity : Nat := 0
  admit : Bool := false
  serve : Bool := false
  nEntries : Nat := 0
  nHits : Nat := 0
  nMisses : Nat := 0
deriving DecidableEq, Repr

/-- What a section shows. -/
inductive Section
  | general (g : General)
  | channels (l : List Str)
  | faces (l : List FaceStatus)
  | fib (l : List FibItem)
  | rib (l : List RibItem)
  | cs (c : CsItem)
  /-- prefix and strategy -/
  | strategies (l : List (Str × Str))
deriving DecidableEq, Repr

/-- What stands between two literals. -/
def wrap (o : String) (s : Str) (c : String) : Str := lit o ++ s ++ lit c

/-- Printed only if there is a value. -/
def optional {α : Type} (o : Option α) (f : α → Str) : Str :=
  match o with
  | some a => f a
  | none => []

/-- The lines that general status and faces have in common (forwarder-general-module.cpp:77-88, face-module.cpp:436-447). -/
def packetCounters (a b c d e f : Nat) : Str :=
  wrap "<packetCounters>"
    ((wrap "<incomingPackets>"
      (wrap "<nInterests>" (dec a) "</nInterests>" ++
      (wrap "<nData>" (dec b) "</nData>" ++
      wrap "<nNacks>" (dec c) "</nNacks>")) "</incomingPackets>") ++
    (wrap "<outgoingPackets>"
      (wrap "<nInterests>" (dec d) "</nInterests>" ++
      (wrap "<nData>" (dec e) "</nData>" ++
      wrap "<nNacks>" (dec f) "</nNacks>")) "</outgoingPackets>")) "</packetCounters>"

/-- `ForwarderGeneralModule::formatItemXml` (forwarder-general-module.cpp:60-94) -/
def generalXml (g : General) : Str :=
  wrap "<generalStatus>"
    (wrap "<version>" (text g.version) "</version>" ++
    (wrap "<startTime>" g.startTime "</startTime>" ++
    (wrap "<currentTime>" g.currentTime "</currentTime>" ++
    (wrap "<uptime>" (duration (g.uptime * 1000000000)) "</uptime>" ++
    (wrap "<nNameTreeEntries>" (dec g.nNameTree) "</nNameTreeEntries>" ++
    (wrap "<nFibEntries>" (dec g.nFib) "</nFibEntries>" ++
    (wrap "<nPitEntries>" (dec g.nPit) "</nPitEntries>" ++
    (wrap "<nMeasurementsEntries>" (dec g.nMeasurements) "</nMeasurementsEntries>" ++
    (wrap "<nCsEntries>" (dec g.nCs) "</nCsEntries>" ++
    (packetCounters g.nInInterests g.nInData g.nInNacks g.nOutInterests g.nOutData g.nOutNacks ++
    (wrap "<nSatisfiedInterests>" (dec g.nSatisfied) "</nSatisfiedInterests>" ++
    wrap "<nUnsatisfiedInterests>" (dec g.nUnsatisfied) "</nUnsatisfiedInterests>"))))))))))) "</generalStatus>"

/-- `ChannelModule::formatStatusXml`, `formatItemXml` (channel-module.cpp:47-63) -/
def channelXml (u : Str) : Str := wrap "<channel>" (wrap "<localUri>" (text u) "</localUri>") "</channel>"
def channelsXml (l : List Str) : Str := wrap "<channels>" (l.flatMap channelXml) "</channels>"

/-- `getFlagBit` -/
def bit (flags i : Nat) : Bool := flags / 2 ^ i % 2 == 1

/-- `FaceModule::formatItemXml` (face-module.cpp:389-455) -/
def faceXml (f : FaceStatus) : Str :=
  wrap "<face>"
    (wrap "<faceId>" (dec f.id) "</faceId>" ++
    (wrap "<remoteUri>" (text f.remote) "</remoteUri>" ++
    (wrap "<localUri>" (text f.local) "</localUri>" ++
    (optional f.expires (fun d => wrap "<expirationPeriod>" (duration d) "</expirationPeriod>") ++
    (wrap "<faceScope>" f.scope "</faceScope>" ++
    (wrap "<facePersistency>" f.persistency "</facePersistency>" ++
    (wrap "<linkType>" f.linkType "</linkType>" ++
    ((if f.interval.isNone && f.threshold.isNone then lit "<congestion/>"
      else
        wrap "<congestion>"
          (optional f.interval (fun d => wrap "<baseMarkingInterval>" (duration d) "</baseMarkingInterval>") ++
          optional f.threshold (fun n => wrap "<defaultThreshold>" (dec n) "</defaultThreshold>")) "</congestion>") ++
    (optional f.mtu (fun n => wrap "<mtu>" (dec n) "</mtu>") ++
    ((if f.flags = 0 then lit "<flags/>"
      else
        wrap "<flags>"
          (flag "localFieldsEnabled" (bit f.flags 0) ++
          (flag "lpReliabilityEnabled" (bit f.flags 1) ++
          flag "congestionMarkingEnabled" (bit f.flags 2))) "</flags>") ++
    (packetCounters f.nInInterests f.nInData f.nInNacks f.nOutInterests f.nOutData f.nOutNacks ++
    (wrap "<byteCounters>"
      (wrap "<incomingBytes>" (dec f.nInBytes) "</incomingBytes>" ++
      wrap "<outgoingBytes>" (dec f.nOutBytes) "</outgoingBytes>") "</byteCounters>")))))))))))) "</face>"

/-- `FaceModule::formatStatusXml` (face-module.cpp:379-387) -/
def facesXml (l : List FaceStatus) : Str := wrap "<faces>" (l.flatMap faceXml) "</faces>"

/-- `FibModule::formatItemXml` (fib-module.cpp:57-74) -/
def hopXml (h : Nat × Nat) : Str :=
  wrap "<nextHop>" (wrap "<faceId>" (dec h.1) "</faceId>" ++ wrap "<cost>" (dec h.2) "</cost>") "</nextHop>"
def fibItemXml (i : FibItem) : Str :=
  wrap "<fibEntry>"
    (wrap "<prefix>" (text i.prefix_) "</prefix>" ++
    (wrap "<nextHops>" (i.hops.flatMap hopXml) "</nextHops>")) "</fibEntry>"
/-- `FibModule::formatStatusXml` (fib-module.cpp:47-55) -/
def fibXml (l : List FibItem) : Str := wrap "<fib>" (l.flatMap fibItemXml) "</fib>"

/-- `RibModule::formatItemXml` (rib-module.cpp:328-364); the flags are CHILD_INHERIT and CAPTURE, 1 and 2. -/
def routeXml (r : RouteItem) : Str :=
  wrap "<route>"
    (wrap "<faceId>" (dec r.face) "</faceId>" ++
    (wrap "<origin>" r.origin "</origin>" ++
    (wrap "<cost>" (dec r.cost) "</cost>" ++
    ((if r.flags = 0 then lit "<flags/>"
      else
        wrap "<flags>"
          ((if bit r.flags 0 then lit "<childInherit/>" else []) ++
          (if bit r.flags 1 then lit "<ribCapture/>" else [])) "</flags>") ++
    optional r.expires (fun d => wrap "<expirationPeriod>" (duration (d * 1000000000)) "</expirationPeriod>"))))) "</route>"
def ribItemXml (i : RibItem) : Str :=
  wrap "<ribEntry>"
    (wrap "<prefix>" (text i.prefix_) "</prefix>" ++
    (wrap "<routes>" (i.routes.flatMap routeXml) "</routes>")) "</ribEntry>"
/-- `RibModule::formatStatusXml` (rib-module.cpp:318-326) -/
def ribXml (l : List RibItem) : Str := wrap "<rib>" (l.flatMap ribItemXml) "</rib>"

/-- `CsModule::formatItemXml` (cs-module.cpp:152-163) -/
def csXml (c : CsItem) : Str :=
  wrap "<cs>"
    (wrap "<capacity>" (dec c.capacity) "</capacity>" ++
    (flag "admitEnabled" c.admit ++
    (flag "serveEnabled" c.serve ++
    (wrap "<nEntries>" (dec c.nEntries) "</nEntries>" ++
    (wrap "<nHits>" (dec c.nHits) "</nHits>" ++
    wrap "<nMisses>" (dec c.nMisses) "</nMisses>"))))) "</cs>"

/-- `StrategyChoiceModule::formatItemXml` (strategy-choice-module.cpp:176-183) -/
def strategyXml (i : Str × Str) : Str :=
  wrap "<strategyChoice>"
    (wrap "<namespace>" (text i.1) "</namespace>" ++
    (wrap "<strategy>" (wrap "<name>" (text i.2) "</name>") "</strategy>")) "</strategyChoice>"
/-- `StrategyChoiceModule::formatStatusXml` (strategy-choice-module.cpp:166-174) -/
def strategiesXml (l : List (Str × Str)) : Str := wrap "<strategyChoices>" (l.flatMap strategyXml) "</strategyChoices>"

def sectionXml : Section → Str
  | .general g => generalXml g
  | .channels l => channelsXml l
  | .faces l => facesXml l
  | .fib l => fibXml l
  | .rib l => ribXml l
  | .cs c => csXml c
  | .strategies l => strategiesXml l

/-- `StatusReport::formatXml` (status-report.cpp:71-79) with `printHeader` and `printFooter` (format-helpers.cpp:35-46) -/
def formatXml (l : List Section) : Str :=
  lit "<?xml version=\"1.0\"?>" ++ lit "<nfdStatus xmlns=\"ndn:/localhost/nfd/status/1\">" ++ l.flatMap sectionXml ++ lit "</nfdStatus>"

/-! ### Collecting -/

/-- The status that a module has before it is fetched: default-constructed. -/
def blank : Section → Section
  | .general _ => .general {}
  | .channels _ => .channels []
  | .faces _ => .faces []
  | .fib _ => .fib []
  | .rib _ => .rib []
  | .cs _ => .cs {}
  | .strategies _ => .strategies []

/-- What comes back from NFD for the section with a given number, in the order in which it comes. -/
structure Answer where
  sec : Nat
  /-- the status, or the code of the failure -/
  result : Except Nat Section

structure Outcome where
  sections : List Section
  errorCode : Nat := 0

/-- `collect` (status-report.cpp:43-63): an answer is stored in its module, a failure sets the code, which is a uint32_t. -/
def onAnswer (o : Outcome) (a : Answer) : Outcome :=
  match a.result with
  | .ok s => { o with sections := o.sections.set a.sec s }
  | .error c => { o with errorCode := (a.sec * 1000000 + c) % 2 ^ 32 }

/-- `reportStatus` (status.cpp:39-93) for the sections of the given kinds, in the XML format: exit code, number printed with the message on standard error, and
standard output. -/
def reportStatus (kinds : List Section) (l : List Answer) : Nat × Option Nat × Str :=
  let o := l.foldl onAnswer { sections := kinds.map blank }
  if o.errorCode ≠ 0 then (1, some o.errorCode, formatXml o.sections) else (0, none, formatXml o.sections)

end Verif.Nfdc.Report
