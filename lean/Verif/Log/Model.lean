/-! The `log` section of the configuration file (daemon/mgmt/log-config-section.cpp:33-86) and the two readings of the file for it (`Nfd::configureLogging`,
daemon/nfd.cpp:101-115; `ConfigFile::process`, daemon/common/config-file.cpp:122-136). The levels and the function that reads one are those of ndn-cxx, and parameters
here. Simplification: all loggers have been registered (they are static objects of the program). -/
namespace Verif.Log

variable {L : Type}

abbrev Str := List Char

/-- The level of each module. -/
abbrev Levels (L : Type) := Str → L

/-- One line of the section: name and value. -/
abbrev Line := Str × Str

/-- `ndn::util::Logging::setLevel` (ndn-cxx, not in the repository): a name, or a prefix followed by a star -/
def setLevel (pat : Str) (l : L) (s : Levels L) : Levels L := fun m =>
  if pat.getLast? = some '*' then (if pat.dropLast.isPrefixOf m then l else s m)
  else if pat = m then l else s m

def defaultKey : Str := "default_level".toList

/-- `section.get_child_optional("default_level")` (log-config-section.cpp:62): the first one -/
def firstDefault : List Line → Option Str
  | [] => none
  | (k, v) :: ls => if k = defaultKey then some v else firstDefault ls

/-- The loop over the lines (log-config-section.cpp:71-85). The levels set so far stay if a line is refused. -/
def lines (parse : Str → Option L) (dry : Bool) : List Line → Levels L → Levels L × Bool
  | [], s => (s, true)
  | (k, v) :: ls, s =>
    if k = defaultKey then lines parse dry ls s
    else
      match parse v with
      | none => (s, false)
      | some l =>
        if dry then lines parse dry ls s
        else if '.' ∈ k then lines parse dry ls (setLevel k l s)
        else lines parse dry ls (setLevel ("nfd.".toList ++ k) l s)

/-- `onConfig` (log-config-section.cpp:44-86); `false`: an exception -/
def onConfig (parse : Str → Option L) (info : L) (sec : List Line) (dry : Bool) (s : Levels L) : Levels L × Bool :=
  let cont := fun (d : L) => lines parse dry sec (if dry then s else setLevel "nfd.*".toList d s)
  match firstDefault sec with
  | none => cont info
  | some v =>
    match parse v with
    | none => (s, false)
    | some d => cont d

/-- `ConfigFile::process` for the sections named `log` of a file (config-file.cpp:122-136) -/
def process (parse : Str → Option L) (info : L) (dry : Bool) : List (List Line) → Levels L → Levels L × Bool
  | [], s => (s, true)
  | sec :: secs, s =>
    let r := onConfig parse info sec dry s
    if r.2 then process parse info dry secs r.1 else r

/-- `configureLogging` (nfd.cpp:101-115): the file is read twice. -/
def configure (parse : Str → Option L) (info : L) (secs : List (List Line)) (s : Levels L) : Levels L × Bool :=
  let r := process parse info true secs s
  if r.2 then process parse info false secs r.1 else r

end Verif.Log
