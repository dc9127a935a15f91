/-! The NDN-FCH stage of ndn-autoconfig: the URL, the HTTP request and what is read from the answer (tools/ndn-autoconfig/ndn-fch-discovery.cpp). Strings are lists of
characters that stand for bytes. The connection is a parameter: whether it is made, whether the request can be written, and the bytes that arrive before the other
side closes or three seconds have passed. -/
namespace Verif.Fch

abbrev Str := List Char

/-- `\d`, `\w` and `[a-fA-F0-9:]` in the "C" locale -/
def isDig (c : Char) : Bool := decide ('0' ≤ c ∧ c ≤ '9')
def isWord (c : Char) : Bool := isDig c || decide ('a' ≤ c ∧ c ≤ 'z') || decide ('A' ≤ c ∧ c ≤ 'Z') || c == '_'
def isHexColon (c : Char) : Bool := isDig c || decide ('a' ≤ c ∧ c ≤ 'f') || decide ('A' ≤ c ∧ c ≤ 'F') || c == ':'

/-- `isspace` in the "C" locale: tab, line feed, vertical tab, form feed, carriage return and blank -/
def isSpace (c : Char) : Bool := c == ' ' || decide (9 ≤ c.toNat ∧ c.toNat ≤ 13)

/-- `://` and what follows -/
def afterScheme : Str → Option Str
  | ':' :: '/' :: '/' :: r => some r
  | _ => none

/-- The scheme (ndn-fch-discovery.cpp:48, group 1) and what follows `://`. The characters of a scheme do not occur in `://`, so the match is unique. -/
def scheme (u : Str) : Option (Str × Str) :=
  let w := u.takeWhile isWord
  if w = [] then none
  else
    match u.dropWhile isWord with
    | '+' :: r =>
      let v := r.takeWhile isWord
      if v = [] then none else (afterScheme (r.dropWhile isWord)).map (fun x => (w ++ '+' :: v, x))
    | r => (afterScheme r).map (fun x => (w, x))

/-- `(?:\:(\d+))?$` (58, 60, 62): empty if there is no port -/
def portOf : Str → Option Str
  | [] => some []
  | ':' :: d => if d ≠ [] ∧ d.all isDig = true then some d else none
  | _ => none

/-- `v6Exp` (58) -/
def v6 : Str → Option (Str × Str)
  | '[' :: r =>
    let h := r.takeWhile isHexColon
    match r.dropWhile isHexColon with
    | ']' :: p => if h = [] then none else (portOf p).map (fun p => (h, p))
    | _ => none
  | _ => none

/-- Number of groups of digits separated by dots; `none` if a group is empty. `n`: digits of the current group. -/
def groups : Nat → Str → Option Nat
  | n, [] => if n = 0 then none else some 1
  | n, c :: l => if c = '.' then (if n = 0 then none else (groups 0 l).map (· + 1)) else groups (n + 1) l

/-- `v4MappedV6Exp` (60) -/
def v4Mapped (a : Str) : Option (Str × Str) :=
  if a.take 8 = "[::ffff:".toList then
    let r := a.drop 8
    let h := r.takeWhile (fun c => isDig c || c == '.')
    match r.dropWhile (fun c => isDig c || c == '.') with
    | ']' :: p => if groups 0 h = some 4 then (portOf p).map (fun p => (h, p)) else none
    | _ => none
  else none

/-- `v4HostExp` (62) -/
def v4Host (a : Str) : Option (Str × Str) :=
  let h := a.takeWhile (· != ':')
  if h = [] then none else (portOf (a.dropWhile (· != ':'))).map (fun p => (h, p))

structure Url where
  scheme : Str
  host : Str
  port : Str
  path : Str
deriving DecidableEq, Repr

/-- `Url` (45-87); `none`: not valid -/
def url (u : Str) : Option Url := do
  let (s, r) ← scheme u
  let auth := r.takeWhile (· != '/')
  let path := r.dropWhile (· != '/')
  if path.contains '?' then none
  else do
    let (h, p) ← if auth = [] then some ([], []) else (v6 auth).or ((v4Mapped auth).or (v4Host auth))
    some ⟨s, h, if p = [] then "80".toList else p, if path = [] then "/".toList else path⟩

structure Net where
  /-- to a host and port -/
  connects : Str → Str → Bool := fun _ _ => true
  writes : Bool := true
  reply : Str

/-- The messages of the failures (147, 150, 155, 168, 180, 184, 193) -/
inductive Failure
  | invalidUrl | notHttp | connection | communication | status (code : Nat) | noHub
deriving DecidableEq, Repr

inductive Outcome
  /-- given to `provideHubFaceUri` -/
  | hub (uri : Str)
  | failed (f : Failure)
  /-- `statusCode`, which was not set, is read -/
  | indeterminate
deriving DecidableEq, Repr

/-- `std::getline`; `none`: nothing is left -/
def getline : Str → Option (Str × Str)
  | [] => none
  | l => some (l.takeWhile (· != '\n'), (l.dropWhile (· != '\n')).drop 1)

/-- `>>` to a string -/
def word (l : Str) : Option (Str × Str) :=
  match l.dropWhile isSpace with
  | [] => none
  | r => some (r.takeWhile (fun c => !isSpace c), r.dropWhile (fun c => !isSpace c))

def decimal (l : Str) : Nat := l.foldl (fun n c => 10 * n + (c.toNat - 48)) 0

def unsignedMax : Nat := 2 ^ 32 - 1

/-- Digits with what precedes them (`std::num_get` of libstdc++): no digits give 0, a number that is too large gives the largest one, and a negated one wraps around. -/
def number (neg : Bool) (l : Str) : Nat :=
  let d := l.takeWhile isDig
  if decimal d > unsignedMax then unsignedMax else if neg then (2 ^ 32 - decimal d) % 2 ^ 32 else decimal d

/-- `>>` to an `unsigned int`; `none`: nothing is left, and the variable is not set -/
def unsigned (l : Str) : Option Nat :=
  match l.dropWhile isSpace with
  | [] => none
  | '-' :: r => some (number true r)
  | '+' :: r => some (number false r)
  | r => some (number false r)

/-- The loop over the headers (186-188); `line` is what has been read of the current one. `none`: the end is reached (a last line without line feed is of no
consequence, as nothing can be read after it). -/
def body (line : Str) : Str → Option Str
  | [] => none
  | c :: l => if c = '\n' then (if line = ['\r'] then some l else body [] l) else body (line ++ [c]) l

/-- What is read from the answer (165-196) -/
def answer (reply : Str) : Outcome :=
  match getline reply with
  | none => .failed .communication
  | some (line, rest) =>
    let (version, r) := (word line).getD ([], [])
    if version.take 5 ≠ "HTTP/".toList then .failed .communication
    else
      match unsigned r with
      | none => .indeterminate
      | some code =>
        if code ≠ 200 then .failed (.status code)
        else
          match (body [] rest).bind word with
          | none => .failed .noHub
          | some (h, _) => .hub ("udp://".toList ++ h)

/-- `boost::iequals(scheme, "http")` -/
def isHttp (s : Str) : Bool := s.map (fun c => if 'A' ≤ c ∧ c ≤ 'Z' then Char.ofNat (c.toNat + 32) else c) == "http".toList

/-- 158-162 -/
def request (u : Url) : Str :=
  "GET ".toList ++ u.path ++ " HTTP/1.0\r\nHost: ".toList ++ u.host ++ ":".toList ++ u.port ++
    "\r\nAccept: */*\r\nCache-Control: no-cache\r\nConnection: close\r\n\r\n".toList

/-- `doStart` (138-201): the request that is written, if any, with the host and the port to which, and the outcome. -/
def doStart (u : Str) (n : Net) : Option (Str × Str × Str) × Outcome :=
  match url u with
  | none => (none, .failed .invalidUrl)
  | some v =>
    if !isHttp v.scheme then (none, .failed .notHttp)
    else if !n.connects v.host v.port then (none, .failed .connection)
    else if !n.writes then (none, .failed .communication)
    else (some (v.host, v.port, request v), answer n.reply)

end Verif.Fch
