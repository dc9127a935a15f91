/-! The DNS SRV lookup of ndn-autoconfig (tools/ndn-autoconfig/dns-srv.cpp): how the answer of the name server is read. The resolver (`res_query`,
`res_search`) is the environment: it fills a buffer and returns a number. The functions of the C library that read domain names are modelled as glibc
has them (`dn_skipname`, `dn_expand`, by way of `ns_name_skip`, `ns_name_unpack` and `ns_name_ntop`), not taken from this repository. Addresses are
indices into the buffer; octets are numbers below 256. -/
namespace Verif.Srv

/-- `NS_PACKETSZ`: the size of the buffer (dns-srv.cpp:48-52). -/
def bufSize : Nat := 512

/-- What can come out: an access outside the buffer, `DnsSrvError`, or a FaceUri. -/
inductive Res
  | fault
  | error
  | uri (s : String)
deriving DecidableEq, Repr

/-- `ns_name_skip` from `p`: `none`: an access outside the buffer; `some none`: malformed; otherwise where the name ends. The first argument bounds the
rounds of the loop; running out of it counts as a fault, so that the theorems show that it does not happen. -/
def skipName (buf : List Nat) (eom : Int) : (fuel p : Nat) → Option (Option Nat)
  | 0, _ => none
  | fuel + 1, p =>
  if (p : Int) < eom then
    match buf[p]? with
    | none => none
    | some n =>
      if n = 0 then some (some (p + 1))
      else if n < 64 then
        if eom - (p + 1) < n then some none else skipName buf eom fuel (p + 1 + n)
      else if 192 ≤ n then
        if (p : Int) + 1 = eom then some none else some (some (p + 2))
      else some none
  else if (p : Int) = eom then some (some p)
  else some none

/-- The loop of `ns_name_unpack`. `start` is where the name starts, `len` its length if a pointer has been followed, `checked` the guard against loops,
`used` the octets written to the destination of `NS_MAXCDNAME` = 255 octets, `acc` the labels so far. -/
def unpackLoop (buf : List Nat) (eom : Int) (start : Nat) :
    (fuel p checked used : Nat) → (len : Option Nat) → (acc : List (List Nat)) → Option (Option (List (List Nat) × Nat))
  | 0, _, _, _, _, _ => none
  | fuel + 1, p, checked, used, len, acc =>
  match buf[p]? with
  | none => none
  | some n =>
    if n = 0 then some (some (acc, len.getD (p + 1 - start)))
    else if n < 64 then
      if 255 ≤ used + n + 1 then some none
      else if eom ≤ (p + 1 + n : Nat) then some none
      else unpackLoop buf eom start fuel (p + 1 + n) (checked + n + 1) (used + n + 1) len (acc ++ [(buf.drop (p + 1)).take n])
    else if 192 ≤ n then
      if eom ≤ (p + 1 : Nat) then some none
      else
        match buf[p + 1]? with
        | none => none
        | some b =>
          if eom ≤ ((n - 192) * 256 + b : Nat) then some none
          else if eom ≤ (checked + 2 : Nat) then some none
          else unpackLoop buf eom start fuel ((n - 192) * 256 + b) (checked + 2) used (some (len.getD (p + 2 - start))) acc
    else some none

/-- `ns_name_unpack`. -/
def unpack (buf : List Nat) (eom : Int) (src : Nat) : Option (Option (List (List Nat) × Nat)) :=
  if eom ≤ src then some none else unpackLoop buf eom src (256 + eom.toNat) src 0 0 none []

/-- `ns_name_ntop`: one octet of a label. -/
def octetText (c : Nat) : List Char :=
  if c ∈ [0x22, 0x2E, 0x3B, 0x5C, 0x28, 0x29, 0x40, 0x24] then ['\\', Char.ofNat c]
  else if 0x20 < c ∧ c < 0x7F then [Char.ofNat c]
  else ['\\', Char.ofNat (48 + c / 100), Char.ofNat (48 + c % 100 / 10), Char.ofNat (48 + c % 10)]

/-- `ns_name_ntop`, and `dn_expand` for the root: labels with dots between them. The text of 255 octets always fits into `NS_MAXDNAME` = 1025. -/
def nameText : List (List Nat) → List Char
  | [] => []
  | [l] => l.flatMap octetText
  | l :: ls => l.flatMap octetText ++ '.' :: nameText ls

/-- `parseSrvRr` (dns-srv.cpp:54-114). `sizeof(rechdr)` is 12 because `ttl` is aligned, and `port` is 4 octets into `srv_t`. That `server` is not aligned is
ignored. -/
def parseSrvRr (buf : List Nat) (answerSize : Int) : Res :=
  match buf[6]?, buf[7]? with
  | some a, some b =>
    if a * 256 + b = 0 then .error
    else
      match skipName buf answerSize (answerSize.toNat + 1) 12 with
      | none => .fault
      | some q =>
        let blob := q.getD 11 + 4
        match unpack buf answerSize blob with
        | none => .fault
        | some none => .error
        | some (some (_, serverNameSize)) =>
          match buf[blob + 16]?, buf[blob + 17]? with
          | some x, some y =>
            match unpack buf answerSize (blob + (serverNameSize + 12 + 4)) with
            | none => .fault
            | some none => .error
            | some (some (host, _)) => .uri ("udp://" ++ String.ofList (nameText host) ++ ":" ++ toString (x * 256 + y))
          | _, _ => .fault
  | _, _ => .fault

/-- `querySrvRr` and `querySrvRrSearch` after the resolver has returned (dns-srv.cpp:134-137, 162-166). -/
def query (buf : List Nat) (answerSize : Int) : Res :=
  if answerSize = 0 then .error else parseSrvRr buf answerSize

end Verif.Srv
