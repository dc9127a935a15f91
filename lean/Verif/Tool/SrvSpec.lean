/-! DNS messages as far as property C121 needs them (RFC 1035, RFC 2782). -/
namespace Verif.Srv

/-- The domain name with these labels is written at `off` in the message, in `len` octets: labels, and at the end an empty label or a pointer to an earlier
place of the message where the rest is written. `start` is where the name starts. -/
inductive NameFrom (m : List Nat) : (start off : Nat) → List (List Nat) → (len : Nat) → Prop
  | root {start off : Nat} : m[off]? = some 0 → NameFrom m start off [] 1
  | label {start off len : Nat} {l : List Nat} {ls : List (List Nat)} : 1 ≤ l.length → l.length < 64 → m[off]? = some l.length →
      (m.drop (off + 1)).take l.length = l → NameFrom m start (off + 1 + l.length) ls len → NameFrom m start off (l :: ls) (1 + l.length + len)
  | pointer {start off a b len : Nat} {ls : List (List Nat)} : m[off]? = some (192 + a) → a < 64 → m[off + 1]? = some b → 12 ≤ a * 256 + b →
      NameFrom m (a * 256 + b) (a * 256 + b) ls len → a * 256 + b + len ≤ start → NameFrom m start off ls 2

/-- A domain name at an offset: it takes at most 255 octets when it is not compressed. -/
def NameAt (m : List Nat) (off : Nat) (ls : List (List Nat)) (len : Nat) : Prop :=
  NameFrom m off off ls len ∧ (ls.map (fun l => l.length + 1)).sum + 1 ≤ 255

/-- A number of two octets. -/
def Two (m : List Nat) (off v : Nat) : Prop := ∃ a b, m[off]? = some a ∧ m[off + 1]? = some b ∧ v = a * 256 + b

/-- The message is an answer to one question, and its first answer is an SRV record of the Internet class, with this port and this target. The record starts at
`at_` with the name of its owner, which takes `ownerLen` octets. -/
structure SrvAnswer (m : List Nat) (at_ ownerLen port : Nat) (target : List (List Nat)) : Prop where
  questions : Two m 4 1
  answers : ∃ n, Two m 6 n ∧ 1 ≤ n
  question : ∃ q len, NameAt m 12 q len ∧ at_ = 12 + len + 4
  owner : ∃ o, NameAt m at_ o ownerLen
  type : Two m (at_ + ownerLen) 33
  cls : Two m (at_ + ownerLen + 2) 1
  port : Two m (at_ + ownerLen + 14) port
  target : ∃ len, NameAt m (at_ + ownerLen + 16) target len ∧ Two m (at_ + ownerLen + 8) (6 + len)

/-- What host names are made of: letters, digits, hyphens and underscores. -/
def HostOctet (c : Nat) : Prop := (97 ≤ c ∧ c ≤ 122) ∨ (65 ≤ c ∧ c ≤ 90) ∨ (48 ≤ c ∧ c ≤ 57) ∨ c = 45 ∨ c = 95

/-- A host name as text. -/
def hostText (ls : List (List Nat)) : String := String.ofList (List.intercalate ['.'] (ls.map (fun l => l.map Char.ofNat)))

/-- The FaceUri of a hub. -/
def hubUri (host : List (List Nat)) (port : Nat) : String := "udp://" ++ hostText host ++ ":" ++ toString port

end Verif.Srv
