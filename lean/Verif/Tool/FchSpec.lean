/-! What is expected of the NDN-FCH stage of ndn-autoconfig: the parts of a URL and of an HTTP answer, written from the formats (RFC 1945, RFC 3986), without the
model. -/
namespace Verif.Fch.Spec

def Digit (c : Char) : Prop := 48 ≤ c.toNat ∧ c.toNat ≤ 57
def Blank (c : Char) : Prop := c = ' ' ∨ c = '\t' ∨ c = '\n' ∨ c = '\r' ∨ c.toNat = 11 ∨ c.toNat = 12

/-- A host name or an IPv4 address: no colon, slash or bracket. -/
def HostName (h : List Char) : Prop := h ≠ [] ∧ ':' ∉ h ∧ '/' ∉ h ∧ '[' ∉ h

def PortNumber (p : List Char) : Prop := p ≠ [] ∧ ∀ c ∈ p, Digit c

/-- A path without a query. -/
def PlainPath (p : List Char) : Prop := (∃ r, p = '/' :: r) ∧ '?' ∉ p

/-- Letters, digits and underscores, at least one. -/
def Word (w : List Char) : Prop :=
  w ≠ [] ∧ ∀ c ∈ w, Digit c ∨ (97 ≤ c.toNat ∧ c.toNat ≤ 122) ∨ (65 ≤ c.toNat ∧ c.toNat ≤ 90) ∨ c = '_'

/-- A scheme: a word, or two words with a plus between them. -/
def SchemeText (s : List Char) : Prop := Word s ∨ ∃ a b, s = a ++ '+' :: b ∧ Word a ∧ Word b

/-- `http`, each letter small or capital. -/
def HttpText (s : List Char) : Prop :=
  ∃ a b c d, s = [a, b, c, d] ∧ (a = 'h' ∨ a = 'H') ∧ (b = 't' ∨ b = 'T') ∧ (c = 't' ∨ c = 'T') ∧ (d = 'p' ∨ d = 'P')

/-- The text of an HTTP answer: status line, headers, empty line, body. -/
def Answer (text status : List Char) (headers : List (List Char)) (body : List Char) : Prop :=
  text = status ++ '\n' :: (headers.map (· ++ ['\n'])).flatten ++ '\r' :: '\n' :: body ∧ '\n' ∉ status ∧ ∀ h ∈ headers, '\n' ∉ h ∧ h ≠ ['\r']

/-- The first word of a text. -/
def FirstWord (text w : List Char) : Prop :=
  ∃ a b, text = a ++ w ++ b ∧ (∀ c ∈ a, Blank c) ∧ w ≠ [] ∧ (∀ c ∈ w, ¬Blank c) ∧ ∀ c ∈ b.head?, Blank c

/-- The status line of a success: protocol, blanks, 200, and then no further digit. -/
def Success (status : List Char) : Prop :=
  ∃ v a r, status = "HTTP/".toList ++ v ++ a ++ "200".toList ++ r ∧ (∀ c ∈ v, ¬Blank c) ∧ a ≠ [] ∧ (∀ c ∈ a, Blank c) ∧ ∀ c ∈ r.head?, ¬Digit c

end Verif.Fch.Spec
