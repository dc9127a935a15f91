import Verif.Pr.Model

/-! The documented probabilities: of `n` faces, the one of rank `j` (from 1) has the probability (n + 1 - j) / (1 + 2 + ... + n). -/
namespace Verif.Pr

/-- The weights of the first `k` of `n` faces: n + (n-1) + ... -/
def weights (n : Nat) : Nat → Nat
  | 0 => 0
  | k + 1 => weights n k + (n - k)

/-- The sum of the ranks, 1 + 2 + ... + n. -/
def ranks : Nat → Nat
  | 0 => 0
  | n + 1 => ranks n + (n + 1)

/-- The random number, in units of 2^-1074, is in the part of the interval from 0 to 1 that belongs to the face after the first `j`, and at least
`margin` away from its ends (0 is no such end). -/
def Inside (n j random margin : Nat) : Prop :=
  (j = 0 ∨ weights n j * 2 ^ 1074 + margin * ranks n < random * ranks n) ∧ random * ranks n + margin * ranks n ≤ weights n (j + 1) * 2 ^ 1074

end Verif.Pr
