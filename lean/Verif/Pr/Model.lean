/-! The random choice of the face that ASF probes: `chooseFace` (daemon/fw/asf-probing-module.cpp:104-141), with the arithmetic of `double` (IEEE 754 binary64,
rounding to nearest, ties to even). The ranking is a list of any type; `none` is `NDN_CXX_UNREACHABLE`. -/
namespace Verif.Pr

/-- A nonnegative `double` is a multiple of 2^-1074, and is represented by the factor (simplification: there is no largest one). This is 1.0. -/
def one : Nat := 2 ^ 1074

/-- `p / q` of these units, rounded to 53 significant bits. -/
def rnd (p q : Nat) : Nat :=
  let u := 2 ^ (Nat.log2 (p / q) - 52)
  let n := p / (q * u)
  let r := p % (q * u)
  if 2 * r > q * u ∨ (2 * r = q * u ∧ n % 2 = 1) then (n + 1) * u else n * u

/-- The quotient of two integers, which have to be below 2^53 so that they are represented exactly. -/
def div (a b : Nat) : Nat := rnd (a * one) b

def add (x y : Nat) : Nat := rnd (x + y) 1

/-- The loop (116-137), with the `size_t` arithmetic in natural numbers. -/
def loop {α : Type} (nFaces : Nat) (random : Nat) : List α → Nat → Nat → Option α
  | [], _, _ => none
  | f :: l, rank, offset =>
    let probability := div (nFaces + 1 - rank) ((nFaces + 1) * nFaces / 2)
    let offset := add offset probability
    if random ≤ offset then some f else loop nFaces random l (rank + 1) offset

/-- `chooseFace` (asf-probing-module.cpp:104-141); `random` is what the generator gives. -/
def chooseFace {α : Type} (faces : List α) (random : Nat) : Option α := loop faces.length random faces 1 0

end Verif.Pr
