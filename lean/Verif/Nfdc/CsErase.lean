import Verif.Cs.Model

/-! `nfdc cs erase` (tools/nfdc/cs-module.cpp:88-130) and the Content Store of the NFD it talks to. The commands that nfdc sends are carried out as cs/erase is
(`Verif.Cs.mgmtErase`); before each of them anything else may happen to the store. -/
namespace Verif.Nfdc.CsErase
open Verif Verif.Cs

/-- What becomes of a command. -/
inductive Fate
  | answered
  /-- carried out, but nfdc does not get the answer in time -/
  | lost
  /-- not carried out; nfdc gets an error or no answer -/
  | refused
deriving DecidableEq, Repr

/-- What happens to the store before the command with a given number, and what becomes of this. -/
abbrev World := Nat → List Op × Fate

structure Result where
  cs : Cs
  /-- the number printed, if it is -/
  printed : Option Nat
  exitCode : Nat
  /-- the Count of each command sent -/
  asked : List (Option Nat)
  /-- the Count of each answer; only an observer of the commands sees it -/
  counts : List Nat
deriving DecidableEq, Repr

/-- Subtraction of integers modulo `w`. -/
def wrapSub (w a b : Nat) : Nat := (a + w - b % w) % w

/-- `*count - numErased` on uint64_t (cs-module.cpp:104-106) -/
def toAsk (count : Option Nat) (numErased : Nat) : Option Nat := count.map (wrapSub (2 ^ 64) · numErased)

/-- The do-while loop (cs-module.cpp:103-129) from the command number `j` on. `none`: the store is in undefined behaviour, or the loop has not ended after `fuel`
commands. -/
def loop (x : World) (p : Name) (count : Option Nat) : Nat → Nat → Cs → Nat → List (Option Nat) → List Nat → Option Result
  | 0, _, _, _, _, _ => none
  | fuel + 1, j, s, numErased, asked, counts =>
    (s.run (x j).1).bind (fun s =>
      let c := toAsk count numErased
      let asked := asked ++ [c]
      match (x j).2 with
      | .refused => some ⟨s, none, 1, asked, counts⟩
      | .lost => (mgmtErase 256 s p c).map (fun r => ⟨r.1, none, 1, asked, counts⟩)
      | .answered =>
        (mgmtErase 256 s p c).bind (fun (s, n, limited) =>
          if limited then loop x p count fuel (j + 1) s (numErased + n) asked (counts ++ [n])
          else some ⟨s, some (numErased + n), 0, asked, counts ++ [n]⟩))

def csErase (x : World) (p : Name) (count : Option Nat) (fuel : Nat) (s : Cs) : Option Result := loop x p count fuel 0 s 0 [] []

end Verif.Nfdc.CsErase
