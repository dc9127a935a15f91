/-
What the properties of TCP channels say about the effects of a run, apart from the definitions of the model.
-/
import Verif.Ch.Tcp

namespace Verif.Ch

/-- The answers to request `i`, with their times. -/
def answersTo (i : Nat) : List Out → List (Answer × Nat)
  | [] => []
  | .answer j a t :: o => if j = i then (a, t) :: answersTo i o else answersTo i o
  | _ :: o => answersTo i o

/-- The faces that were reported for accepted connections. -/
def acceptedFaces : List Out → List (Nat × Nat)
  | [] => []
  | .accepted ep k :: o => (ep, k) :: acceptedFaces o
  | _ :: o => acceptedFaces o

/-- The requests of a run. -/
def requests : List Event → List Nat
  | [] => []
  | .connect ep _ :: es => ep :: requests es
  | _ :: es => requests es

end Verif.Ch
