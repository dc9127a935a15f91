import Verif.Tables.AccessLearn
import Verif.Tables.AccessorSpec

/-! What the access strategy should have learned. -/
namespace Verif.Tb

/-- No strategy is set or unset. -/
def NoStrategyChange (ops : List Op) : Prop := ∀ op ∈ ops, (∀ p st, op ≠ .scInsert p st) ∧ ∀ p, op ≠ .scErase p

namespace Access

/-- The last thing that happened to the information at `m` is Data from this face. -/
def CameFrom (l : List Ev) (m : Name) (face : FaceId) : Prop :=
  ∃ before rtt after, l = before ++ .data m face rtt :: after ∧ ∀ ev ∈ after, ev ≠ .cleared m ∧ ∀ f r, ev ≠ .data m f r

/-- No strategy is set or unset, and no Data comes whose information belongs at `m`. -/
def Quiet (m : Name) (l : List JEv) : Prop :=
  ∀ ev ∈ l, (∀ p st, ev ≠ .table (.scInsert p st)) ∧ (∀ p, ev ≠ .table (.scErase p)) ∧ ∀ name f r, ev = .data name f r → name.dropLast.take 32 ≠ m ∧ name.take 32 ≠ m

end Access
end Verif.Tb
