import Verif.Fw.Spec

/-
A concrete history used to show that the hypotheses of the properties are met.
-/
namespace Verif.Fw

open Tb (FaceId Time FwInterest InRec OutRec PitEntry NextHop)

/-- A generic name component of one octet. -/
abbrev exC (b : Byte) : Component := ⟨8, [b]⟩

abbrev exEnv : Env := { hash := fun n x => 1 + n.length + 100 * x, dnlLifetime := 6000000000 }

/-- A strategy with the default reactions that forwards a new Interest to face 258. -/
abbrev exStrategy : Strategy := fun _ t =>
  match t with
  | .afterReceiveInterest i _ u => [.sendInterest u i 258]
  | .onInterestLoop i f => [.sendNackPacket i 100 f]
  | .afterContentStoreHit d f u => [.sendData u d f]
  | .afterReceiveData d f u => [.sendDataToAll u d f]
  | .afterReceiveNack _ _ _ u => [.sendNack u 150 257]
  | _ => []

/-- 256: an application; 257, 258: point-to-point links; 259: a Wi-Fi face. -/
abbrev exFaces : List (Strategy × Event) :=
  [(exStrategy, .addFace 256 ⟨.loc, .p2p⟩), (exStrategy, .addFace 257 ⟨.nonLocal, .p2p⟩),
   (exStrategy, .addFace 258 ⟨.nonLocal, .p2p⟩), (exStrategy, .addFace 259 ⟨.nonLocal, .adHoc⟩)]

/-- Interest /1 from 257 is forwarded to 258; 256 and 259 ask for the same, 257 for /1 and everything below. -/
abbrev exI1 : FwInterest := { name := [exC 1], nonce := 1, hopLimit := some 5 }
abbrev exI2 : FwInterest := { name := [exC 1], nonce := 2 }
abbrev exI3 : FwInterest := { name := [exC 1], nonce := 3 }
abbrev exI4 : FwInterest := { name := [exC 1], canBePrefix := true, nonce := 4 }
abbrev exPending : List (Strategy × Event) := exFaces ++
  [(exStrategy, .interest exI1 257), (exStrategy, .interest exI2 256), (exStrategy, .interest exI3 259), (exStrategy, .interest exI4 257)]

abbrev exData : Data := { name := [exC 1], digest := [], freshness := 0 }

theorem exStrategy_default (nk : Bool) : DefaultData nk exStrategy := by
  intro s t
  cases t <;> simp [Quiet]

theorem exStrategy_plain : PlainData exStrategy := by
  intro s t
  cases t <;> simp

theorem exStrategy_basic : BasicData exStrategy := by
  intro s t
  cases t <;> simp

end Verif.Fw
