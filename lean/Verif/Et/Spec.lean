/-
What the properties of Ethernet faces say about frames and about the effects of a run, apart from the definitions of the model.
-/
import Verif.Et.Model

namespace Verif.Et
open Verif.Lp (Bytes parseBlock)
open Verif.Tp (TState)

/-- `b` is the Ethernet frame from `src` to `dst` that carries the packet `p`: destination, source, EtherType 0x8624, then the packet, then as
many zero octets as are needed for a payload of 46 octets, and no more. -/
structure IsFrame (src dst : Addr) (p b : Bytes) : Prop where
  dest : b.take 6 = dst.1
  source : (b.drop 6).take 6 = src.1
  type : (b.drop 12).take 2 = [0x86, 0x24]
  packet : (b.drop 14).take p.length = p
  padding : ∀ x ∈ b.drop (14 + p.length), x = 0
  size : b.length = 14 + max p.length 46

/-- The payload of a frame begins with the packet `p`, one TLV element. -/
def Carries (payload p : Bytes) : Prop := p <+: payload ∧ (parseBlock p).isSome = true

/-- The payloads, with the sender, that reach the face: those of frames of at least 60 octets with EtherType 0x8624, and those that the channel
dispatches. -/
def arrived : List Out → List (Bytes × Bytes)
  | [] => []
  | .got b :: o => if 60 ≤ b.length ∧ (b.drop 12).take 2 = [0x86, 0x24] then (b.drop 14, (b.drop 6).take 6) :: arrived o else arrived o
  | .dispatched b s :: o => (b, s) :: arrived o
  | _ :: o => arrived o

/-- The packets handed to the link service, with the endpoint. -/
def delivered : List Out → List (Bytes × Option Bytes)
  | [] => []
  | .deliver b e _ :: o => (b, e) :: delivered o
  | _ :: o => delivered o

/-- Each payload that carries a packet is delivered, in order; others are skipped. `ep` says what the endpoint is. -/
inductive Delivers (ep : Bytes → Option Bytes) : List (Bytes × Bytes) → List (Bytes × Option Bytes) → Prop
  | nil : Delivers ep [] []
  | take {pl s p : Bytes} {a d} : Carries pl p → Delivers ep a d → Delivers ep ((pl, s) :: a) ((p, ep s) :: d)
  | skip {pl s : Bytes} {a d} : (∀ p, ¬ Carries pl p) → Delivers ep a d → Delivers ep ((pl, s) :: a) d

/-- `Follows t o u`: a face in state `t` may have the effect `o`, and is in state `u` then. -/
inductive Follows : TState → Out → TState → Prop
  | down : Follows .up (.state .up .down) .down
  | up : Follows .down (.state .down .up) .up
  | leave {t u : TState} : t = .up ∨ t = .down → u = .closing ∨ u = .failed → Follows t (.state t u) u
  | closed {t : TState} : t = .closing ∨ t = .failed → Follows t (.state t .closed) .closed
  | counted {b : Bytes} : Follows .up (.counted b) .up
  | sent {t : TState} {b : Bytes} {r : Option Bytes} : t = .up ∨ t = .down → Follows t (.sent b r) t
  | got {t : TState} {b : Bytes} : t = .up ∨ t = .down → Follows t (.got b) t
  | dispatched {t : TState} {b s : Bytes} : t ≠ .closed → Follows t (.dispatched b s) t
  | deliver {t : TState} {b : Bytes} {e : Option Bytes} {n : Nat} : t ≠ .closed → Follows t (.deliver b e n) t
  | onDemand {t : TState} {n : Nat} : Follows t (.onDemand n) t
  | idle {t : TState} {n : Nat} : Follows t (.idle n) t

/-- The effects of a face from one state to another. -/
inductive Path : TState → List Out → TState → Prop
  | nil {t : TState} : Path t [] t
  | snoc {t u v : TState} {o : List Out} {x : Out} : Path t o u → Follows u x v → Path t (o ++ [x]) v

/-- The time of the last packet delivered, or when the face last became on-demand, whichever is later. -/
def lastActive : List Out → Nat
  | [] => 0
  | .deliver _ _ t :: o => max t (lastActive o)
  | .onDemand t :: o => max t (lastActive o)
  | _ :: o => lastActive o

/-- Every operation that completes is handled at once. -/
def AtOnce : Event → Prop
  | .wire _ _ b => b = true
  | .nothing b => b = true
  | _ => True

end Verif.Et
