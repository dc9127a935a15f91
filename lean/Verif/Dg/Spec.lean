/-
What the properties of UDP faces say about the effects of a run, apart from the definitions of the model.
-/
import Verif.Dg.Model

namespace Verif.Dg
open Verif.Lp (Bytes parseBlock)
open Verif.Tp (TState)

/-- The octets are exactly one TLV element. -/
def oneTlv (b : Bytes) : Bool := (parseBlock b).isSome

/-- The datagrams that reached the face, through its own socket or through the channel. -/
def arrived : List Out → List Bytes
  | [] => []
  | .got b :: o => b :: arrived o
  | .dispatched b :: o => b :: arrived o
  | _ :: o => arrived o

/-- The datagrams that reached the face through the channel. -/
def viaChannel : List Out → List Bytes
  | [] => []
  | .dispatched b :: o => b :: viaChannel o
  | _ :: o => viaChannel o

/-- The packets handed to the link service. -/
def delivered : List Out → List Bytes
  | [] => []
  | .deliver b _ :: o => b :: delivered o
  | _ :: o => delivered o

/-- The packets accepted from the link service. -/
def accepted : List Out → List Bytes
  | [] => []
  | .accepted b :: o => b :: accepted o
  | _ :: o => accepted o

/-- The datagrams that left. -/
def sentOut : List Out → List Bytes
  | [] => []
  | .sent b :: o => b :: sentOut o
  | _ :: o => sentOut o

/-- The datagrams that left or could not be sent. -/
def finished : List Out → List Bytes
  | [] => []
  | .sent b :: o => b :: finished o
  | .unsent b :: o => b :: finished o
  | _ :: o => finished o

/-- `Follows t o u`: a face in state `t` may have the effect `o`, and is in state `u` then. Packets are accepted and sent only in UP; in CLOSED
no packet is delivered. -/
inductive Follows : TState → Out → TState → Prop
  | closing : Follows .up (.state .up .closing) .closing
  | failed : Follows .up (.state .up .failed) .failed
  | closed1 : Follows .closing (.state .closing .closed) .closed
  | closed2 : Follows .failed (.state .failed .closed) .closed
  | onDemand {t : TState} {n : Nat} : Follows t (.onDemand n) t
  | got {t : TState} {b : Bytes} : t ≠ .closed → Follows t (.got b) t
  | dispatched {t : TState} {b : Bytes} : t ≠ .closed → Follows t (.dispatched b) t
  | deliver {t : TState} {b : Bytes} {n : Nat} : t ≠ .closed → Follows t (.deliver b n) t
  | accepted {b : Bytes} : Follows .up (.accepted b) .up
  | sent {b : Bytes} : Follows .up (.sent b) .up
  | unsent {b : Bytes} : Follows .up (.unsent b) .up
  | idle {t : TState} {n : Nat} : Follows t (.idle n) t

/-- The effects of a face from one state to another. -/
inductive Path : TState → List Out → TState → Prop
  | nil {t : TState} : Path t [] t
  | snoc {t u v : TState} {o : List Out} {x : Out} : Path t o u → Follows u x v → Path t (o ++ [x]) v

/-- The time of the last packet delivered, or when the face last became on-demand, whichever is later. -/
def lastActive : List Out → Nat
  | [] => 0
  | .deliver _ t :: o => max t (lastActive o)
  | .onDemand t :: o => max t (lastActive o)
  | _ :: o => lastActive o

/-- The datagrams that the channel dispatched to face `k`. -/
def dispatchedTo (k : Nat) : List COut → List Bytes
  | [] => []
  | .peer _ b j :: o => if j = k then b :: dispatchedTo k o else dispatchedTo k o
  | _ :: o => dispatchedTo k o

/-- The answers to request `req`. -/
def answers (req : Nat) : List COut → List Answer
  | [] => []
  | .answer r a :: o => if r = req then a :: answers req o else answers req o
  | _ :: o => answers req o

end Verif.Dg
