/-
What the properties of stream transports say about the effects of a run, apart from the definitions of the model.
-/
import Verif.Tp.Model

namespace Verif.Tp
open Verif.Lp (Bytes readElem)

/-- The state changes that are permitted. -/
inductive Allowed : TState → TState → Prop
  | goDown : Allowed .up .down
  | goUp : Allowed .down .up
  | upClosing : Allowed .up .closing
  | downClosing : Allowed .down .closing
  | upFailed : Allowed .up .failed
  | downFailed : Allowed .down .failed
  | closing : Allowed .closing .closed
  | failed : Allowed .failed .closed

/-- `Fits t o u`: a transport in state `t` may have the effect `o`, and is in state `u` then. Packets are accepted and delivered only in UP;
octets leave only in UP and DOWN; connections are established only in DOWN; in CLOSED there are no effects at all. -/
inductive Fits : TState → Out → TState → Prop
  | state {t u : TState} : Allowed t u → Fits t (.state t u) u
  | accepted {p : Bytes} : Fits .up (.accepted p) .up
  | deliver {p : Bytes} : Fits .up (.deliver p) .up
  | wireUp {b : Bytes} : Fits .up (.wire b) .up
  | wireDown {b : Bytes} : Fits .down (.wire b) .down
  | read {t : TState} {b : Bytes} : t ≠ .closed → Fits t (.read b) t
  | connecting {w : Nat} : Fits .down (.connecting w) .down
  | connected : Fits .down .connected .down

/-- The effects of a run, from one state to another. -/
inductive Path : TState → List Out → TState → Prop
  | nil {t : TState} : Path t [] t
  | snoc {t u v : TState} {o : List Out} {x : Out} : Path t o u → Fits u x v → Path t (o ++ [x]) v

/-- The effects since the last connection attempt (all of them, if there was none). -/
def since (o : List Out) : List Out := o.foldl (fun acc x => match x with | .connecting _ => [] | x => acc ++ [x]) []

/-- The octets that were taken from the socket. -/
def octetsIn : List Out → Bytes
  | [] => []
  | .read b :: o => b ++ octetsIn o
  | _ :: o => octetsIn o

/-- The octets that left through the socket. -/
def octetsOut : List Out → Bytes
  | [] => []
  | .wire b :: o => b ++ octetsOut o
  | _ :: o => octetsOut o

/-- The packets that were delivered to the link service. -/
def delivered : List Out → List Bytes
  | [] => []
  | .deliver p :: o => p :: delivered o
  | _ :: o => delivered o

/-- The packets that were accepted from the link service. -/
def accepted : List Out → List Bytes
  | [] => []
  | .accepted p :: o => p :: accepted o
  | _ :: o => accepted o

/-- `Backoff o w`: in the effects `o`, the timeouts of connection attempts are as they should be, and the last attempt since the last
established connection has the timeout `w`, if there is one. The first one is one second; each one is as long as the one before or twice as
long, but at most five minutes. -/
inductive Backoff : List Out → Option Nat → Prop
  | nil : Backoff [] none
  | first {o : List Out} : Backoff o none → Backoff (o ++ [.connecting 1000]) (some 1000)
  | again {o : List Out} {w : Nat} : Backoff o (some w) → Backoff (o ++ [.connecting w]) (some w)
  | longer {o : List Out} {w : Nat} : Backoff o (some w) → Backoff (o ++ [.connecting (min (2 * w) 300000)]) (some (min (2 * w) 300000))
  | connected {o : List Out} {w : Nat} : Backoff o (some w) → Backoff (o ++ [.connected]) none
  | other {o : List Out} {w : Option Nat} {x : Out} : Backoff o w → (∀ n, x ≠ .connecting n) → x ≠ .connected → Backoff (o ++ [x]) w

end Verif.Tp
