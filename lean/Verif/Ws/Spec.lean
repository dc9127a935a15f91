import Verif.Ws.Model

/-
Vocabulary of C110.
-/
namespace Verif.Ws
open Verif.Lp (Bytes readElem)

/-- The octets of the TLV element that a message begins with, if it does. -/
def firstPacket (b : Bytes) : Option Bytes := (readElem b).map (fun x => b.take (b.length - x.2.length))

/-- The packets delivered, the messages, the packets accepted for sending, the messages sent: each in order. -/
def delivered (l : List Obs) : List Bytes := l.filterMap (fun | .deliver p => some p | _ => none)
def messages (l : List Obs) : List Bytes := l.filterMap (fun | .message p => some p | _ => none)
def accepted (l : List Obs) : List Bytes := l.filterMap (fun | .accepted p => some p | _ => none)
def written (l : List Obs) : List Bytes := l.filterMap (fun | .wrote p => some p | _ => none)

/-- The states that the face goes through after UP. -/
def states (l : List Obs) : List Tp.TState := l.filterMap (fun | .state s => some s | _ => none)

/-- What has happened before the face was closed. -/
def untilClosed (l : List Obs) : List Obs := l.takeWhile (fun o => o != .state .closed)

/-- The face exists. -/
def Exists (c : Conn) : Prop := .state .closed ∉ c.log

end Verif.Ws
