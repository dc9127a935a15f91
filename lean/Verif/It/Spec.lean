import Verif.It.Model

/-! What the pair of transports promises, told from the calls alone: which packets were sent while the two were connected. -/
namespace Verif.It

variable {P : Type}

/-- To whom the client is connected, and what was sent over the connection, from the calls. -/
structure Told (P : Type) where
  conn : Option Nat := none
  toClient : List P := []
  toForwarder : List (Nat × P) := []

def Told.after (x : Told P) : Ev P → Told P
  | .make _ | .runNext => x
  | .connect t => { x with conn := t }
  | .clientSend p =>
    match x.conn with
    | some t => { x with toForwarder := x.toForwarder ++ [(t, p)] }
    | none => x
  | .forwarderSend t p => if x.conn = some t then { x with toClient := x.toClient ++ [p] } else x
  | .close t => { x with conn := if x.conn = some t then none else x.conn }
  | .destroyClient => { x with conn := none }

/-- What a program that uses the transports as intended may have done, and where it got. -/
inductive Reach : Told P → St P → Prop
  | init : Reach {} init
  | step (x : Told P) (s s' : St P) (e : Ev P) : Reach x s → s.allowed e → s.step e = .ok s' → Reach (x.after e) s'

/-- The packets that still wait for the client, and for the forwarder. -/
def forClient : List (Task P) → List P
  | [] => []
  | .toClient p :: q => p :: forClient q
  | _ :: q => forClient q

def forForwarder : List (Task P) → List (Nat × P)
  | [] => []
  | .toForwarder t p :: q => (t, p) :: forForwarder q
  | _ :: q => forForwarder q

end Verif.It
