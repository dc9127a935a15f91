import Verif.Fe.Model

/-! What somebody who reads the list of faces and then the notifications can conclude. -/
namespace Verif.Fe

variable {P : Type}

/-- Starting from the faces `A`, these notifications make sense and lead to the faces `B`: a face is created that was not there; one is destroyed, goes up or
down that is there. -/
inductive Follows : (Nat → Prop) → List (Note P) → (Nat → Prop) → Prop
  | nil (A B : Nat → Prop) : (∀ x, A x ↔ B x) → Follows A [] B
  | created (A B : Nat → Prop) (id : Nat) (p : P) (l : List (Note P)) : ¬ A id → Follows (fun x => A x ∨ x = id) l B → Follows A (⟨.created, id, p⟩ :: l) B
  | destroyed (A B : Nat → Prop) (id : Nat) (p : P) (l : List (Note P)) : A id → Follows (fun x => A x ∧ x ≠ id) l B → Follows A (⟨.destroyed, id, p⟩ :: l) B
  | up (A B : Nat → Prop) (id : Nat) (p : P) (l : List (Note P)) : A id → Follows A l B → Follows A (⟨.up, id, p⟩ :: l) B
  | down (A B : Nat → Prop) (id : Nat) (p : P) (l : List (Note P)) : A id → Follows A l B → Follows A (⟨.down, id, p⟩ :: l) B

/-- Notifications about one face that exists, and whether it is up according to them: creation, which leaves it open, then down, up, down ... or up, down,
up ... -/
inductive Tells : List Kind → Bool → Prop
  | created (b : Bool) : Tells [.created] b
  | down (l : List Kind) : Tells l true → Tells (l ++ [.down]) false
  | up (l : List Kind) : Tells l false → Tells (l ++ [.up]) true

/-- What has been told about the face with this FaceId. -/
def about (id : Nat) (l : List (Note P)) : List Kind := (l.filter (fun n => n.id == id)).map (·.kind)

/-- In the table. -/
def St.has (s : St P) (id : Nat) : Prop := ∃ o, (id, o) ∈ s.table

/-- Faces are not added when their transport is closed. -/
def AddsOpen (s : St P) : Ev P → Prop
  | .add o | .addReserved o _ => ∀ f, s.objs o = some f → f.id ≠ 0 ∨ f.state ≠ .closed
  | _ => True

/-- States of a forwarder that adds no closed faces. -/
inductive Reach : St P → Prop
  | init : Reach init
  | step (s s' : St P) (e : Ev P) : Reach s → AddsOpen s e → s.step e = some s' → Reach s'

/-- From `s`, the forwarder may get to `s'`. -/
inductive Later : St P → St P → Prop
  | refl (s : St P) : Later s s
  | step (s s' s'' : St P) (e : Ev P) : Later s s' → AddsOpen s' e → s'.step e = some s'' → Later s s''

end Verif.Fe
