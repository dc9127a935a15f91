import Verif.Tool.Autoconf

/-
Vocabulary of C108.
-/
namespace Verif.Ac

/-- How often the procedure has been started, and has completed. -/
def starts (l : List Obs) : Nat := l.countP (fun o => o == .started 0)
def completes (l : List Obs) : Nat := l.countP (fun o => o == .complete true || o == .complete false)

/-- NFD has a face to a hub, and has granted the default route and the route for remote prefix registration on it. -/
def Connected (l : List Obs) : Prop :=
  ∃ u f, .request (.faceCreate u) ∈ l ∧ .face u f ∈ l ∧ .granted (.ribRegister [] f (some 66) 100 none) ∈ l ∧
    .granted (.ribRegister ["localhop", "nfd"] f (some 66) 100 none) ∈ l

/-- Answers that the program does not handle: a Data without proper content, a refusal without proper content, a stage that throws. -/
def Raises : Event → Prop
  | .hubData .malformed _ => True
  | .hubData _ o | .queried _ o | .registered _ o | .strategySet _ o | .hubLost o => o.search = .raised ∨ o.fch = .raised ∨ o.identity = .raised
  | .created _ (.conflict none) => True
  | _ => False

/-- The passing of time. -/
def isTick : Event → Bool
  | .tick _ => true
  | _ => false

/-- The number of faces in an answer to the query. -/
def facesIn : Event → Nat
  | .queried (some l) _ => l.length
  | _ => 0

/-- The stages started, in order, and how many hubs have been tried. -/
def stages (l : List Obs) : List Nat :=
  l.filterMap (fun o => match o with
    | .started k => some k
    | _ => none)
def tries (l : List Obs) : Nat :=
  l.countP (fun o => match o with
    | .request (.canonize _ _) => true
    | _ => false)

/-- In this event, stage `k` comes up with hub `u`, should it be its turn. -/
def Offers (k : Nat) (u : Text) : Event → Prop
  | .hubData c o => k = 0 ∧ c = .uri u ∨ k = 1 ∧ o.search = .uri u ∨ k = 2 ∧ o.fch = .uri u ∨ k = 3 ∧ o.identity = .uri u
  | .queried _ o | .registered _ o | .strategySet _ o | .hubLost o => k = 1 ∧ o.search = .uri u ∨ k = 2 ∧ o.fch = .uri u ∨ k = 3 ∧ o.identity = .uri u
  | _ => False

end Verif.Ac
