import Verif.Ap.Model
/-! What is expected of the probes of ASF. -/
namespace Verif.Ap

variable {α : Type} [DecidableEq α]

/-- A sequence of events that can happen, one after the other. -/
def Runs (c : Cfg α) : St α → List (Ev α) → St α → Prop
  | s, [], s' => s = s'
  | s, e :: es, s' => ∃ s1, s.allowed c e ∧ s.step c e = some s1 ∧ Runs c s1 es s'

/-- The FIB entries that are used are in namespaces this strategy is in charge of. -/
def Proper (c : Cfg α) (es : List (Ev α)) : Prop :=
  (∀ f i r o, Ev.interest f i r o ∈ es → c.under f = true) ∧ (∀ f i, Ev.lookup f i ∈ es → c.under f = true)

/-- Probes for the same FIB entry are at least `d` apart. -/
def Spaced (d : Nat) (probes : List (List α × Nat)) : Prop :=
  probes.Pairwise (fun a b => a.1 = b.1 → a.2 + d ≤ b.2)

end Verif.Ap
