import Verif.Run.Model

/-! What is said about the two threads: histories are lists of turns. -/
namespace Verif.Run

/-- Both threads have at least one turn. -/
def bothTurns (l : List Turn) : Prop := (∃ d, Turn.main d ∈ l) ∧ ∃ d, Turn.rib d ∈ l

/-- The RIB thread does not fail, and does not run out of work. -/
def ribGoesOn (l : List Turn) : Prop := ∀ e, Turn.rib (.throw e) ∉ l ∧ Turn.rib .idle ∉ l

/-- The process can end with some exit code after `s`. -/
def canEnd (s : St) : Prop := ∃ l s', runs s l = .ok s' ∧ s'.main = .done

end Verif.Run
