import Verif.Log.Model
/-! Which modules a line names, and what a section says. -/
namespace Verif.Log

variable {L : Type}

/-- A name without a dot is that of a module of NFD; a star at the end stands for any rest. -/
inductive Names : Str → Str → Prop
  | short {k : Str} : '.' ∉ k → k.getLast? ≠ some '*' → Names k ("nfd.".toList ++ k)
  | shortStar {k rest : Str} : '.' ∉ k → Names (k ++ ['*']) ("nfd.".toList ++ k ++ rest)
  | full {k : Str} : '.' ∈ k → k.getLast? ≠ some '*' → Names k k
  | fullStar {k rest : Str} : '.' ∈ k → Names (k ++ ['*']) (k ++ rest)

/-- The last line that names the module gives it level `l`. -/
def Says (parse : Str → Option L) (sec : List Line) (m : Str) (l : L) : Prop :=
  ∃ a k v b, sec = a ++ (k, v) :: b ∧ k ≠ "default_level".toList ∧ Names k m ∧ parse v = some l ∧ ∀ k' v', (k', v') ∈ b → k' ≠ "default_level".toList → ¬ Names k' m

/-- No line names the module. -/
def Silent (sec : List Line) (m : Str) : Prop := ∀ k v, (k, v) ∈ sec → k ≠ "default_level".toList → ¬ Names k m

/-- The default level: that of the first line for it, and otherwise INFO. -/
inductive Default (parse : Str → Option L) (info : L) (sec : List Line) : L → Prop
  | none : (∀ v, ("default_level".toList, v) ∉ sec) → Default parse info sec info
  | some {a b : List Line} {v : Str} {d : L} : sec = a ++ ("default_level".toList, v) :: b → (∀ v', ("default_level".toList, v') ∉ a) → parse v = Option.some d →
      Default parse info sec d

/-- All levels are written correctly: in the first line for the default, and in all lines for modules. -/
def Valid (parse : Str → Option L) (sec : List Line) : Prop :=
  (∀ k v, (k, v) ∈ sec → k ≠ "default_level".toList → (parse v).isSome = true) ∧
  (∀ a v b, sec = a ++ ("default_level".toList, v) :: b → (∀ v', ("default_level".toList, v') ∉ a) → (parse v).isSome = true)

end Verif.Log
