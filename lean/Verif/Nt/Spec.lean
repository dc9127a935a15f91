import Verif.Nt.Model

/-! What the name-tree properties (C11–C14) talk about, independently of how the tree is stored. -/
namespace Verif.Nt

variable {α T : Type}

/-! ### Hash table as a map -/

inductive HOp (α : Type)
  | insert (n : Name) (fresh : α)
  | erase (n : Name)

/-- The hash table after an operation; erasing a node that does not exist is a fault. -/
def HOp.run (ch : Component → Nat) (o : Options) (t : Hashtable α) : HOp α → Option (Hashtable α)
  | .insert n a => some (t.insert ch o n a).1
  | .erase n => t.erase ch o n

def hrun (ch : Component → Nat) (o : Options) : Hashtable α → List (HOp α) → Option (Hashtable α)
  | t, [] => some t
  | t, op :: ops =>
    match op.run ch o t with
    | none => none
    | some t => hrun ch o t ops

/-- Reference: a partial map. Insertion keeps what is there. -/
def HOp.spec (f : Name → Option α) : HOp α → (Name → Option α)
  | .insert n a => fun m => if m = n then some ((f n).getD a) else f m
  | .erase n => fun m => if m = n then none else f m

def hspec (ops : List (HOp α)) : Name → Option α := ops.foldl HOp.spec (fun _ => none)

/-- The node of an `erase` exists when it is erased. -/
def HOp.ok (f : Name → Option α) : HOp α → Prop
  | .insert _ _ => True
  | .erase n => (f n).isSome

/-! ### Name tree -/

/-- Table entries stored at a name (`none`: no node). -/
def tblOf (c : Cfg T) (t : Tree T) (m : Name) : Option T := (t.find c.ch m).map (·.tbl)

/-- Operations of the name tree. -/
inductive TOp (T : Type)
  | lookup (name : Name) (prefixLen : Nat)
  | setTbl (name : Name) (f : T → T)
  | eraseIfEmpty (name : Name) (canEraseAncestors : Bool)

def TOp.run (c : Cfg T) (t : Tree T) : TOp T → Option (Tree T)
  | .lookup n k => Nt.lookup c t n k
  | .setTbl n f => Nt.setTbl c t n f
  | .eraseIfEmpty n a => (Nt.eraseIfEmpty c t n a).map (·.1)

def trun (c : Cfg T) : Tree T → List (TOp T) → Option (Tree T)
  | t, [] => some t
  | t, op :: ops =>
    match op.run c t with
    | none => none
    | some t => trun c t ops

/-- A tree some history of operations leads to. -/
def Reachable (c : Cfg T) (t : Tree T) : Prop := ∃ ops, trun c (Hashtable.init c.opts) ops = some t

/-- What the caller of an operation must ensure. -/
def TOp.ok (c : Cfg T) (t : Tree T) : TOp T → Prop
  | .lookup n k => k ≤ n.length ∧ k ≤ maxDepth
  | .setTbl n _ => (tblOf c t n).isSome
  | .eraseIfEmpty n _ => (tblOf c t n).isSome

/-- The nodes `eraseIfEmpty` removes, climbing from `n`: prefixes of `n` below which nothing is stored but empty nodes
leading to `n`. -/
def Removed (c : Cfg T) (f : Name → Option T) (n m : Name) : Prop :=
  m <+: n ∧ ∀ m' x, f m' = some x → m <+: m' → m' <+: n ∧ c.has x = false

/-- `r` is the longest prefix of `name`, at most `maxDepth` long, that `Acc` accepts. -/
def IsLongest (Acc : Name → Prop) (name : Name) : Option Name → Prop
  | some m => m <+: name ∧ m.length ≤ maxDepth ∧ Acc m ∧ ∀ m', m' <+: name → m'.length ≤ maxDepth → Acc m' → m'.length ≤ m.length
  | none => ∀ m', m' <+: name → m'.length ≤ maxDepth → ¬ Acc m'

/-- Stored and accepted by the selector. -/
def Acc (c : Cfg T) (t : Tree T) (sel : Name → Nte T → Bool) (m : Name) : Prop :=
  ∃ e, t.find c.ch m = some e ∧ sel m e = true

/-- Wanted by the sub-tree selector. -/
def WantSelf (c : Cfg T) (t : Tree T) (sel : Name → Nte T → Bool × Bool) (m : Name) : Prop :=
  ∃ e, t.find c.ch m = some e ∧ (sel m e).1 = true
def WantChildren (c : Cfg T) (t : Tree T) (sel : Name → Nte T → Bool × Bool) (m : Name) : Prop :=
  ∃ e, t.find c.ch m = some e ∧ (sel m e).2 = true

end Verif.Nt
