import Verif.Tables.Model

/-! What the table properties (C15–C24) talk about. -/
namespace Verif.Tb

/-- Exactly `k` things satisfy `P`. -/
def Counted {α : Type} (P : α → Prop) (k : Nat) : Prop := ∃ l : List α, l.Nodup ∧ l.length = k ∧ ∀ a, a ∈ l ↔ P a

/-- The nexthops of the FIB entry for a prefix, if there is one. -/
def fibAt (e : Env) (s : Tables) (p : Name) : Option (List NextHop) := (view e s p).fib

/-- Live PIT entries: those attached to some name-tree node. -/
def Live (e : Env) (s : Tables) (p : PitEntry) : Prop := ∃ n, p ∈ (view e s n).pit

/-- The strategy instance configured for a prefix. -/
def scAt (e : Env) (s : Tables) (p : Name) : Option Name := (view e s p).sc

/-- The measurements entry for a name. -/
def measAt (e : Env) (s : Tables) (n : Name) : Option MeasEntry := (view e s n).meas

/-- `m` is the longest prefix of `name` for which `A` holds. -/
def LongestPrefix (A : Name → Prop) (name m : Name) : Prop :=
  m <+: name ∧ A m ∧ ∀ m', m' <+: name → A m' → m'.length ≤ m.length

/-- Reference FIB: a set of nexthops (face, cost) per prefix; an entry disappears with its last nexthop. -/
abbrev RefFib := Name → Option (List (FaceId × Nat))

def refUnset (f : FaceId) (o : Option (List (FaceId × Nat))) : Option (List (FaceId × Nat)) :=
  o.bind (fun l => if l.any (·.1 == f) && (l.filter (·.1 != f)).isEmpty then none else some (l.filter (·.1 != f)))

/-- What each operation does to the reference FIB. -/
def refFibStep (r : RefFib) : Op → RefFib
  | .fibInsert p => fun m => if m = p then some ((r p).getD []) else r m
  | .fibErase p => fun m => if m = p then none else r m
  | .fibSet p f c => fun m => if m = p then (r p).map (fun l => (f, c) :: l.filter (·.1 != f)) else r m
  | .fibUnset p f => fun m => if m = p then refUnset f (r p) else r m
  | .cleanup f => fun m => refUnset f (r m)
  | _ => r

def refFib (ops : List Op) : RefFib := ops.foldl refFibStep (fun _ => none)

/-- The type of the strategy in charge of a name. -/
def effTyp (e : Env) (s : Tables) (name : Name) : Option Nat := (scEffective e s name).bind e.styp

/-- Everything strategies have stored on a PIT entry and its records. -/
def PitEntry.allInfo (p : PitEntry) : Info := p.info ++ p.ins.flatMap (·.info) ++ p.outs.flatMap (·.info)

/-- The PIT entry with all strategy information dropped and nothing else changed. -/
def PitEntry.wiped (p : PitEntry) : PitEntry :=
  { p with info := [], ins := p.ins.map (fun r => { r with info := [] }), outs := p.outs.map (fun r => { r with info := [] }) }

/-- The table's entry has exactly the nexthops of the reference, in some order. -/
def SameFib : Option (List NextHop) → Option (List (FaceId × Nat)) → Prop
  | some l, some r => (l.map (fun h => (h.face, h.cost))).Perm r
  | none, none => True
  | _, _ => False

/-- Every name-tree node carries a table entry or has a descendant that does. -/
def NoUselessNode (e : Env) (s : Tables) : Prop := ∀ n, (Nt.tblOf e.cfg s.nt n).isSome → ∃ m, n <+: m ∧ view e s m ≠ {}

/-- A history in which no FIB entry is removed by removing its last nexthop (they are removed by `erase` or with their face). -/
def KeepsNextHop (e : Env) : Tables → List Op → Prop
  | _, [] => True
  | s, op :: ops => (∀ p f s', op = .fibUnset p f → fibUnset e s p f ≠ some (s', .entryRemoved)) ∧ ∀ s', op.run e s = some s' → KeepsNextHop e s' ops

/-- What each operation requires of its caller: names within the depth limit, pointers to live entries, no erasure of the root's strategy. -/
def Contract (e : Env) (s : Tables) : Op → Prop
  | .fibInsert p => p.length ≤ 32
  | .fibSet p _ _ | .fibUnset p _ => (fibAt e s p).isSome
  | .pitErase i | .pitIn i _ _ _ | .pitOut i _ _ _ | .pitDelIn i _ | .pitClearIn i | .pitDelOut i _ | .pitNack i _ _ _ | .pitWrite i | .measGetPit i =>
    ∃ p, Live e s p ∧ p.interest.toInterest = i
  | .scErase p => p ≠ []
  | .measGetFib p => (fibAt e s p).isSome ∨ p = []
  | .measGetParent n | .measExtend n _ | .measCleanup n | .measWrite n => (measAt e s n).isSome
  | .fibErase _ | .pitInsert _ | .scInsert _ _ | .measGet _ | .cleanup _ | .tick _ => True

/-- Strategy instances made by the registry are found in the registry. -/
def RegistryOk (e : Env) : Prop := ∀ st inst, e.create st = .ok inst → (e.styp inst).isSome

/-- States reached when FIB entries are only created together with a nexthop, as the management commands and the RIB updater do
(daemon/mgmt/fib-manager.cpp:58-98). -/
inductive Managed (e : Env) (dflt : Name) : Tables → Prop
  | init {s} : init e dflt = some s → Managed e dflt s
  | add {s s'} (p : Name) (f : FaceId) (c : Nat) : Managed e dflt s → run e s [.fibInsert p, .fibSet p f c] = some s' → Managed e dflt s'
  | other {s s'} (op : Op) : Managed e dflt s → (∀ p, op ≠ .fibInsert p) → op.run e s = some s' → Managed e dflt s'

/-- `erase(prefix)` is only used on a prefix that has an entry. -/
def FibEraseOk (e : Env) (s : Tables) : Op → Prop
  | .fibErase p => (fibAt e s p).isSome
  | _ => True

/-- A history in which that holds at every step. -/
def EraseOk (e : Env) : Tables → List Op → Prop
  | _, [] => True
  | s, op :: ops => FibEraseOk e s op ∧ ∀ s', op.run e s = some s' → EraseOk e s' ops

end Verif.Tb
