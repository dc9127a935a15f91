import Verif.Name.Model

/-
Model of the name tree: daemon/table/name-tree-hashtable.{hpp,cpp}, name-tree-entry.{hpp,cpp}, name-tree.{hpp,cpp},
name-tree-iterator.cpp.

Conventions:
* a pointer to a node or entry is represented by the entry's name; entries are never moved, and names are unique in
  the table (proved), so this identifies the object. Following a pointer whose entry is gone is a fault (`none`);
* the doubly linked list hanging off a bucket is a `List`;
* the table entries attached to a name-tree entry (FIB, PIT, measurements, strategy choice) are a type parameter `T` with
  `has : T → Bool` for `hasTableEntries`.
-/
namespace Verif.Nt

/-- name-tree.hpp:50-54 -/
abbrev maxDepth : Nat := 32

/-- `Node` (name-tree-hashtable.hpp:62-80) with the payload `Entry` minus its name. -/
structure Node (α : Type) where
  hash : Nat
  name : Name
  entry : α

/-- `HashtableOptions` and the derived numbers (name-tree-hashtable.hpp:108-140; name-tree-hashtable.cpp:202-204, 243-247, 250-256).
The float products are kept abstract: thresholds and new sizes are arbitrary functions of the bucket count, except that a
new size is never zero (expandFactor > 1; the shrunk size is at least minSize > 0). -/
structure Options where
  initialSize : Nat
  expandThreshold : Nat → Nat
  shrinkThreshold : Nat → Nat
  expandTo : Nat → Nat
  shrinkTo : Nat → Nat
  initial_pos : 0 < initialSize
  expand_pos : ∀ n, 0 < n → 0 < expandTo n
  shrink_pos : ∀ n, 0 < n → 0 < shrinkTo n

/-- The options NFD runs with, for `nBuckets` (name-tree.cpp:37-40, name-tree-hashtable.hpp:127-139), with exact arithmetic
instead of floats. -/
def Options.default (n : Nat) (h : 0 < n) : Options where
  initialSize := n
  expandThreshold b := b / 2
  shrinkThreshold b := b / 10
  expandTo b := 2 * b
  shrinkTo b := max n (b / 2)
  initial_pos := h
  expand_pos b hb := by omega
  shrink_pos b hb := by omega

/-- `Hashtable` (name-tree-hashtable.hpp:150-248); the thresholds are recomputed after every resize, hence functions of
the bucket count. -/
structure Hashtable (α : Type) where
  buckets : List (List (Node α))
  size : Nat

variable {α : Type}

/-- `computeHash` (name-tree-hashtable.cpp:59-90): XOR of component hashes. The component hash (CityHash) is a parameter. -/
def computeHash (ch : Component → Nat) (name : Name) : Nat := name.foldl (fun h c => h ^^^ ch c) 0

/-- `Hashtable::Hashtable` (name-tree-hashtable.cpp:118-134). -/
def Hashtable.init (o : Options) : Hashtable α := ⟨List.replicate o.initialSize [], 0⟩

/-- `computeBucketIndex` (name-tree-hashtable.hpp:180-184). -/
def Hashtable.bucketIndex (t : Hashtable α) (h : Nat) : Nat := h % t.buckets.length

/-- `attach` (name-tree-hashtable.cpp:146-158): at the head of the bucket. -/
def attach (bs : List (List (Node α))) (i : Nat) (n : Node α) : List (List (Node α)) := bs.modify i (n :: ·)

/-- `resize` (name-tree-hashtable.cpp:258-278): reattach every node, bucket by bucket, in list order. -/
def Hashtable.resize (t : Hashtable α) (newN : Nat) : Hashtable α :=
  if t.buckets.length = newN then t
  else
    { t with buckets := t.buckets.flatten.foldl (fun bs n => attach bs (n.hash % newN) n) (List.replicate newN []) }

/-- The search loop of `findOrInsert` (name-tree-hashtable.cpp:183-190). -/
def Hashtable.findNode (t : Hashtable α) (name : Name) (h : Nat) : Option (Node α) :=
  (t.buckets.getD (t.bucketIndex h) []).find? (fun n => n.hash == h && n.name == name)

/-- `Hashtable::find` (name-tree-hashtable.cpp:209-221). -/
def Hashtable.find (ch : Component → Nat) (t : Hashtable α) (name : Name) : Option α :=
  (t.findNode name (computeHash ch name)).map (·.entry)

/-- `Hashtable::insert` / `findOrInsert` (name-tree-hashtable.cpp:180-207, 223-228): the flag is `isNew`; `fresh` is what
`Node::Node` constructs. -/
def Hashtable.insert (ch : Component → Nat) (o : Options) (t : Hashtable α) (name : Name) (fresh : α) : Hashtable α × Bool :=
  let h := computeHash ch name
  match t.findNode name h with
  | some _ => (t, false)
  | none =>
    let t := { t with buckets := attach t.buckets (t.bucketIndex h) ⟨h, name, fresh⟩, size := t.size + 1 }
    (if t.size > o.expandThreshold t.buckets.length then t.resize (o.expandTo t.buckets.length) else t, true)

/-- `Hashtable::erase` (name-tree-hashtable.cpp:230-248) of the node with this name; its stored hash is used. A node that
is not in its bucket is a fault (assertions in `detach`). -/
def Hashtable.erase (ch : Component → Nat) (o : Options) (t : Hashtable α) (name : Name) : Option (Hashtable α) :=
  let h := computeHash ch name
  match t.findNode name h with
  | none => none
  | some n =>
    let t := { t with
      buckets := t.buckets.modify (t.bucketIndex n.hash) (fun b => b.eraseP (fun n => n.hash == h && n.name == name))
      size := t.size - 1 }
    some (if t.size < o.shrinkThreshold t.buckets.length then t.resize (o.shrinkTo t.buckets.length) else t)

/-- Writing through a `Node*`/`Entry*`. -/
def Hashtable.update (t : Hashtable α) (name : Name) (f : α → α) : Hashtable α :=
  { t with buckets := t.buckets.map (fun b => b.map (fun n => if n.name = name then { n with entry := f n.entry } else n)) }

/-! ### Name tree -/

/-- `Entry` (name-tree-entry.hpp:168-177) without its name. -/
structure Nte (T : Type) where
  parent : Option Name := none
  children : List Name := []
  tbl : T

/-- Parameters of a name tree. -/
structure Cfg (T : Type) where
  ch : Component → Nat
  opts : Options
  /-- `hasTableEntries` (name-tree-entry.cpp:62-69) -/
  has : T → Bool
  /-- a new entry carries no table entries -/
  empty : T
  has_empty : has empty = false

variable {T : Type}

abbrev Tree (T : Type) := Hashtable (Nte T)

/-- `Entry::isEmpty` (name-tree-entry.hpp:98-102). -/
def Nte.isEmpty (c : Cfg T) (e : Nte T) : Bool := e.children.isEmpty && !c.has e.tbl

/-- `Entry::setParent` (name-tree-entry.cpp:39-48) with its assertions. -/
def setParent (c : Cfg T) (t : Tree T) (n p : Name) : Option (Tree T) :=
  match t.find c.ch n, t.find c.ch p with
  | some e, some _ =>
    if e.parent.isSome || n.isEmpty || p != n.dropLast then none
    else some ((t.update n (fun e => { e with parent := some p })).update p (fun e => { e with children := e.children ++ [n] }))
  | _, _ => none

/-- `Entry::unsetParent` (name-tree-entry.cpp:50-60). -/
def unsetParent (c : Cfg T) (t : Tree T) (n : Name) : Option (Tree T) :=
  match t.find c.ch n with
  | none => none
  | some e =>
    match e.parent with
    | none => none
    | some p =>
      match t.find c.ch p with
      | none => none
      | some pe =>
        if pe.children.contains n then
          some ((t.update p (fun e => { e with children := e.children.erase n })).update n (fun e => { e with parent := none }))
        else none

/-- One round of the loop of `NameTree::lookup` (name-tree.cpp:53-61), for prefix length `i`. -/
def lookupStep (c : Cfg T) (t : Tree T) (name : Name) (i : Nat) (parent : Option Name) : Option (Tree T) :=
  let n := name.take i
  let r := t.insert c.ch c.opts n { tbl := c.empty }
  match r.2, parent with
  | true, some p => setParent c r.1 n p
  | _, _ => some r.1

/-- The loop of `NameTree::lookup`: `k` more rounds starting at length `i`. -/
def lookupLoop (c : Cfg T) (name : Name) : Nat → Nat → Option Name → Tree T → Option (Tree T)
  | 0, _, _, t => some t
  | k + 1, i, parent, t =>
    match lookupStep c t name i parent with
    | none => none
    | some t => lookupLoop c name k (i + 1) (some (name.take i)) t

/-- `NameTree::lookup(name, prefixLen)` (name-tree.cpp:42-63). -/
def lookup (c : Cfg T) (t : Tree T) (name : Name) (prefixLen : Nat) : Option (Tree T) :=
  if prefixLen ≤ name.length ∧ prefixLen ≤ maxDepth then lookupLoop c name (prefixLen + 1) 0 none t else none

/-- The loop of `NameTree::eraseIfEmpty` (name-tree.cpp:126-140). `fuel`: name length + 1 rounds suffice, a node's parent
being one component shorter. -/
def eraseLoop (c : Cfg T) (canEraseAncestors : Bool) : Nat → Tree T → Option Name → Nat → Option (Tree T × Nat)
  | 0, t, n, k => if n.isNone then some (t, k) else none
  | fuel + 1, t, n, k =>
    match n with
    | none => some (t, k)
    | some n =>
      match t.find c.ch n with
      | none => none
      | some e =>
        if e.isEmpty c then
          match (if e.parent.isSome then unsetParent c t n else some t) with
          | none => none
          | some t =>
            match t.erase c.ch c.opts n with
            | none => none
            | some t => if canEraseAncestors then eraseLoop c canEraseAncestors fuel t e.parent (k + 1) else some (t, k + 1)
        else some (t, k)

/-- `NameTree::eraseIfEmpty` (name-tree.cpp:121-146). -/
def eraseIfEmpty (c : Cfg T) (t : Tree T) (n : Name) (canEraseAncestors : Bool) : Option (Tree T × Nat) :=
  eraseLoop c canEraseAncestors (n.length + 2) t (some n) 0

/-- Attaching or detaching a table entry (`setFibEntry`, `insertPitEntry`, `erasePitEntry`, `setMeasurementsEntry`,
`setStrategyChoiceEntry`, name-tree-entry.cpp:71-139). -/
def setTbl (c : Cfg T) (t : Tree T) (n : Name) (f : T → T) : Option (Tree T) :=
  match t.find c.ch n with
  | none => none
  | some _ => some (t.update n (fun e => { e with tbl := f e.tbl }))

/-- `NameTree::findExactMatch` (name-tree.cpp:148-158). -/
def findExact (c : Cfg T) (t : Tree T) (name : Name) (prefixLen : Nat) : Option (Name × Nte T) :=
  let k := min name.length prefixLen
  if k > maxDepth then none else (t.find c.ch (name.take k)).map (name.take k, ·)

/-- The loop of `findLongestPrefixMatch(name)` (name-tree.cpp:166-171), from length `i` down to 0. -/
def lpmLoop (c : Cfg T) (t : Tree T) (sel : Name → Nte T → Bool) (name : Name) : Nat → Option Name
  | 0 => if (t.find c.ch (name.take 0)).any (sel (name.take 0)) then some (name.take 0) else none
  | i + 1 =>
    if (t.find c.ch (name.take (i + 1))).any (sel (name.take (i + 1))) then some (name.take (i + 1))
    else lpmLoop c t sel name i

/-- `NameTree::findLongestPrefixMatch(name, selector)` (name-tree.cpp:160-174). -/
def lpm (c : Cfg T) (t : Tree T) (sel : Name → Nte T → Bool) (name : Name) : Option Name :=
  lpmLoop c t sel name (min name.length maxDepth)

/-- `NameTree::findLongestPrefixMatch(entry, selector)` (name-tree.cpp:176-187): climbs parent pointers. -/
def lpmEntry (c : Cfg T) (t : Tree T) (sel : Name → Nte T → Bool) : Nat → Option Name → Option (Option Name)
  | _, none => some none
  | 0, some _ => none
  | fuel + 1, some n =>
    match t.find c.ch n with
    | none => none
    | some e => if sel n e then some (some n) else lpmEntry c t sel fuel e.parent

/-- The "go deeper" loop of `findLongestPrefixMatch(pitEntry)` (name-tree.cpp:199-205): `k` more rounds. -/
def deeper (c : Cfg T) (t : Tree T) (name : Name) : Nat → Nat → Name → Name
  | 0, _, n => n
  | k + 1, i, n =>
    match findExact c t name i with
    | none => n
    | some (n', _) => deeper c t name k (i + 1) n'

/-- `NameTree::findLongestPrefixMatch(pitEntry, selector)` (name-tree.cpp:189-209); `nte` is the entry the PIT entry is
attached to. -/
def lpmPit (c : Cfg T) (t : Tree T) (sel : Name → Nte T → Bool) (pitName nte : Name) : Option (Option Name) :=
  let depth := min pitName.length maxDepth
  let n := if nte.length < pitName.length then deeper c t pitName (depth - nte.length) (nte.length + 1) nte else nte
  lpmEntry c t sel (n.length + 1) (some n)

/-! ### Enumerations (name-tree-iterator.cpp) -/

/-- First selected node of bucket `b`, then of the buckets after it (name-tree-iterator.cpp:115-124). -/
def firstIn (sel : Name → α → Bool) : List (List (Node α)) → Option Name
  | [] => none
  | b :: bs =>
    match b.find? (fun n => sel n.name n.entry) with
    | some n => some n.name
    | none => firstIn sel bs

/-- `FullEnumerationImpl::advance` (name-tree-iterator.cpp:86-128) from the entry `cur` (`none` = not started). Result:
next entry, or `none` at the end. -/
def fullAdvance (ch : Component → Nat) (t : Hashtable α) (sel : Name → α → Bool) (cur : Option Name) : Option Name :=
  match cur with
  | some n =>
    let i := t.bucketIndex (computeHash ch n)
    -- remaining nodes of the same bucket
    match ((t.buckets.getD i []).dropWhile (fun m => m.name != n)).tail.find? (fun n => sel n.name n.entry) with
    | some m => some m.name
    | none => firstIn sel (t.buckets.drop (i + 1))
  | none =>
    match firstIn (fun _ _ => true) t.buckets with
    | none => none
    | some n =>
      match t.find ch n with
      | none => none
      | some e =>
        if sel n e then some n
        else
          let i := t.bucketIndex (computeHash ch n)
          match ((t.buckets.getD i []).dropWhile (fun m => m.name != n)).tail.find? (fun n => sel n.name n.entry) with
          | some m => some m.name
          | none => firstIn sel (t.buckets.drop (i + 1))

/-- A `for` loop over `fullEnumerate`: the entries visited, at most `fuel`. -/
def fullFrom (ch : Component → Nat) (t : Hashtable α) (sel : Name → α → Bool) : Nat → Option Name → List Name
  | 0, _ => []
  | fuel + 1, cur =>
    match fullAdvance ch t sel cur with
    | none => []
    | some n => n :: fullFrom ch t sel fuel (some n)

/-- Sibling loop of `PartialEnumerationImpl::advance` (name-tree-iterator.cpp:177-192): result is the entry visited or
stopped at, with its wantSelf and wantChildren; `none` if the siblings ran out. -/
def nextSibling (c : Cfg T) (t : Tree T) (sel : Name → Nte T → Bool × Bool) : List Name → Option (Option (Name × Bool × Bool))
  | [] => some none
  | s :: ss =>
    match t.find c.ch s with
    | none => none
    | some e =>
      if (sel s e).1 || (sel s e).2 then some (some (s, (sel s e).1, (sel s e).2)) else nextSibling c t sel ss

inductive Walk
  | done
  | fault
  /-- moved to an entry with its wantChildren; `true`: the entry is visited (yielded) -/
  | at (n : Name) (wantChildren : Bool) (yielded : Bool)

/-- One round of the loop of `PartialEnumerationImpl::advance` (name-tree-iterator.cpp:161-194) at entry `n` with
`wantChildren`, starting point `ref`. Returning from `advance` at a visited entry saves (entry, wantChildren), and the next
call resumes the loop with them, so a whole enumeration is one run of these rounds. -/
def partialStep (c : Cfg T) (t : Tree T) (sel : Name → Nte T → Bool × Bool) (ref n : Name) (wantChildren : Bool) : Walk :=
  match t.find c.ch n with
  | none => .fault
  | some e =>
    match wantChildren, e.children with
    | true, ch :: _ =>
      match t.find c.ch ch with
      | none => .fault
      | some ce => .at ch (sel ch ce).2 (sel ch ce).1
    | _, _ =>
      if n = ref then .done
      else
        match e.parent with
        | none => .fault
        | some p =>
          match t.find c.ch p with
          | none => .fault
          | some pe =>
            if pe.children.contains n then
              match nextSibling c t sel (pe.children.dropWhile (· != n)).tail with
              | none => .fault
              | some none => .at p false false
              | some (some (s, ws, wc)) => .at s wc ws
            else .fault

/-- Run of the rounds; `none`: fault or out of fuel. -/
def partialRun (c : Cfg T) (t : Tree T) (sel : Name → Nte T → Bool × Bool) (ref : Name) : Nat → Name → Bool → Option (List Name)
  | 0, _, _ => none
  | fuel + 1, n, wc =>
    match partialStep c t sel ref n wc with
    | .fault => none
    | .done => some []
    | .at m wc' y => (partialRun c t sel ref fuel m wc').map (fun l => if y then m :: l else l)

/-- A `for` loop over `partialEnumerate(prefix, selector)` (name-tree.cpp:230-236, name-tree-iterator.cpp:142-155). -/
def partialEnumerate (c : Cfg T) (t : Tree T) (sel : Name → Nte T → Bool × Bool) (fuel : Nat) (ref : Name) : Option (List Name) :=
  match findExact c t ref ref.length with
  | none => some []
  | some (_, e) => (partialRun c t sel ref fuel ref (sel ref e).2).map (fun l => if (sel ref e).1 then ref :: l else l)

/-- `PrefixMatchImpl::advance` repeated (name-tree-iterator.cpp:206-230): climb from `n`, yielding selected entries. -/
def climb (c : Cfg T) (t : Tree T) (sel : Name → Nte T → Bool) : Nat → Option Name → Option (List Name)
  | _, none => some []
  | 0, some _ => none
  | fuel + 1, some n =>
    match t.find c.ch n with
    | none => none
    | some e => (climb c t sel fuel e.parent).map (fun l => if sel n e then n :: l else l)

/-- A `for` loop over `findAllMatches(name, selector)` (name-tree.cpp:211-222). -/
def findAllMatches (c : Cfg T) (t : Tree T) (sel : Name → Nte T → Bool) (name : Name) : Option (List Name) :=
  match lpm c t sel name with
  | none => some []
  | some n => climb c t sel (n.length + 1) (some n)

end Verif.Nt
