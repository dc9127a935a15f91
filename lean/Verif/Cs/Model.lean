import Verif.Packet

/-
Model of the Content Store: daemon/table/cs.cpp, cs-entry.cpp, cs-policy.cpp, cs-policy-lru.cpp,
cs-policy-priority-fifo.cpp and the callers in daemon/mgmt/cs-manager.cpp and
daemon/mgmt/tables-config-section.cpp.

Conventions:
* results are `Option`; `none` is a fault (failed BOOST_ASSERT, use of an iterator whose entry was removed);
* an `EntryRef` (iterator into the table) is represented by the key (name, digest) of the entry: iterators are
  compared by what they point to (cs-entry.hpp:119-123);
* time is a natural number (steady_clock ticks).
-/
namespace Verif.Cs

/-- `cs::Entry` (cs-entry.hpp:37-102). -/
structure Entry where
  data : Data
  unsolicited : Bool
  freshUntil : Nat
deriving DecidableEq, Repr

/-- Identity of an entry: name and digest. -/
abbrev Key := Name × List Byte

def keyOf (d : Data) : Key := (d.name, d.digest)
def Entry.key (e : Entry) : Key := keyOf e.data

/-- `compareDataWithData` (cs-entry.cpp:84-93). -/
def cmpData (a b : Data) : Ordering :=
  match Name.cmp a.name b.name with
  | .eq => Component.cmp a.digestComp b.digestComp
  | o => o

/-- `compareQueryWithData` (cs-entry.cpp:63-82). -/
def cmpQuery (q : Name) (d : Data) : Ordering :=
  match q.getLast? with
  | some c =>
    if c.isImplicitDigest then
      match Name.cmp q.dropLast d.name with
      | .eq => Component.cmp c d.digestComp
      | o => o
    else
      match Name.cmp q d.name with
      | .eq => .lt
      | o => o
  | none =>
    match Name.cmp q d.name with
    | .eq => .lt
    | o => o

/-- `operator<(const Entry&, const Name&)` (cs-entry.cpp:95-99). -/
def entryLtQuery (q : Name) (e : Entry) : Bool := cmpQuery q e.data == .gt

/-- `Entry::isFresh` (cs-entry.cpp:37-41). -/
def Entry.isFresh (now : Nat) (e : Entry) : Bool := e.freshUntil ≥ now

/-- `Entry::updateFreshUntil` (cs-entry.cpp:43-47). -/
def Entry.updateFreshUntil (now : Nat) (e : Entry) : Entry := { e with freshUntil := now + e.data.freshness }

/-- `Entry::canSatisfy` (cs-entry.cpp:49-61). -/
def Entry.canSatisfy (now : Nat) (i : Interest) (e : Entry) : Bool :=
  if !i.matchesData e.data then false
  else if i.mustBeFresh && !e.isFresh now then false
  else true

/-- `Table` = `std::set<Entry>` (cs-entry.hpp:113-117): list in ascending order. -/
abbrev Table := List Entry

/-- `std::set::emplace`: ordered insertion unless an equivalent element exists; the flag says whether inserted. -/
def emplace (e : Entry) : Table → Table × Bool
  | [] => ([e], true)
  | x :: xs =>
    match cmpData e.data x.data with
    | .lt => (e :: x :: xs, true)
    | .eq => (x :: xs, false)
    | .gt => (x :: (emplace e xs).1, (emplace e xs).2)

/-- In-place modification of the element an iterator points to (`const_cast<Entry&>(*it)`, cs.cpp:66). -/
def modify (k : Key) (f : Entry → Entry) (t : Table) : Table :=
  t.map fun e => if e.key = k then f e else e

def hasKey (k : Key) (t : Table) : Bool := t.any (fun e => e.key == k)
def lookup (k : Key) (t : Table) : Option Entry := t.find? (fun e => e.key == k)

/-- `m_table.erase(it)` : fault if the iterator is dangling. -/
def tableErase (k : Key) (t : Table) : Option Table :=
  if hasKey k t then some (t.eraseP (fun e => e.key == k)) else none

/-- Queue types of priority_fifo (cs-policy-priority-fifo.hpp:40-45). -/
inductive QType | unsolicited | stale | fifo
deriving DecidableEq, Repr

/-- `EntryInfo` (cs-policy-priority-fifo.hpp:47-52); `queueIt` is the position of the key in its queue,
`event` the id of the scheduled event. -/
structure Info where
  qtype : QType
  event : Nat
deriving DecidableEq, Repr

/-- Policy state of `PriorityFifoPolicy`, plus the events it has pending in the scheduler:
(event id, entry, due time). -/
structure PFifo where
  qUnsolicited : List Key := []
  qStale : List Key := []
  qFifo : List Key := []
  info : List (Key × Info) := []
  events : List (Nat × Key × Nat) := []
  nextEvent : Nat := 0
deriving DecidableEq, Repr

/-- The replacement policy object. -/
inductive Policy
  | lru (queue : List Key)
  | pfifo (s : PFifo)
deriving DecidableEq, Repr

inductive PolicyKind | lru | pfifo
deriving DecidableEq, Repr

/-- Freshly constructed policy. -/
def Policy.fresh : PolicyKind → Policy
  | .lru => .lru []
  | .pfifo => .pfifo {}

/-- State of class `Cs` with the clock. -/
structure Cs where
  table : Table := []
  policy : Policy := .lru []
  limit : Nat
  admit : Bool := true
  serve : Bool := true
  now : Nat := 0
deriving DecidableEq, Repr

/-! ### LRU (cs-policy-lru.cpp) -/

/-- `LruPolicy::insertToQueue` (cs-policy-lru.cpp:75-85). -/
def lruInsertToQueue (q : List Key) (k : Key) (isNewEntry : Bool) : Option (List Key) :=
  let isNew := !q.contains k
  if isNew = isNewEntry then
    if isNewEntry then some (q ++ [k]) else some (q.erase k ++ [k])
  else none

/-- `LruPolicy::evictEntries` (cs-policy-lru.cpp:63-73). -/
def lruEvict (limit : Nat) : List Key → Table → Option (Table × List Key)
  | q, t =>
    if t.length > limit then
      match q with
      | [] => none
      | k :: q' =>
        match tableErase k t with
        | none => none
        | some t' => lruEvict limit q' t'
    else some (t, q)

/-! ### Priority FIFO (cs-policy-priority-fifo.cpp) -/

def PFifo.queue (s : PFifo) : QType → List Key
  | .unsolicited => s.qUnsolicited
  | .stale => s.qStale
  | .fifo => s.qFifo

def PFifo.setQueue (s : PFifo) (q : QType) (l : List Key) : PFifo :=
  match q with
  | .unsolicited => { s with qUnsolicited := l }
  | .stale => { s with qStale := l }
  | .fifo => { s with qFifo := l }

/-- `m_entryInfoMap.find`. -/
def PFifo.findInfo (s : PFifo) (k : Key) : Option Info :=
  (s.info.find? (fun p => p.1 == k)).map (·.2)

/-- `attachQueue` (cs-policy-priority-fifo.cpp:104-125). The entry is the one the iterator points to. -/
def PFifo.attach (s : PFifo) (now : Nat) (e : Entry) : Option PFifo :=
  if (s.findInfo e.key).isSome then none
  else if e.unsolicited then
    let s := s.setQueue .unsolicited (s.queue .unsolicited ++ [e.key])
    some { s with info := (e.key, ⟨.unsolicited, 0⟩) :: s.info }
  else if !e.isFresh now then
    let s := s.setQueue .stale (s.queue .stale ++ [e.key])
    some { s with info := (e.key, ⟨.stale, 0⟩) :: s.info }
  else
    let id := s.nextEvent
    let s := { s with events := s.events ++ [(id, e.key, now + e.data.freshness)], nextEvent := id + 1 }
    let s := s.setQueue .fifo (s.queue .fifo ++ [e.key])
    some { s with info := (e.key, ⟨.fifo, id⟩) :: s.info }

/-- `detachQueue` (cs-policy-priority-fifo.cpp:127-140). Fault if the entry has no info, or if its stored
queue position is not in that queue. -/
def PFifo.detach (s : PFifo) (k : Key) : Option PFifo :=
  match s.findInfo k with
  | none => none
  | some i =>
    let s := if i.qtype = .fifo then { s with events := s.events.filter (fun ev => ev.1 ≠ i.event) } else s
    if (s.queue i.qtype).contains k then
      let s := s.setQueue i.qtype ((s.queue i.qtype).erase k)
      some { s with info := s.info.eraseP (fun p => p.1 == k) }
    else none

/-- Front choice of `evictOne` (cs-policy-priority-fifo.cpp:85-98); `none`: all queues empty, assertion. -/
def PFifo.victim (s : PFifo) : Option Key :=
  match s.qUnsolicited, s.qStale, s.qFifo with
  | k :: _, _, _ => some k
  | [], k :: _, _ => some k
  | [], [], k :: _ => some k
  | [], [], [] => none

/-- `evictOne` (cs-policy-priority-fifo.cpp:82-102) with the table erasure done by the `beforeEvict` slot
(cs.cpp:144). -/
def PFifo.evictOne (s : PFifo) (t : Table) : Option (Table × PFifo) :=
  match s.victim with
  | none => none
  | some k =>
    match s.detach k with
    | none => none
    | some s' =>
      match tableErase k t with
      | none => none
      | some t' => some (t', s')

/-- `PriorityFifoPolicy::evictEntries` (cs-policy-priority-fifo.cpp:72-80). `fuel` bounds the loop; each round
removes one table entry, so the initial table size suffices (running out of fuel is a fault). -/
def PFifo.evict (limit : Nat) : Nat → PFifo → Table → Option (Table × PFifo)
  | fuel, s, t =>
    if t.length > limit then
      match fuel with
      | 0 => none
      | fuel + 1 =>
        match s.evictOne t with
        | none => none
        | some (t', s') => PFifo.evict limit fuel s' t'
    else some (t, s)

/-- `moveToStaleQueue` (cs-policy-priority-fifo.cpp:142-156), run as the callback of event `id`
(which the scheduler has removed from its queue). -/
def PFifo.moveToStale (s : PFifo) (k : Key) : Option PFifo :=
  match s.findInfo k with
  | none => none
  | some i =>
    if i.qtype = .fifo then
      if s.qFifo.contains k then
        some { s with
          qFifo := s.qFifo.erase k
          qStale := s.qStale ++ [k]
          info := s.info.map (fun p => if p.1 = k then (k, { p.2 with qtype := .stale }) else p) }
      else none
    else none

/-! ### Policy interface (cs-policy.cpp:66-100) -/

/-- `evictEntries` of the current policy on the current table. -/
def Cs.evictEntries (s : Cs) : Option Cs :=
  match s.policy with
  | .lru q =>
    match lruEvict s.limit q s.table with
    | none => none
    | some (t, q) => some { s with table := t, policy := .lru q }
  | .pfifo p =>
    match PFifo.evict s.limit s.table.length p s.table with
    | none => none
    | some (t, p) => some { s with table := t, policy := .pfifo p }

/-- `Policy::afterInsert`: cs-policy-lru.cpp:38-43, cs-policy-priority-fifo.cpp:46-51. -/
def Cs.afterInsert (s : Cs) (k : Key) : Option Cs :=
  match s.policy with
  | .lru q =>
    match lruInsertToQueue q k true with
    | none => none
    | some q => Cs.evictEntries { s with policy := .lru q }
  | .pfifo p =>
    match lookup k s.table with
    | none => none
    | some e =>
      match p.attach s.now e with
      | none => none
      | some p => Cs.evictEntries { s with policy := .pfifo p }

/-- `Policy::afterRefresh`: cs-policy-lru.cpp:45-49, cs-policy-priority-fifo.cpp:53-58. -/
def Cs.afterRefresh (s : Cs) (k : Key) : Option Cs :=
  match s.policy with
  | .lru q =>
    match lruInsertToQueue q k false with
    | none => none
    | some q => some { s with policy := .lru q }
  | .pfifo p =>
    match p.detach k with
    | none => none
    | some p =>
      match lookup k s.table with
      | none => none
      | some e =>
        match p.attach s.now e with
        | none => none
        | some p => some { s with policy := .pfifo p }

/-- `Policy::beforeErase`: cs-policy-lru.cpp:51-55 (erase by key), cs-policy-priority-fifo.cpp:60-64. -/
def Cs.beforeErase (s : Cs) (k : Key) : Option Cs :=
  match s.policy with
  | .lru q => some { s with policy := .lru (q.erase k) }
  | .pfifo p =>
    match p.detach k with
    | none => none
    | some p => some { s with policy := .pfifo p }

/-- `Policy::beforeUse`: cs-policy-lru.cpp:57-61, cs-policy-priority-fifo.cpp:66-70. -/
def Cs.beforeUse (s : Cs) (k : Key) : Option Cs :=
  match s.policy with
  | .lru q =>
    match lruInsertToQueue q k false with
    | none => none
    | some q => some { s with policy := .lru q }
  | .pfifo p => if (p.findInfo k).isSome then some s else none

/-! ### Cs (cs.cpp) -/

/-- `Cs::insert` (cs.cpp:48-80). -/
def Cs.insert (s : Cs) (d : Data) (isUnsolicited : Bool) : Option Cs :=
  if !s.admit || s.limit == 0 then some s
  else if d.noCache then some s
  else
    let k := keyOf d
    let r := emplace ⟨d, isUnsolicited, s.now + d.freshness⟩ s.table
    let t := modify k (Entry.updateFreshUntil s.now) r.1
    if !r.2 then
      let t := modify k (fun e => if e.unsolicited && !isUnsolicited then { e with unsolicited := false } else e) t
      Cs.afterRefresh { s with table := t } k
    else
      Cs.afterInsert { s with table := t } k

/-- `lower_bound(q)` as an index into the ordered table. -/
def lowerBound (q : Name) (t : Table) : Nat := t.findIdx (fun e => !entryLtQuery q e)

/-- `Cs::findPrefixRange` (cs.cpp:82-91): pair of positions. -/
def findPrefixRange (p : Name) (t : Table) : Nat × Nat :=
  (lowerBound p t, if p ≠ [] then lowerBound p.succ t else t.length)

/-- The elements an iteration from `first` to `last` visits; walking past `end()` because
`last` lies before `first` is a fault. -/
def iterRange (r : Nat × Nat) (t : Table) : Option (List Entry) :=
  if r.1 ≤ r.2 then some ((t.take r.2).drop r.1) else none

/-- The loop of `Cs::eraseImpl` (cs.cpp:99-104), over the entries the iterator visits. -/
def Cs.eraseLoop (s : Cs) : List Entry → Nat → Option (Cs × Nat)
  | [], n => some (s, n)
  | e :: es, n =>
    match s.beforeErase e.key with
    | none => none
    | some s' =>
      match tableErase e.key s'.table with
      | none => none
      | some t => Cs.eraseLoop { s' with table := t } es (n + 1)

/-- `Cs::eraseImpl` (cs.cpp:93-106): the loop stops after `limit` entries. -/
def Cs.erase (s : Cs) (p : Name) (limit : Nat) : Option (Cs × Nat) :=
  match iterRange (findPrefixRange p s.table) s.table with
  | none => none
  | some es => s.eraseLoop (es.take limit) 0

/-- `Cs::findImpl` (cs.cpp:108-127) together with the callbacks of `Cs::find` (cs.hpp:75-89):
`some (s', some d)` is a hit, `some (s, none)` a miss. -/
def Cs.find (s : Cs) (i : Interest) : Option (Cs × Option Data) :=
  if !s.serve || s.limit == 0 then some (s, none)
  else
    match iterRange (findPrefixRange i.name s.table) s.table with
    | none => none
    | some es =>
      match es.find? (Entry.canSatisfy s.now i) with
      | none => some (s, none)
      | some e =>
        match s.beforeUse e.key with
        | none => none
        | some s' => some (s', some e.data)

/-- `Cs::setLimit` / `Policy::setLimit` (cs-policy.cpp:66-72). -/
def Cs.setLimit (s : Cs) (n : Nat) : Option Cs := Cs.evictEntries { s with limit := n }

/-- `Cs::setPolicy` (cs.cpp:129-148), guarded as its only caller does (tables-config-section.cpp:111-113). -/
def Cs.setPolicy (s : Cs) (k : PolicyKind) : Option Cs :=
  if s.table.length = 0 then Cs.setLimit { s with policy := Policy.fresh k } s.limit
  else some s

/-- Firing of pending scheduler event `id`. Enabled once the clock has reached its due time; an event fires at
most once. Not enabled: nothing happens. Firing for an entry no longer stored is a fault (the callback
dereferences the captured iterator). -/
def Cs.fire (s : Cs) (id : Nat) : Option Cs :=
  match s.policy with
  | .lru _ => some s
  | .pfifo p =>
    match p.events.find? (fun ev => ev.1 == id) with
    | none => some s
    | some (_, k, due) =>
      if due ≤ s.now then
        if hasKey k s.table then
          match PFifo.moveToStale { p with events := p.events.filter (fun ev => ev.1 ≠ id) } k with
          | none => none
          | some p => some { s with policy := .pfifo p }
        else none
      else some s

/-- Passage of time. -/
def Cs.tick (s : Cs) (dt : Nat) : Cs := { s with now := s.now + dt }

/-- Public operations on a Content Store, plus passage of time and firing of timers. -/
inductive Op
  | insert (d : Data) (unsolicited : Bool)
  | erase (p : Name) (limit : Nat)
  | find (i : Interest)
  | setLimit (n : Nat)
  | setPolicy (k : PolicyKind)
  | enableAdmit (b : Bool)
  | enableServe (b : Bool)
  | tick (dt : Nat)
  | fire (id : Nat)
deriving DecidableEq, Repr

/-- Observable outcome of an operation. -/
inductive Out
  | none
  | erased (n : Nat)
  | hit (d : Data)
  | miss
deriving DecidableEq, Repr

/-- One operation. -/
def Cs.step (s : Cs) : Op → Option (Cs × Out)
  | .insert d u => (s.insert d u).map (·, .none)
  | .erase p n => (s.erase p n).map (fun r => (r.1, .erased r.2))
  | .find i => (s.find i).map (fun r => (r.1, match r.2 with | some d => .hit d | .none => .miss))
  | .setLimit n => (s.setLimit n).map (·, .none)
  | .setPolicy k => (s.setPolicy k).map (·, .none)
  | .enableAdmit b => some ({ s with admit := b }, .none)
  | .enableServe b => some ({ s with serve := b }, .none)
  | .tick dt => some (s.tick dt, .none)
  | .fire id => (s.fire id).map (·, .none)

/-- A run of operations. -/
def Cs.run (s : Cs) : List Op → Option Cs
  | [] => some s
  | op :: ops =>
    match s.step op with
    | none => none
    | some r => Cs.run r.1 ops

/-- `Cs::Cs(nMaxPackets)` (cs.cpp:42-46). -/
def init (limit : Nat) : Cs := { limit := limit }

/-- `CsManager::erase` (cs-manager.cpp:78-104), `ERASE_LIMIT` being cs-manager.hpp's constant.
Result: reported Count and whether Capacity is present in the reply. -/
def mgmtErase (eraseLimit : Nat) (s : Cs) (p : Name) (count : Option Nat) : Option (Cs × Nat × Bool) :=
  let unlimited := count.isNone
  let n := (count.map (min · eraseLimit)).getD eraseLimit
  match s.erase p n with
  | none => none
  | some (s, nErased) =>
    if nErased = eraseLimit ∧ (unlimited ∨ count.getD 0 > eraseLimit) then
      match s.find ⟨p, true, false⟩ with
      | none => none
      | some (s, some _) => some (s, nErased, true)
      | some (s, none) => some (s, nErased, false)
    else some (s, nErased, false)

end Verif.Cs
