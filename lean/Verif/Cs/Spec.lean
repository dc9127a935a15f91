import Verif.Cs.Model

/-
Specification vocabulary for the Content Store properties, independent of the policies' data structures.
-/
namespace Verif.Cs

/-- The NDN rule for "Data satisfies Interest": the Interest names the Data fully (with digest), or by its exact
name, or by a prefix if CanBePrefix is set. -/
def Matches (i : Interest) (d : Data) : Prop :=
  i.name = d.fullName ∨ i.name = d.name ∨ (i.canBePrefix = true ∧ i.name <+: d.name)

/-- The Data can answer the Interest at time `now` given when its freshness ends. -/
def Usable (now : Nat) (i : Interest) (e : Entry) : Prop :=
  Matches i e.data ∧ (i.mustBeFresh = true → now ≤ e.freshUntil)

/-- Canonical order of full names (name first, then digest). -/
def DataLt (a b : Data) : Prop :=
  Name.cmp a.name b.name = .lt ∨ (a.name = b.name ∧ Component.cmp a.digestComp b.digestComp = .lt)

/-- A valid Data packet: well-formed name components and a 32-octet digest. -/
def DataWF (d : Data) : Prop := Name.WF d.name ∧ d.digest.length = 32

/-- The name contains no implicit-digest component. -/
def NoDigest (n : Name) : Prop := ∀ c ∈ n, c.typ ≠ ttImplicitDigest

/-- In the list of events `log`, something happened to `b` after the last time something happened to `a`. -/
def TouchedAfter (log : List Key) (a b : Key) : Prop :=
  ∃ pre post, log = pre ++ a :: post ∧ a ∉ post ∧ b ∈ post

/-- An insertion that the store takes. -/
def Admitted (s : Cs) (d : Data) : Prop := s.admit = true ∧ s.limit ≠ 0 ∧ d.noCache = false

instance (s : Cs) (d : Data) : Decidable (Admitted s d) := by unfold Admitted; infer_instance

/-- The kind of the current policy. -/
def Cs.kind (s : Cs) : PolicyKind := match s.policy with | .lru _ => .lru | .pfifo _ => .pfifo

/-- The events the eviction order is about. LRU: a packet is inserted (or refreshed), or served.
Priority FIFO: a packet is inserted (or refreshed), or its stale timer fires. -/
def touched (s : Cs) (op : Op) (out : Out) : List Key :=
  match op, s.kind with
  | .insert d _, _ => if Admitted s d then [keyOf d] else []
  | .find _, .lru => match out with | .hit d => [keyOf d] | _ => []
  | .fire id, .pfifo =>
    match s.policy with
    | .pfifo p =>
      match p.events.find? (fun ev => ev.1 == id) with
      | some ev => if ev.2.2 ≤ s.now then [ev.2.1] else []
      | none => []
    | .lru _ => []
  | _, _ => []

/-- Run with the log of the events above. -/
def Cs.runLog (s : Cs) (log : List Key) : List Op → Option (Cs × List Key)
  | [] => some (s, log)
  | op :: ops =>
    match s.step op with
    | none => none
    | some (s', out) => Cs.runLog s' (log ++ touched s op out) ops

/-- All operations carry valid names and packets. -/
def OpWF : Op → Prop
  | .insert d _ => DataWF d
  | .erase p _ => Name.WF p
  | .find i => Name.WF i.name
  | _ => True

/-- No packet with an implicit-digest component inside its name is ever inserted. -/
def OpNoDigest : Op → Prop
  | .insert d _ => NoDigest d.name
  | _ => True

/-- The stored packet after an accepted insertion of `d`: refreshed if it was there, else new. -/
def inserted (s : Cs) (d : Data) (unsolicited : Bool) : Entry :=
  match s.table.find? (fun e => e.key == keyOf d) with
  | some old => { old with unsolicited := old.unsolicited && unsolicited, freshUntil := s.now + old.data.freshness }
  | none => ⟨d, unsolicited, s.now + d.freshness⟩

/-- What the store would contain after an operation if capacity were unlimited. -/
def Unlimited (s : Cs) (op : Op) (e : Entry) : Prop :=
  match op with
  | .insert d u =>
    if Admitted s d then (e ∈ s.table ∧ e.key ≠ keyOf d) ∨ e = inserted s d u else e ∈ s.table
  | _ => e ∈ s.table

/-- A packet leaves the store by eviction in this operation: it would be there with unlimited capacity. -/
def Evicted (s : Cs) (op : Op) (s' : Cs) (e : Entry) : Prop :=
  (∀ p n, op ≠ .erase p n) ∧ Unlimited s op e ∧ e ∉ s'.table

/-- A stale timer is pending for the packet. -/
def TimerPending (s : Cs) (k : Key) : Prop :=
  match s.policy with
  | .pfifo p => ∃ id due, (id, k, due) ∈ p.events
  | .lru _ => False

/-- No pending timer is overdue. -/
def Prompt (s : Cs) : Prop :=
  match s.policy with
  | .pfifo p => ∀ ev ∈ p.events, s.now ≤ ev.2.2
  | .lru _ => True

end Verif.Cs
