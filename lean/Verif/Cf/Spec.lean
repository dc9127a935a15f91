import Verif.Cf.Model
import Verif.Cs.Spec
import Verif.Tables.Spec
import Verif.Mgmt.Auth

/-! What a configuration file says, independently of how it is processed. -/
namespace Verif.Cf

variable {Cert F : Type}

/-- `x` is the first child of `n` with this key. -/
def First (n : Node) (key : String) (x : Node) : Prop := ∃ before after, n.kids = before ++ (key, x) :: after ∧ ∀ y ∈ before, y.1 ≠ key

/-- `n` has no child with this key. -/
def Lacks (n : Node) (key : String) : Prop := ∀ y ∈ n.kids, y.1 ≠ key

/-- The last child of `n` with this key has this value. -/
def LastValue (n : Node) (key v : String) : Prop := ∃ before x after, n.kids = before ++ (key, x) :: after ∧ (∀ y ∈ after, y.1 ≠ key) ∧ x.value = v

/-- Option `key` of section `n` says `v`: it is not there and `v` is the default, or it can be read as `v`. -/
def Says {α : Type} (n : Node) (key : String) (dflt : α) (reads : String → α → Prop) (v : α) : Prop :=
  (Lacks n key ∧ v = dflt) ∨ ∃ x, First n key x ∧ reads x.value v

/-- Names of replacement policies. -/
def PolicyNamed (x : String) (k : Option Cs.PolicyKind) : Prop := (x = "lru" ∧ k = some .lru) ∨ (x = "priority_fifo" ∧ k = some .pfifo)

/-- Names of policies for unsolicited Data. -/
def UnsolicitedNamed (x : String) (k : Fw.Unsolicited) : Prop :=
  (x = "drop-all" ∧ k = .dropAll) ∨ (x = "admit-local" ∧ k = .admitLocal) ∨ (x = "admit-network" ∧ k = .admitNetwork) ∨ (x = "admit-all" ∧ k = .admitAll)

/-- A number of type `size_t`. -/
def Size (e : Env Cert F) (x : String) (v : Nat) : Prop := e.num 18446744073709551615 x = some v

/-- Section `tables` chooses strategy `st` for prefix `p`. -/
def Chooses (e : Env Cert F) (n : Node) (p st : Name) : Prop :=
  ∃ x, First n "strategy_choice" x ∧ ∃ y ∈ x.kids, e.name y.1 = some p ∧ e.name y.2.value = some st

/-- The names under `network_region`, if there is such a subsection. -/
def RegionNames (e : Env Cert F) (x : Node) (n : Name) : Prop := ∃ y ∈ x.kids, e.name y.1 = some n

/-- Section `authorizations` grants module `m` to a command: some subsection lists the module under `privileges`, and its `certfile` is `any` or a
certificate whose owner made this well-formed, fresh, correctly signed command. -/
def Authorizes (e : Env Cert F) (n : Node) (m : String) (c : Auth.Cmd Cert) : Prop :=
  ∃ x ∈ n.kids, (∃ p, First x.2 "privileges" p ∧ ∃ y ∈ p.kids, y.1 = m) ∧
    ∃ f, First x.2 "certfile" f ∧ (f.value = "any" ∨
      ∃ cert, f.value ≠ "any" ∧ e.load f.value = some cert ∧ c.formed = true ∧ c.fresh = true ∧ c.signedBy cert = true)

/-- The forwarder has been running for some time: its Content Store and its tables have arbitrary histories. -/
structure Running (e : Env Cert F) (d : Name) (s : St Cert F) : Prop where
  cs : ∃ n ops, (∀ op ∈ ops, Cs.OpWF op) ∧ (Cs.init n).run ops = some s.cs
  tb : Tb.Reachable e.tb d s.tb

/-- Section `tables` is well formed, as far as can be told without applying it. -/
structure TablesWellFormed (e : Env Cert F) (n : Node) : Prop where
  limit : ∃ v, Says n "cs_max_packets" 65536 (Size e) v
  policy : ∃ v, Says n "cs_policy" none PolicyNamed v
  unsolicited : ∃ v, Says n "cs_unsolicited_policy" .dropAll UnsolicitedNamed v
  names : ∀ x, First n "strategy_choice" x → ∀ y ∈ x.kids, ∃ p st, e.name y.1 = some p ∧ e.name y.2.value = some st ∧
    e.tb.create st ≠ .notRegistered
  once : ∀ x, First n "strategy_choice" x → x.kids.Pairwise (fun a b => e.name a.1 ≠ e.name b.1)

/-- The rest of what section `tables` needs: prefixes are not too deep, strategies accept their parameters, region names can be
read. -/
structure TablesApplicable (e : Env Cert F) (n : Node) : Prop where
  depth : ∀ p st, Chooses e n p st → p.length ≤ 32
  create : ∀ p st, Chooses e n p st → e.tb.create st ≠ .exception
  regions : ∀ x, First n "network_region" x → ∀ y ∈ x.kids, (e.name y.1).isSome

/-- What a successful application of section `tables` does. -/
structure TablesDone (e : Env Cert F) (n : Node) (s s' : St Cert F) : Prop where
  limit : Says n "cs_max_packets" 65536 (Size e) s'.cs.limit
  size : s'.cs.table.length ≤ s'.cs.limit
  kept : (∀ x ∈ s'.cs.table, x ∈ s.cs.table) ∧ (s.cs.table.length ≤ s'.cs.limit → s'.cs.table = s.cs.table)
  policy : ∃ p, Says n "cs_policy" none PolicyNamed p ∧
    s'.cs.kind = match p with | some k => if s'.cs.table = [] then k else s.cs.kind | none => s.cs.kind
  flags : s'.cs.admit = s.cs.admit ∧ s'.cs.serve = s.cs.serve
  unsolicited : Says n "cs_unsolicited_policy" .dropAll UnsolicitedNamed s'.fw.unsolicited
  chosen : ∀ p st, Chooses e n p st → ∃ inst, e.tb.create st = .ok inst ∧ Tb.scAt e.tb s'.tb p = some inst
  unchosen : ∀ p, (∀ st, ¬ Chooses e n p st) → Tb.scAt e.tb s'.tb p = Tb.scAt e.tb s.tb p
  regions : (Lacks n "network_region" → s'.fw.regions = s.fw.regions) ∧
    ∀ x, First n "network_region" x → ∀ r, r ∈ s'.fw.regions ↔ RegionNames e x r
  configured : s'.configured = true

/-- What section `tables` leaves alone in any case. -/
structure TablesFrame (s s' : St Cert F) : Prop where
  auth : s'.auth = s.auth
  priv : s'.priv = s.priv
  face : s'.face = s.face
  hop : s'.fw.defaultHopLimit = s.fw.defaultHopLimit

/-- The default hop limit that section `forwarder` asks for: the last value given, or none (0). -/
def HopLimit (e : Env Cert F) (n : Node) (h : Nat) : Prop :=
  (n.kids = [] ∧ h = 0) ∨ ∃ a x, n.kids = a ++ [x] ∧ e.num 255 x.2.value = some h

/-- Mistakes that can be seen without applying the file: a section that does not exist; a section `tables` that is not well formed; a section
`forwarder` with an option that does not exist or a value that is no number up to 255. -/
def Mistake (e : Env Cert F) (x : String × Node) : Prop :=
  x.1 ∉ ["general", "forwarder", "tables", "authorizations", "face_system", "rib", "log"] ∨ (x.1 = "tables" ∧ ¬ TablesWellFormed e x.2) ∨
  (x.1 = "forwarder" ∧ ∃ y ∈ x.2.kids, y.1 ≠ "default_hop_limit" ∨ e.num 255 y.2.value = none)

end Verif.Cf
