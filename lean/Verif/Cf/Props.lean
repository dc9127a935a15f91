import Verif.Cf.File
import Verif.Tables.Example

/-! C95: a dry run of a configuration file; C96: what a file does; C97: errors in a file. -/
namespace Verif.Cf

variable {Cert F : Type} {e : Env Cert F} {d : Name} {s s' : St Cert F}

/-! ### Examples -/

/-- The few names and numbers that occur in the examples. -/
def exName (x : String) : Option Name :=
  if x = "/" then some [] else if x = "a" then some [Tb.gc 1] else if x = "b" then some [Tb.gc 1, Tb.gc 2]
  else if x = "s1" then some Tb.st1 else if x = "s2" then some Tb.st2 else if x = "s3" then some [Tb.gc 200, Tb.gc 3] else none

def exNum (max : Nat) (x : String) : Option Nat :=
  if x = "0" then some 0 else if x = "2" then some 2 else if x = "7" then some 7 else if x = "300" ∧ 300 ≤ max then some 300 else none

/-- The face system counts how often it is configured. -/
def exE : Env Nat Nat :=
  { tb := Tb.exEnv, num := exNum, name := exName, load := fun x => if x = "cert" then some 5 else none,
    user := fun x => if x = "ndn" then .found 100 10 else .missing, group := fun _ => .missing, userSize := 16, groupSize := 16,
    faceSystem := fun _ dry f => (if dry then f else f + 1, true) }

/-- A forwarder that has just started, with one module declared. -/
def exSt : Option (St Nat Nat) :=
  (Tb.init Tb.exEnv Tb.st1).map (fun t =>
    { cs := Cs.init 10, tb := t, fw := {}, auth := fun m => if m = "fib" then some none else none, priv := Priv.start 0 0 [], face := 0,
      configured := false })

theorem exSt_running {s : St Nat Nat} (h : exSt = some s) : Running exE Tb.st1 s := by
  unfold exSt at h
  rw [Option.map_eq_some_iff] at h
  obtain ⟨t, h1, rfl⟩ := h
  exact ⟨⟨10, [], by simp, rfl⟩, ⟨t, [], h1, rfl⟩⟩

def leaf (v : String) : Node := .mk v []

/-- A file. -/
def exFile : List (String × Node) :=
  [("general", .mk "" [("user", leaf "ndn")]),
   ("forwarder", .mk "" [("default_hop_limit", leaf "7")]),
   ("tables", .mk "" [("cs_max_packets", leaf "2"), ("cs_policy", leaf "priority_fifo"), ("cs_unsolicited_policy", leaf "admit-local"),
      ("strategy_choice", .mk "" [("b", leaf "s1"), ("a", leaf "s2")]), ("network_region", .mk "" [("a", leaf "")])]),
   ("log", leaf ""),
   ("authorizations", .mk "" [("authorize", .mk "" [("certfile", leaf "any"), ("privileges", .mk "" [("fib", leaf "")])])]),
   ("face_system", leaf "")]

/-- A file that passes the dry run but cannot be applied: strategy `s3` rejects its parameters. -/
def exBad : List (String × Node) :=
  [("forwarder", .mk "" [("default_hop_limit", leaf "7")]),
   ("tables", .mk "" [("cs_max_packets", leaf "2"), ("strategy_choice", .mk "" [("b", leaf "s3"), ("a", leaf "s2")])])]

/-- Whether a run ends in this way. -/
def ends {α : Type} (r : Option (α × Bool)) (ok : Bool) (p : α → Bool) : Bool :=
  match r with
  | some (s, b) => b == ok && p s
  | none => false

theorem ends_ex {α : Type} {r : Option (α × Bool)} {ok : Bool} {p : α → Bool} (h : ends r ok p = true) : ∃ s, r = some (s, ok) ∧ p s = true := by
  unfold ends at h
  split at h
  · simp only [Bool.and_eq_true, beq_iff_eq] at h
    obtain ⟨rfl, h⟩ := h
    exact ⟨_, rfl, h⟩
  · cases h

/-! ### C95 -/

/-- C95 (part). A dry run of any file, whether it ends with an error or not, changes nothing in the Content Store, the tables, the
settings of the forwarder, the authorizations. Only a section `general` can change anything: the identity to be assumed later; and
only a section `face_system` the face system. Missing: that these two do not change anything either (see `C95_identity`). -/
theorem C95_dry_run_partial (e : Env Cert F) (file : List (String × Node)) (s : St Cert F) :
    ∃ s' ok, process e file true s = some (s', ok) ∧ s'.cs = s.cs ∧ s'.tb = s.tb ∧ s'.fw = s.fw ∧ s'.auth = s.auth ∧ s'.configured = s.configured ∧
      s'.priv.euid = s.priv.euid ∧ s'.priv.egid = s.priv.egid ∧
      ((∀ x ∈ file, x.1 ≠ "general") → s'.priv = s.priv) ∧ ((∀ x ∈ file, x.1 ≠ "face_system") → s'.face = s.face) := by
  induction file generalizing s with
  | nil => exact ⟨s, true, rfl, rfl, rfl, rfl, rfl, rfl, rfl, rfl, fun _ => rfl, fun _ => rfl⟩
  | cons x l ih =>
    obtain ⟨s1, ok, a0, a1, a2, a3, a4, a5, a6, a7, a8, a9, -⟩ := section1_dry e x.1 x.2 s
    cases ok with
    | false =>
      exact ⟨s1, false, by simp only [process, a0], a1, a2, a3, a4, a5, a8, a9, fun h => a6 (h x (by simp)), fun h => a7 (h x (by simp))⟩
    | true =>
      obtain ⟨s2, ok, b0, b1, b2, b3, b4, b5, b6, b7, b8, b9⟩ := ih s1
      refine ⟨s2, ok, by simp only [process, a0]; exact b0, b1.trans a1, b2.trans a2, b3.trans a3, b4.trans a4, b5.trans a5, b6.trans a8, b7.trans a9, ?_, ?_⟩
      · intro h; rw [b8 (fun y hy => h y (by simp [hy])), a6 (h x (by simp))]
      · intro h; rw [b9 (fun y hy => h y (by simp [hy])), a7 (h x (by simp))]

/-- C95. A dry run does change the identity to be assumed later. -/
theorem C95_identity : ∃ s s', exSt = some s ∧ process exE exFile true s = some (s', true) ∧ s.priv.normalUid = 0 ∧ s'.priv.normalUid = 100 := by
  cases h : exSt with
  | none => exact absurd h (by decide +kernel)
  | some s =>
    obtain ⟨x, h1, h2⟩ := ends_ex (r := exSt.bind fun s => (process exE exFile true s).map (fun r => ((s, r.1), r.2))) (ok := true)
      (p := fun x => x.1.priv.normalUid == 0 && x.2.priv.normalUid == 100) (by decide +kernel)
    rw [h, Option.bind_some, Option.map_eq_some_iff] at h1
    obtain ⟨⟨r1, r2⟩, h3, h4⟩ := h1
    simp only [Prod.mk.injEq] at h4
    obtain ⟨rfl, rfl⟩ := h4
    simp only [Bool.and_eq_true, beq_iff_eq] at h2
    exact ⟨s, r1, rfl, h3, h2.1, h2.2⟩

/-! ### C96 -/

/-- C96. Whatever the history of the forwarder, processing a file never makes an assertion fail, and the forwarder can go on
afterwards. -/
theorem C96_safe (hr : Running e d s) (file : List (String × Node)) : ∃ s' ok, process e file false s = some (s', ok) ∧ Running e d s' := by
  obtain ⟨s', ok, h1, h2, -⟩ := process_frame (e := e) (d := d) file hr
  exact ⟨s', ok, h1, h2⟩

/-- C96. After a file with (one) section `tables` has been processed successfully, whatever the history: the capacity of the
Content Store is the one given or 65536; it holds no more packets than that, and all it held before if they fit; its replacement policy
is the one given if it is empty now, otherwise the one it had; the policy for unsolicited Data is the one given or drop-all; each
prefix listed under `strategy_choice` has its strategy, other prefixes have what they had; the producer regions are those listed
under `network_region`, if there is such a subsection. -/
theorem C96_tables (hr : Running e d s) {file : List (String × Node)} (hn : file.Pairwise (fun a b => a.1 ≠ b.1))
    (hok : process e file false s = some (s', true)) {n : Node} (hx : ("tables", n) ∈ file) : TablesDone e n s s' := by
  obtain ⟨a, b, s1, s2, h1, h2, h3, h4, h5, h6, h7⟩ := process_split hr hn hok hx
  obtain ⟨t1, ok1, c1, -, c2, -⟩ := process_frame (e := e) (d := d) a hr
  rw [h3] at c1; cases c1
  obtain ⟨t2, ok2, d1, -, d2, -⟩ := process_frame (e := e) (d := d) b h6
  rw [h7] at d1; cases d1
  obtain ⟨t3, ok3, e1, -, -, -, -, -, e2⟩ := tables_real h4 n
  have h5 : tablesSection e n false s1 = some (s2, true) := h5
  rw [h5] at e1; cases e1
  exact (e2 rfl).congr (c2 h1).symm (d2 h2)

/-- C96. A section `forwarder` sets the default hop limit to the value given (the last one if there are several), or to 0. -/
theorem C96_forwarder (hr : Running e d s) {file : List (String × Node)} (hn : file.Pairwise (fun a b => a.1 ≠ b.1))
    (hok : process e file false s = some (s', true)) {n : Node} (hx : ("forwarder", n) ∈ file) : HopLimit e n s'.fw.defaultHopLimit := by
  obtain ⟨a, b, s1, s2, h1, h2, h3, h4, h5, h6, h7⟩ := process_split hr hn hok hx
  obtain ⟨t2, ok2, d1, -, -, d2, -⟩ := process_frame (e := e) (d := d) b h6
  rw [h7] at d1; cases d1
  rw [d2 h2]
  have h5 : some (forwarderSection e n false s1) = some (s2, true) := h5
  simp only [Option.some.injEq, forwarderSection] at h5
  cases hh : readHopLimit e n.kids 0 with
  | none => rw [hh] at h5; cases h5
  | some h =>
    rw [hh] at h5
    cases h5
    exact readHopLimit_spec e n.kids 0 h hh

/-- C96. After a file with (one) section `authorizations` has been processed successfully, a command for a declared module is accepted
if and only if this section grants it. -/
theorem C96_authorizations (hr : Running e d s) {file : List (String × Node)} (hn : file.Pairwise (fun a b => a.1 ≠ b.1))
    (hok : process e file false s = some (s', true)) {n : Node} (hx : ("authorizations", n) ∈ file) (m : Auth.Mod) (hm : Auth.Declared s.auth m)
    (c : Auth.Cmd Cert) : Auth.authorize s'.auth m c = some .accepted ↔ Authorizes e n m c := by
  rw [← authorizes_iff]
  obtain ⟨a, b, s1, s2, h1, h2, h3, h4, h5, h6, h7⟩ := process_split hr hn hok hx
  obtain ⟨t1, ok1, c1, -, -, -, c2, -⟩ := process_frame (e := e) (d := d) a hr
  rw [h3] at c1; cases c1
  obtain ⟨t2, ok2, d1, -, -, -, d2, -⟩ := process_frame (e := e) (d := d) b h6
  rw [h7] at d1; cases d1
  rw [d2 h2]
  have h5 : some (authSection e n false s1) = some (s2, true) := h5
  simp only [Option.some.injEq, authSection, Prod.mk.injEq] at h5
  obtain ⟨rfl, h8⟩ := h5
  exact Auth.C63_accepts e.load s1.auth _ h8 m (by rw [c2 h1]; exact hm) c

/-- C96. After a file with (one) section `general` has been processed successfully, the identity to be assumed is that of the user and the group given (the
last ones if there are several), which exist; what is not given stays. The current identity of the process does not change. -/
theorem C96_general (hr : Running e d s) {file : List (String × Node)} (hn : file.Pairwise (fun a b => a.1 ≠ b.1))
    (hok : process e file false s = some (s', true)) {n : Node} (hx : ("general", n) ∈ file) :
    (∀ u, LastValue n "user" u → ∃ id need, e.user u = .found id need ∧ s'.priv.normalUid = id) ∧ (Lacks n "user" → s'.priv.normalUid = s.priv.normalUid) ∧
    (∀ g, LastValue n "group" g → ∃ id need, e.group g = .found id need ∧ s'.priv.normalGid = id) ∧ (Lacks n "group" → s'.priv.normalGid = s.priv.normalGid) ∧
    s'.priv.euid = s.priv.euid ∧ s'.priv.egid = s.priv.egid := by
  obtain ⟨a, b, s1, s2, h1, h2, h3, h4, h5, h6, h7⟩ := process_split hr hn hok hx
  obtain ⟨t1, ok1, c1, -, -, -, -, c2, -⟩ := process_frame (e := e) (d := d) a hr
  rw [h3] at c1; cases c1
  obtain ⟨t2, ok2, d1, -, -, -, -, d2, -⟩ := process_frame (e := e) (d := d) b h6
  rw [h7] at d1; cases d1
  rw [d2 h2, ← c2 h1]
  have h5 : some (generalSection e n s1) = some (s2, true) := h5
  rw [Option.some.injEq] at h5
  obtain ⟨g1, g2, -⟩ := general_priv e n s1
  rw [h5] at g1 g2
  suffices hh : (∀ u, LastValue n "user" u → ∃ id need, e.user u = .found id need ∧ s2.priv.normalUid = id) ∧ (Lacks n "user" → s2.priv.normalUid = s1.priv.normalUid) ∧
    (∀ g, LastValue n "group" g → ∃ id need, e.group g = .found id need ∧ s2.priv.normalGid = id) ∧ (Lacks n "group" → s2.priv.normalGid = s1.priv.normalGid) from
    ⟨hh.1, hh.2.1, hh.2.2.1, hh.2.2.2, g1, g2⟩
  unfold generalSection at h5
  cases hi : readIdentity n.kids "" "" with
  | none => rw [hi] at h5; cases h5
  | some ug =>
    obtain ⟨u, g⟩ := ug
    rw [hi] at h5
    dsimp only at h5
    simp only [Prod.mk.injEq, beq_iff_eq] at h5
    obtain ⟨rfl, h8⟩ := h5
    obtain ⟨iu, ig⟩ := readIdentity_spec _ _ _ _ _ hi
    -- what the last child with a key is
    have uniq : ∀ key v v', LastValue n key v → LastValue n key v' → v = v' := by
      rintro key v v' ⟨b1, x1, a1, e1, f1, rfl⟩ ⟨b2, x2, a2, e2, f2, rfl⟩
      rw [e1] at e2
      rcases List.append_eq_append_iff.1 e2 with ⟨l, r1, r2⟩ | ⟨l, r1, r2⟩
      · cases l with
        | nil => simp only [List.nil_append, List.cons.injEq, Prod.mk.injEq] at r2; rw [r2.1.2]
        | cons z l =>
          simp only [List.cons_append, List.cons.injEq] at r2
          exact absurd rfl (f1 (key, x2) (by rw [r2.2]; simp))
      · cases l with
        | nil => simp only [List.nil_append, List.cons.injEq, Prod.mk.injEq] at r2; rw [r2.1.2]
        | cons z l =>
          simp only [List.cons_append, List.cons.injEq] at r2
          exact absurd rfl (f2 (key, x1) (by rw [r2.2]; simp))
    have excl : ∀ key v, Lacks n key → LastValue n key v → False := by
      rintro key v hl ⟨b1, x1, a1, e1, _⟩
      exact hl (key, x1) (by rw [e1]; simp) rfl
    unfold Priv.init at h8 ⊢
    dsimp only at h8 ⊢
    -- the group
    rcases ig with ⟨ig, rfl⟩ | ⟨ig0, ig⟩
    · rw [if_pos rfl] at h8 ⊢
      dsimp only at h8 ⊢
      rcases iu with ⟨iu, rfl⟩ | ⟨iu0, iu⟩
      · rw [if_pos rfl] at h8 ⊢
        dsimp only at h8 ⊢
        exact ⟨fun v hv => (excl _ _ iu hv).elim, fun _ => rfl, fun v hv => (excl _ _ ig hv).elim, fun _ => rfl⟩
      · rw [if_neg iu0] at h8 ⊢
        dsimp only at h8 ⊢
        cases hl : Priv.lookup (e.user u) Priv.maxBuffer e.userSize with
        | none => rw [hl] at h8; cases h8
        | some id =>
          dsimp only
          obtain ⟨need, hf⟩ := lookup_found hl
          exact ⟨fun v hv => ⟨id, need, by rw [uniq _ _ _ hv iu]; exact hf, rfl⟩, fun hh => (excl _ _ hh iu).elim, fun v hv => (excl _ _ ig hv).elim, fun _ => rfl⟩
    · rw [if_neg ig0] at h8 ⊢
      dsimp only at h8 ⊢
      cases hlg : Priv.lookup (e.group g) Priv.maxBuffer e.groupSize with
      | none => rw [hlg] at h8; cases h8
      | some gid =>
        obtain ⟨gneed, hgf⟩ := lookup_found hlg
        rw [hlg] at h8
        dsimp only at h8 ⊢
        rcases iu with ⟨iu, rfl⟩ | ⟨iu0, iu⟩
        · rw [if_pos rfl] at h8 ⊢
          dsimp only at h8 ⊢
          exact ⟨fun v hv => (excl _ _ iu hv).elim, fun _ => rfl, fun v hv => ⟨gid, gneed, by rw [uniq _ _ _ hv ig]; exact hgf, rfl⟩, fun hh => (excl _ _ hh ig).elim⟩
        · rw [if_neg iu0] at h8 ⊢
          dsimp only at h8 ⊢
          cases hl : Priv.lookup (e.user u) Priv.maxBuffer e.userSize with
          | none => rw [hl] at h8; cases h8
          | some id =>
            dsimp only
            obtain ⟨need, hf⟩ := lookup_found hl
            exact ⟨fun v hv => ⟨id, need, by rw [uniq _ _ _ hv iu]; exact hf, rfl⟩, fun hh => (excl _ _ hh iu).elim,
              fun v hv => ⟨gid, gneed, by rw [uniq _ _ _ hv ig]; exact hgf, rfl⟩, fun hh => (excl _ _ hh ig).elim⟩

/-- C96. What a file does not mention stays as it is, whether the file is processed successfully or not: without a section `tables`
the Content Store, the tables, the unsolicited Data policy and the producer regions; without `forwarder` the default hop limit;
without `authorizations` the authorizations granted earlier; without `general` the identity; without `face_system` the faces. -/
theorem C96_absent (hr : Running e d s) {file : List (String × Node)} {ok : Bool} (h : process e file false s = some (s', ok)) :
    ((∀ x ∈ file, x.1 ≠ "tables") → s'.cs = s.cs ∧ s'.tb = s.tb ∧ s'.fw.unsolicited = s.fw.unsolicited ∧ s'.fw.regions = s.fw.regions) ∧
    ((∀ x ∈ file, x.1 ≠ "forwarder") → s'.fw.defaultHopLimit = s.fw.defaultHopLimit) ∧ ((∀ x ∈ file, x.1 ≠ "authorizations") → s'.auth = s.auth) ∧
    ((∀ x ∈ file, x.1 ≠ "general") → s'.priv = s.priv) ∧ ((∀ x ∈ file, x.1 ≠ "face_system") → s'.face = s.face) := by
  obtain ⟨t, ok, h1, -, h2, h3, h4, h5, h6⟩ := process_frame (e := e) (d := d) file hr
  rw [h] at h1; cases h1
  refine ⟨fun hh => ?_, h3, h4, h5, h6⟩
  obtain ⟨a, b, c, g, -⟩ := tab_ext (h2 hh)
  exact ⟨a, b, c, g⟩

/-- C96. Start-up: if the file has a section `tables` it is applied as in C96_tables; if not, the capacity of the Content Store is 65536 and unsolicited
Data are dropped. -/
theorem C96_start_up (hr : Running e d s) {file : List (String × Node)} (hn : file.Pairwise (fun a b => a.1 ≠ b.1))
    (hok : startUp e file s = some (s', true)) :
    Running e d s' ∧ (∀ n, ("tables", n) ∈ file → TablesDone e n s s') ∧
    ((∀ x ∈ file, x.1 ≠ "tables") → s'.cs.limit = 65536 ∧ s'.cs.table.length ≤ 65536 ∧ s'.cs.kind = s.cs.kind ∧ s'.fw.unsolicited = .dropAll ∧
      s'.tb = s.tb ∧ s'.fw.regions = s.fw.regions) := by
  unfold startUp at hok
  obtain ⟨s1, ok1, a0, a1, a2, a3, a4, a5, -⟩ := C95_dry_run_partial e file { s with configured := false }
  rw [a0] at hok
  cases ok1 with
  | false => cases hok
  | true =>
  dsimp only at hok
  have hr1 : Running e d s1 := ⟨by rw [a1]; exact hr.cs, by rw [a2]; exact hr.tb⟩
  obtain ⟨s2, ok2, b0, b1, b2, -⟩ := process_frame (e := e) (d := d) file hr1
  rw [b0] at hok
  cases ok2 with
  | false => cases hok
  | true =>
  dsimp only at hok
  by_cases hc : s2.configured = true
  · unfold ensureConfigured at hok
    rw [if_pos hc] at hok
    cases hok
    refine ⟨b1, ?_, ?_⟩
    · intro n hx
      have := C96_tables hr1 hn b0 hx
      refine ⟨this.limit, this.size, ?_, ?_, ?_, this.unsolicited, this.chosen, ?_, ?_, this.configured⟩
      · rw [← show s1.cs = s.cs from a1]; exact this.kept
      · rw [← show s1.cs = s.cs from a1]; exact this.policy
      · rw [← show s1.cs = s.cs from a1]; exact this.flags
      · rw [← show s1.tb = s.tb from a2]; exact this.unchosen
      · rw [← show s1.fw = s.fw from a3]; exact this.regions
    · intro h
      have := (tab_ext (b2 h)).2.2.2.2
      rw [hc, a5] at this
      cases this
  · have hc2 : s2.configured = false := by simpa using hc
    obtain ⟨c1, c2, f1, f2, f3, f4, f5, f6, f7, f8, f9, f10⟩ := cs_config b1.cs defaultCsMaxPackets none
    unfold ensureConfigured at hok
    rw [if_neg hc, f1] at hok
    cases hok
    cases f2
    refine ⟨⟨f3, b1.tb⟩, ?_, ?_⟩
    · intro n hx
      have := (C96_tables hr1 hn b0 hx).configured
      rw [hc2] at this; cases this
    · intro h
      obtain ⟨g1, g2, g3, g4, -⟩ := tab_ext (b2 h)
      refine ⟨f4, f5, ?_, rfl, ?_, ?_⟩
      · show c1.kind = _
        rw [f10]; dsimp only; rw [g1, a1]
      · show s2.tb = _
        rw [g2, a2]
      · show s2.fw.regions = _
        rw [g4, a3]

/-- C96. When the forwarder is told to read the file again, whatever its history: it goes on; a section `tables` is applied as in C96_tables; without one the
Content Store, the tables, the policy for unsolicited Data and the producer regions stay, the defaults are not restored; the other sections act as in
`C96_forwarder`, `C96_authorizations` and `C96_general`; authorizations and identity stay if their sections are missing. -/
theorem C96_reload (hr : Running e d s) (file : List (String × Node)) : ∃ s' ok, reload e file s = some (s', ok) ∧ Running e d s' ∧
    ((∀ x ∈ file, x.1 ≠ "tables") → s'.cs = s.cs ∧ s'.tb = s.tb ∧ s'.fw.unsolicited = s.fw.unsolicited ∧ s'.fw.regions = s.fw.regions) ∧
    ((∀ x ∈ file, x.1 ≠ "forwarder") → s'.fw.defaultHopLimit = s.fw.defaultHopLimit) ∧ ((∀ x ∈ file, x.1 ≠ "authorizations") → s'.auth = s.auth) ∧
    ((∀ x ∈ file, x.1 ≠ "general") → s'.priv = s.priv) ∧ ((∀ x ∈ file, x.1 ≠ "face_system") → s'.face = s.face) ∧
    (ok = true → file.Pairwise (fun a b => a.1 ≠ b.1) →
      (∀ n, ("tables", n) ∈ file → TablesDone e n s s') ∧ (∀ n, ("forwarder", n) ∈ file → HopLimit e n s'.fw.defaultHopLimit) ∧
      (∀ n, ("authorizations", n) ∈ file → ∀ m, Auth.Declared s.auth m → ∀ c, Auth.authorize s'.auth m c = some .accepted ↔ Authorizes e n m c) ∧
      (∀ n u, ("general", n) ∈ file → LastValue n "user" u → ∃ id need, e.user u = .found id need ∧ s'.priv.normalUid = id)) := by
  have hr0 : Running e d ({ s with configured := false } : St Cert F) := ⟨hr.cs, hr.tb⟩
  obtain ⟨s', ok, h1, h2⟩ := C96_safe hr0 file
  obtain ⟨a1, a2, a3, a4, a5⟩ := C96_absent hr0 h1
  refine ⟨s', ok, h1, h2, a1, a2, a3, a4, a5, ?_⟩
  rintro rfl hn
  refine ⟨fun n hx => ?_, fun n hx => C96_forwarder hr0 hn h1 hx, fun n hx m hm c => C96_authorizations hr0 hn h1 hx m hm c,
    fun n u hx hu => (C96_general hr0 hn h1 hx).1 u hu⟩
  have := C96_tables hr0 hn h1 hx
  exact ⟨this.limit, this.size, this.kept, this.policy, this.flags, this.unsolicited, this.chosen, this.unchosen, this.regions, this.configured⟩

/-- A file is read again successfully. -/
example : (exSt.bind (fun s => reload exE exFile s)).any (fun r => r.2 && r.1.cs.limit == 2) = true := by decide +kernel

theorem reloadFaces_absent (e : Env Cert F) : ∀ (file : List (String × Node)) (s : St Cert F), (∀ x ∈ file, x.1 ≠ "face_system") →
    reloadFaces e file s = (s, true) := by
  intro file
  induction file with
  | nil => intro s _; rfl
  | cons x l ih =>
    intro s h
    simp only [reloadFaces]
    rw [if_neg (h x (by simp))]
    exact ih s (fun y hy => h y (by simp [hy]))

/-- C96. When interfaces change, only the section `face_system` of the file is read again: it is applied to the face system, and nothing else changes,
whatever the rest of the file. -/
theorem C96_faces_only (e : Env Cert F) (file : List (String × Node)) (s : St Cert F) (hn : file.Pairwise (fun a b => a.1 ≠ b.1)) :
    ((∀ x ∈ file, x.1 ≠ "face_system") → reloadFaces e file s = (s, true)) ∧
    ∀ n, ("face_system", n) ∈ file → reloadFaces e file s = ({ s with face := (e.faceSystem n false s.face).1 }, (e.faceSystem n false s.face).2) := by
  refine ⟨reloadFaces_absent e file s, ?_⟩
  intro n hm
  induction file with
  | nil => cases hm
  | cons x l ih =>
    rw [List.pairwise_cons] at hn
    simp only [reloadFaces]
    by_cases hx : x.1 = "face_system"
    · rw [if_pos hx]
      have hl : ∀ y ∈ l, y.1 ≠ "face_system" := fun y hy h => hn.1 y hy (hx.trans h.symm)
      have : x.2 = n := by
        rcases List.mem_cons.1 hm with h | h
        · rw [← h]
        · exact absurd rfl (hl _ h)
      rw [this]
      simp only [faceSection]
      rw [reloadFaces_absent e l _ hl]
      by_cases hk : (e.faceSystem n false s.face).2 = true
      · exact (if_pos hk).trans (by rw [hk])
      · exact if_neg hk
    · rw [if_neg hx]
      refine ih hn.2 ?_
      rcases List.mem_cons.1 hm with h | h
      · rw [← h] at hx; exact absurd rfl hx
      · exact h

/-- The hypotheses of the theorems above are met, and the effects are those expected. -/
example : ∃ s s', exSt = some s ∧ Running exE Tb.st1 s ∧ exFile.Pairwise (fun a b => a.1 ≠ b.1) ∧ startUp exE exFile s = some (s', true) ∧
    s'.cs.limit = 2 ∧ s'.cs.kind = .pfifo ∧ s'.fw.unsolicited = .admitLocal ∧ s'.fw.defaultHopLimit = 7 ∧ s'.fw.regions = [[Tb.gc 1]] ∧
    s'.face = 1 ∧ Tb.scAt Tb.exEnv s'.tb [Tb.gc 1] = some Tb.st2 ∧ Tb.scAt Tb.exEnv s'.tb [Tb.gc 1, Tb.gc 2] = some Tb.st1 := by
  cases h : exSt with
  | none => exact absurd h (by decide +kernel)
  | some s =>
    obtain ⟨x, h1, h2⟩ := ends_ex (r := exSt.bind fun s => startUp exE exFile s) (ok := true)
      (p := fun s' => s'.cs.limit == 2 && s'.cs.kind == .pfifo && s'.fw.unsolicited == .admitLocal && s'.fw.defaultHopLimit == 7 &&
        s'.fw.regions == [[Tb.gc 1]] && s'.face == 1 && Tb.scAt Tb.exEnv s'.tb [Tb.gc 1] == some Tb.st2 &&
        Tb.scAt Tb.exEnv s'.tb [Tb.gc 1, Tb.gc 2] == some Tb.st1) (by decide +kernel)
    rw [h, Option.bind_some] at h1
    simp only [Bool.and_eq_true, beq_iff_eq] at h2
    obtain ⟨⟨⟨⟨⟨⟨⟨a, b⟩, c⟩, d⟩, e⟩, f⟩, g⟩, i⟩ := h2
    exact ⟨s, x, rfl, exSt_running h, by decide +kernel, h1, a, b, c, d, e, f, g, i⟩

/-- The same for a file without any section: at start-up the defaults are set. -/
example : ∃ s s', exSt = some s ∧ Running exE Tb.st1 s ∧ startUp exE [] s = some (s', true) ∧ s.cs.limit = 10 ∧ s'.cs.limit = 65536 := by
  cases h : exSt with
  | none => exact absurd h (by decide +kernel)
  | some s =>
    obtain ⟨x, h1, h2⟩ := ends_ex (r := exSt.bind fun s => (startUp exE [] s).map (fun r => ((s, r.1), r.2))) (ok := true)
      (p := fun x => x.1.cs.limit == 10 && x.2.cs.limit == 65536) (by decide +kernel)
    rw [h, Option.bind_some, Option.map_eq_some_iff] at h1
    obtain ⟨⟨r1, r2⟩, h3, h4⟩ := h1
    simp only [Prod.mk.injEq] at h4
    obtain ⟨rfl, rfl⟩ := h4
    simp only [Bool.and_eq_true, beq_iff_eq] at h2
    exact ⟨s, r1, rfl, exSt_running h, h3, h2.1, h2.2⟩

/-! ### C97 -/

/-- C97. Sections are processed in the order of the file, up to the first that fails: this one is the last to have any effect. -/
theorem C97_first_error (hr : Running e d s) {file : List (String × Node)} (h : process e file false s = some (s', false)) :
    ∃ a x b s1, file = a ++ x :: b ∧ process e a false s = some (s1, true) ∧ Running e d s1 ∧ section1 e x.1 x.2 false s1 = some (s', false) := by
  induction file generalizing s with
  | nil => simp [process] at h
  | cons x l ih =>
    obtain ⟨s1, ok, a1, a2, -⟩ := section1_frame hr x.1 x.2
    simp only [process, a1] at h
    cases ok with
    | false => cases h; exact ⟨[], x, l, s, rfl, rfl, hr, a1⟩
    | true =>
      obtain ⟨a, y, b, s2, rfl, h2, h3, h4⟩ := ih a2 h
      exact ⟨x :: a, y, b, s2, rfl, by simp only [process, a1]; exact h2, h3, h4⟩

/-- C97. A section `tables` that fails leaves the Content Store and the policy for unsolicited Data as they were; if the mistake
can be told without applying it, it leaves everything as it was. It fails exactly if it is not well formed or not applicable. -/
theorem C97_tables (hr : Running e d s) {n : Node} {ok : Bool} (h : section1 e "tables" n false s = some (s', ok)) :
    (ok = true ↔ TablesWellFormed e n ∧ TablesApplicable e n) ∧ (ok = false → s'.cs = s.cs ∧ s'.fw.unsolicited = s.fw.unsolicited) ∧
    (¬ TablesWellFormed e n → s' = s) := by
  obtain ⟨t, ok', a1, -, -, a2, a3, a4, -⟩ := tables_real hr n
  have h : tablesSection e n false s = some (s', ok) := h
  rw [h] at a1; cases a1
  exact ⟨a2, fun hk => ⟨(a4 hk).1, (a4 hk).2.1⟩, a3⟩

theorem section1_check {s1 t : St Cert F} (hr : Running e d t) (hdec : ∀ m, Auth.Declared s.auth m ↔ Auth.Declared t.auth m) {name : String} {n : Node}
    (h : section1 e name n true s = some (s1, true)) (ht : name = "tables" → TablesApplicable e n)
    (hf : name = "face_system" → ∀ f, (e.faceSystem n false f).2 = true) :
    ∃ t1, section1 e name n false t = some (t1, true) ∧ Running e d t1 ∧ ∀ m, Auth.Declared s1.auth m ↔ Auth.Declared t1.auth m := by
  obtain ⟨t1, ok, a1, a2, -, -, a3, -⟩ := section1_frame hr name n
  obtain ⟨s1', ok', b1, -, -, -, b2, -⟩ := section1_dry e name n s
  rw [h] at b1; cases b1
  have hd : ∀ m, Auth.Declared s1.auth m ↔ Auth.Declared t1.auth m := by
    intro m
    rw [b2, hdec m]
    by_cases hn : name = "authorizations"
    · subst hn
      have a1 : some (authSection e n false t) = some (t1, ok) := a1
      simp only [Option.some.injEq, authSection, Prod.mk.injEq] at a1
      rw [← a1.1]
      have := Auth.step_declared e.load t.auth (.config (n.kids.map authSec) false) m
      simp only [reduceCtorEq, or_false] at this
      exact this.symm
    · rw [a3 hn]
  refine ⟨t1, ?_, a2, hd⟩
  rw [a1]
  suffices hk : ok = true by rw [hk]
  unfold section1 at h a1
  by_cases h1 : name = "general"
  · rw [if_pos h1] at h a1
    simp only [Option.some.injEq, generalSection] at h a1
    cases hi : readIdentity n.kids "" "" with
    | none => rw [hi] at h; cases h
    | some ug =>
      obtain ⟨u, g⟩ := ug
      rw [hi] at h a1
      simp only [Prod.mk.injEq] at h a1
      rw [← a1.2, ← h.2, privInit_ok t.priv s.priv]
  rw [if_neg h1] at h a1
  by_cases h2 : name = "forwarder"
  · rw [if_pos h2] at h a1
    simp only [Option.some.injEq, forwarderSection] at h a1
    cases hi : readHopLimit e n.kids 0 with
    | none => rw [hi] at h; cases h
    | some v => rw [hi] at a1; simp only [Prod.mk.injEq] at a1; exact a1.2.symm
  rw [if_neg h2] at h a1
  by_cases h3 : name = "tables"
  · rw [if_pos h3] at h a1
    obtain ⟨ok1, c1, c2⟩ := tables_dry e n s
    rw [h] at c1; cases c1
    obtain ⟨t', ok2, d1, -, -, d2, -⟩ := tables_real hr n
    rw [a1] at d1; cases d1
    exact d2.2 ⟨c2.1 rfl, ht h3⟩
  rw [if_neg h3] at h a1
  by_cases h4 : name = "authorizations"
  · rw [if_pos h4] at h a1
    simp only [Option.some.injEq, authSection, Prod.mk.injEq] at h a1
    rw [← a1.2]
    have := h.2
    rw [Auth.C63_acceptable] at this ⊢
    have hfun : Auth.Declared t.auth = Auth.Declared s.auth := funext fun m => propext (hdec m).symm
    rw [hfun]; exact this
  rw [if_neg h4] at h a1
  by_cases h5 : name = "face_system"
  · rw [if_pos h5] at a1
    simp only [Option.some.injEq, faceSection, Prod.mk.injEq] at a1
    rw [← a1.2]; exact hf h5 t.face
  rw [if_neg h5] at h a1
  by_cases h6 : name = "rib" ∨ name = "log"
  · rw [if_pos h6] at a1; cases a1; rfl
  · rw [if_neg h6] at h; cases h

theorem process_check (file : List (String × Node)) : ∀ {s s1 t : St Cert F}, Running e d t → (∀ m, Auth.Declared s.auth m ↔ Auth.Declared t.auth m) →
    process e file true s = some (s1, true) → (∀ n, ("tables", n) ∈ file → TablesApplicable e n) →
    (∀ n, ("face_system", n) ∈ file → ∀ f, (e.faceSystem n false f).2 = true) →
    ∃ t1, process e file false t = some (t1, true) ∧ ∀ m, Auth.Declared s1.auth m ↔ Auth.Declared t1.auth m := by
  induction file with
  | nil => intro s s1 t _ hd h _ _; cases h; exact ⟨t, rfl, hd⟩
  | cons x l ih =>
    intro s s1 t hr hd h ht hf
    simp only [process] at h
    cases hs : section1 e x.1 x.2 true s with
    | none => rw [hs] at h; cases h
    | some r =>
      obtain ⟨s2, ok⟩ := r
      rw [hs] at h
      cases ok with
      | false => cases h
      | true =>
        obtain ⟨t1, c1, c2, c3⟩ := section1_check hr hd hs (fun hx => ht x.2 (by simp [← hx])) (fun hx => hf x.2 (by simp [← hx]))
        obtain ⟨t2, c4, c5⟩ := ih c2 c3 h (fun n hn => ht n (by simp [hn])) (fun n hn => hf n (by simp [hn]))
        exact ⟨t2, by simp only [process, c1]; exact c4, c5⟩

/-- C97 (part). A mistake in the file is found by the dry run that precedes the real one at start-up, when nothing has been changed yet:
if the dry run succeeds then so does the real one, provided that prefixes under `strategy_choice` are not too long, the strategies accept their
parameters and region names can be read, and that the face system can apply its section. Missing: that the dry run finds
mistakes of these kinds too (it does not: `C97_half_way`). -/
theorem C97_check_partial (hr : Running e d s) {file : List (String × Node)} (h : process e file true { s with configured := false } = some (s', true))
    (ht : ∀ n, ("tables", n) ∈ file → TablesApplicable e n) (hf : ∀ n, ("face_system", n) ∈ file → ∀ f, (e.faceSystem n false f).2 = true) :
    ∃ s2, startUp e file s = some (s2, true) ∧ Running e d s2 := by
  obtain ⟨s1, ok, a0, a1, a2, -, a4, -⟩ := C95_dry_run_partial e file { s with configured := false }
  rw [h] at a0; cases a0
  have hr1 : Running e d s' := ⟨by rw [a1]; exact hr.cs, by rw [a2]; exact hr.tb⟩
  obtain ⟨s2, h2, -⟩ := process_check file hr1 (fun m => by rw [a4]) h ht hf
  obtain ⟨s2', ok2, b0, b1, -⟩ := process_frame (e := e) (d := d) file hr1
  rw [h2] at b0; cases b0
  unfold startUp ensureConfigured
  rw [h]; dsimp only; rw [h2]; dsimp only
  by_cases hc : s2.configured = true
  · exact ⟨s2, by rw [if_pos hc]; rfl, b1⟩
  · obtain ⟨c1, c2, f1, f2, f3, -⟩ := cs_config b1.cs defaultCsMaxPackets none
    cases f2
    exact ⟨{ s2 with cs := c1, fw := { s2.fw with unsolicited := defaultUnsolicited }, configured := true }, by rw [if_neg hc, f1]; rfl, ⟨f3, b1.tb⟩⟩

theorem readHopLimit_none (e : Env Cert F) : ∀ (l : List (String × Node)) (h : Nat),
    (∃ y ∈ l, y.1 ≠ "default_hop_limit" ∨ e.num 255 y.2.value = none) → readHopLimit e l h = none := by
  intro l
  induction l with
  | nil => rintro h ⟨y, hy, _⟩; cases hy
  | cons x l ih =>
    rintro h ⟨y, hy, hm⟩
    rw [readHopLimit]
    by_cases hx : x.1 = "default_hop_limit"
    · rw [if_pos hx]
      cases hv : e.num 255 x.2.value with
      | none => rfl
      | some v =>
        rcases List.mem_cons.1 hy with rfl | hy
        · rcases hm with hm | hm
          · exact absurd hx hm
          · rw [hv] at hm; cases hm
        · exact ih v ⟨y, hy, hm⟩
    · rw [if_neg hx]

theorem mistake_fails {x : String × Node} (hm : Mistake e x) (s : St Cert F) : ∃ s', section1 e x.1 x.2 true s = some (s', false) := by
  rcases hm with hm | ⟨hm, hw⟩ | ⟨hm, hw⟩
  · simp only [List.mem_cons, List.not_mem_nil, or_false, not_or] at hm
    obtain ⟨h1, h2, h3, h4, h5, h6, h7⟩ := hm
    refine ⟨s, ?_⟩
    unfold section1
    rw [if_neg h1, if_neg h2, if_neg h3, if_neg h4, if_neg h5, if_neg (by rintro (h | h); exact h6 h; exact h7 h)]
  · rw [hm]
    obtain ⟨ok, a1, a2⟩ := tables_dry e x.2 s
    cases ok with
    | true => exact absurd (a2.1 rfl) hw
    | false => exact ⟨s, a1⟩
  · rw [hm]
    refine ⟨s, ?_⟩
    show some (forwarderSection e x.2 true s) = _
    unfold forwarderSection
    rw [readHopLimit_none e _ 0 hw]

/-- C97. A file with a mistake that can be seen, wherever it is, is refused at start-up: this ends with an error, and the Content Store, the tables, the
settings and the authorizations are as they were. -/
theorem C97_refused (e : Env Cert F) (s : St Cert F) {file : List (String × Node)} {x : String × Node} (hx : x ∈ file) (hm : Mistake e x) :
    ∃ s', startUp e file s = some (s', false) ∧ s'.cs = s.cs ∧ s'.tb = s.tb ∧ s'.fw = s.fw ∧ s'.auth = s.auth ∧
      s'.priv.euid = s.priv.euid ∧ s'.priv.egid = s.priv.egid := by
  obtain ⟨s1, h1⟩ := process_dry_fails e (mistake_fails hm) file { s with configured := false } hx
  obtain ⟨s2, ok, a0, a1, a2, a3, a4, a5, a6, a7, -⟩ := C95_dry_run_partial e file { s with configured := false }
  rw [h1] at a0; cases a0
  refine ⟨s1, ?_, a1, a2, a3, a4, a6, a7⟩
  unfold startUp
  rw [h1]

-- A file with an unknown section, and one with a bad hop limit.
example : Mistake exE ("tabels", leaf "") ∧ Mistake exE ("forwarder", .mk "" [("default_hop_limit", leaf "300")]) :=
  ⟨Or.inl (by decide), Or.inr (Or.inr ⟨rfl, ("default_hop_limit", leaf "300"), by simp [Node.kids], Or.inr (by decide +kernel)⟩)⟩

/-- C97. Start-up ends without error only if both the dry run and the real one do. -/
theorem C97_no_error_hidden (e : Env Cert F) (s : St Cert F) {file : List (String × Node)} :
    (startUp e file s = some (s', true) → ∃ s1 s2, process e file true { s with configured := false } = some (s1, true) ∧ process e file false s1 = some (s2, true)) := by
  intro h
  unfold startUp at h
  cases h1 : process e file true { s with configured := false } with
  | none => rw [h1] at h; cases h
  | some r =>
    obtain ⟨s1, ok⟩ := r
    rw [h1] at h
    cases ok with
    | false => cases h
    | true =>
      dsimp only at h
      cases h2 : process e file false s1 with
      | none => rw [h2] at h; cases h
      | some r =>
        obtain ⟨s2, ok⟩ := r
        rw [h2] at h
        cases ok with
        | false => cases h
        | true => exact ⟨s1, s2, rfl, h2⟩

/-- C97. A file that passes the dry run may yet fail half-way: the default hop limit and the strategy of one prefix have been changed, that of
the other and the capacity of the Content Store have not. -/
theorem C97_half_way : ∃ s s1 s', exSt = some s ∧ Running exE Tb.st1 s ∧ process exE exBad true { s with configured := false } = some (s1, true) ∧
    startUp exE exBad s = some (s', false) ∧ s'.fw.defaultHopLimit = 7 ∧ Tb.scAt Tb.exEnv s'.tb [Tb.gc 1] = some Tb.st2 ∧
    Tb.scAt Tb.exEnv s'.tb [Tb.gc 1, Tb.gc 2] = none ∧ s'.cs.limit = 10 := by
  cases h : exSt with
  | none => exact absurd h (by decide +kernel)
  | some s =>
    obtain ⟨x, h1, h2⟩ := ends_ex (r := exSt.bind fun s => startUp exE exBad s) (ok := false)
      (p := fun s' => s'.fw.defaultHopLimit == 7 && Tb.scAt Tb.exEnv s'.tb [Tb.gc 1] == some Tb.st2 &&
        Tb.scAt Tb.exEnv s'.tb [Tb.gc 1, Tb.gc 2] == none && s'.cs.limit == 10) (by decide +kernel)
    obtain ⟨y, h3, h4⟩ := ends_ex (r := exSt.bind fun s => process exE exBad true { s with configured := false }) (ok := true)
      (p := fun _ => true) (by decide +kernel)
    rw [h, Option.bind_some] at h1 h3
    simp only [Bool.and_eq_true, beq_iff_eq] at h2
    obtain ⟨⟨⟨a, b⟩, c⟩, d⟩ := h2
    exact ⟨s, y, x, rfl, exSt_running h, h3, h1, a, b, c, d⟩

/-- The hypotheses of `C97_check_partial` are met by the file of the examples. -/
example : ∃ s s', exSt = some s ∧ Running exE Tb.st1 s ∧ process exE exFile true { s with configured := false } = some (s', true) ∧
    (∀ n, ("tables", n) ∈ exFile → TablesApplicable exE n) ∧ (∀ n, ("face_system", n) ∈ exFile → ∀ f, (exE.faceSystem n false f).2 = true) := by
  cases h : exSt with
  | none => exact absurd h (by decide +kernel)
  | some s =>
    obtain ⟨y, h3, h4⟩ := ends_ex (r := exSt.bind fun s => process exE exFile true { s with configured := false }) (ok := true)
      (p := fun _ => true) (by decide +kernel)
    rw [h, Option.bind_some] at h3
    refine ⟨s, y, rfl, exSt_running h, h3, ?_, fun _ _ _ => rfl⟩
    intro n hn
    obtain ⟨t, ok, a1, -, -, a2, -⟩ := tables_real (exSt_running h) n
    obtain ⟨z, h5, -⟩ := ends_ex (r := exSt.bind fun s => tablesSection exE (exFile[2].2) false s) (ok := true) (p := fun _ => true) (by decide +kernel)
    rw [h, Option.bind_some] at h5
    have hn2 : n = exFile[2].2 := by
      simp only [exFile, List.mem_cons, Prod.mk.injEq, List.not_mem_nil, or_false] at hn
      rcases hn with ⟨h, -⟩ | ⟨h, -⟩ | ⟨-, h⟩ | ⟨h, -⟩ | ⟨h, -⟩ | ⟨h, -⟩
      all_goals first | exact absurd h (by decide) | exact h
    rw [hn2, h5] at a1
    cases a1
    exact (a2.1 rfl).2

end Verif.Cf
