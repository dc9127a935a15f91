import Verif.Cs.Hist

/-
Content Store properties C01–C08 and C66. Everything is stated on arbitrary runs `(init n).run ops` of public
operations, clock advances and timer firings; vocabulary in `Verif.Cs.Spec`.
-/
namespace Verif.Cs
open Std

/-! ### Concrete material for the examples -/

def nA : Name := [⟨8, [65]⟩]
def nAB : Name := [⟨8, [65]⟩, ⟨8, [66]⟩]
def dig (b : Byte) : List Byte := List.replicate 32 b
def dA : Data := ⟨nA, dig 1, 10, false⟩
def dAB : Data := ⟨nAB, dig 2, 10, false⟩
def dAB' : Data := ⟨nAB, dig 3, 0, false⟩
def dZ : Data := ⟨[⟨8, [90]⟩], dig 4, 5, false⟩

/-- A history with insertions, a refresh, a lookup, an erasure, and capacity 2. -/
def sampleOps : List Op :=
  [.insert dA false, .insert dAB true, .find ⟨nA, false, true⟩, .tick 3, .insert dZ false, .insert dA true, .erase nAB 5]

def sampleFifo : List Op :=
  [.setPolicy .pfifo, .insert dA false, .insert dAB true, .insert dZ false, .tick 5, .fire 1, .tick 1]

theorem dataWF_of {d : Data} (h1 : d.name.all (fun c => decide (0 < c.typ ∧ c.typ ≤ 65535 ∧ ((c.typ = 1 ∨ c.typ = 2) → c.val.length = 32)))
    = true) (h2 : d.digest.length = 32) : DataWF d := by
  refine ⟨?_, h2⟩
  intro c hc
  have := List.all_eq_true.1 h1 c hc
  simp only [decide_eq_true_eq] at this
  exact this

/-- C01. After any history the store holds at most `limit` packets (and the history executes without fault). -/
theorem C01_capacity (n : Nat) (ops : List Op) (hw : ∀ op ∈ ops, OpWF op) :
    ∃ s, (init n).run ops = some s ∧ s.table.length ≤ s.limit := by
  obtain ⟨s, log, h, -, hi⟩ := run_inv (n := n) hw
  exact ⟨s, h, hi.cap⟩

/-- C02. A hit returns a packet that matches, that some insertion put in, that has stayed stored since the last
accepted insertion of its name and digest, and whose freshness period since that insertion is not over if the
Interest asks for fresh Data. -/
theorem C02_hit_sound (n : Nat) (ops : List Op) (hw : ∀ op ∈ ops, OpWF op) (s s' : Cs) (i : Interest)
    (hiw : Name.WF i.name) (d : Data)
    (hr : (init n).run ops = some s) (hf : s.step (.find i) = some (s', .hit d)) :
    Matches i d ∧ (∃ u, Op.insert d u ∈ ops) ∧
    ∃ pre d0 u post s0, ops = pre ++ Op.insert d0 u :: post ∧ keyOf d0 = keyOf d ∧
      (init n).run pre = some s0 ∧ Admitted s0 d0 ∧
      -- no accepted insertion of this packet afterwards
      (∀ a d1 u1 b s1, post = a ++ Op.insert d1 u1 :: b → keyOf d1 = keyOf d →
        (init n).run (pre ++ Op.insert d0 u :: a) = some s1 → ¬ Admitted s1 d1) ∧
      -- the packet has been stored ever since
      (∀ a b s1, post = a ++ b → (init n).run (pre ++ Op.insert d0 u :: a) = some s1 →
        ∃ e ∈ s1.table, e.data = d) ∧
      -- and is fresh if it has to be
      (i.mustBeFresh = true → s.now ≤ s0.now + d.freshness) := by
  obtain ⟨s1, log, h, -, hi⟩ := run_inv (n := n) hw
  rw [hr] at h; simp only [Option.some.injEq] at h; subst h
  obtain ⟨s2, r, h1, -, -, -, -, -, -, -, h2⟩ := find_spec hi hiw
  simp only [Cs.step, h1, Option.map_some, Option.some.injEq, Prod.mk.injEq] at hf
  cases r with
  | none => simp at hf
  | some d' =>
    have hd : d' = d := by simpa using hf.2
    subst hd
    split at h2
    · cases hfd : (s.table.filter (inRange i.name)).find? (Entry.canSatisfy s.now i) with
      | none => simp [hfd] at h2
      | some e =>
        have hed : e.data = d' := by simpa [hfd] using h2.symm
        have het : e ∈ s.table := (List.mem_filter.1 (List.mem_of_find?_eq_some hfd)).1
        have hdw : e.data.digest.length = 32 :=
          run_all (P := fun d => d.digest.length = 32) (init_inv n) hw
            (fun d u hd => (hw _ hd : DataWF d).2) (by simp [init]) hr e het
        have hu : Usable s.now i e := (canSatisfy_iff hdw).1 (List.find?_some hfd)
        obtain ⟨hp1, pre, d0, u, post, s0, g1, g2, g3, g4, g5, g6, g7⟩ := prov_run ops.length rfl hw hr e het
        rw [hed] at hp1 g5 g7
        have hkk : e.key = keyOf d' := by rw [← hed]; rfl
        rw [hkk] at g2 g6
        refine ⟨hed ▸ hu.1, hp1, pre, d0, u, post, s0, g1, g2, g3, g4, g6, g7, ?_⟩
        intro hm
        have := hu.2 hm
        rw [g5] at this
        exact this
    · cases h2

/-- C03. If serving is on, capacity is non-zero and a usable packet is stored, a lookup hits and returns the
first usable packet in canonical order. (For packets whose names contain no implicit-digest component.) -/
theorem C03_find_complete (n : Nat) (ops : List Op) (hw : ∀ op ∈ ops, OpWF op) (hnd : ∀ op ∈ ops, OpNoDigest op)
    (s : Cs) (i : Interest) (hiw : Name.WF i.name) (hr : (init n).run ops = some s)
    (hs : s.serve = true) (hl : s.limit ≠ 0) (he : ∃ e ∈ s.table, Usable s.now i e) :
    ∃ s' e, s.step (.find i) = some (s', .hit e.data) ∧ e ∈ s.table ∧ Usable s.now i e ∧
      ∀ e' ∈ s.table, Usable s.now i e' → e' = e ∨ DataLt e.data e'.data := by
  obtain ⟨s1, log, h, -, hi⟩ := run_inv (n := n) hw
  rw [hr] at h; simp only [Option.some.injEq] at h; subst h
  obtain ⟨s2, r, h1, -, -, -, -, -, -, -, h2⟩ := find_spec hi hiw
  rw [if_pos ⟨hs, hl⟩] at h2
  have hdw : ∀ e ∈ s.table, DataWF e.data :=
    run_all (P := DataWF) (init_inv n) hw (fun d u hd => hw _ hd) (by simp [init]) hr
  have hdn : ∀ e ∈ s.table, NoDigest e.data.name :=
    run_all (P := fun d => NoDigest d.name) (init_inv n) hw (fun d u hd => hnd _ hd) (by simp [init]) hr
  have hin : ∀ e ∈ s.table, Usable s.now i e → inRange i.name e = true := fun e he hu =>
    (inRange_iff hiw (hdw e he) (hdn e he)).2 (matches_prefix hu.1)
  cases hfd : (s.table.filter (inRange i.name)).find? (Entry.canSatisfy s.now i) with
  | none =>
    obtain ⟨e, he1, he2⟩ := he
    have := List.find?_eq_none.1 hfd e (List.mem_filter.2 ⟨he1, hin e he1 he2⟩)
    exact absurd ((canSatisfy_iff (hdw e he1).2).2 he2) this
  | some e =>
    have het : e ∈ s.table := (List.mem_filter.1 (List.mem_of_find?_eq_some hfd)).1
    have hu : Usable s.now i e := (canSatisfy_iff (hdw e het).2).1 (List.find?_some hfd)
    rw [hfd] at h2
    refine ⟨s2, e, by simp only [Cs.step, h1, h2]; rfl, het, hu, ?_⟩
    intro e' he' hu'
    have hm : e' ∈ s.table.filter (inRange i.name) := List.mem_filter.2 ⟨he', hin e' he' hu'⟩
    have hsrt : Sorted (s.table.filter (inRange i.name)) := hi.sorted.sublist List.filter_sublist
    obtain ⟨hce, as, bs, heq, has⟩ := List.find?_eq_some_iff_append.1 hfd
    rw [heq] at hm hsrt
    rcases List.mem_append.1 hm with hm | hm
    · have := has e' hm
      rw [(canSatisfy_iff (hdw e' he').2).2 hu'] at this; simp at this
    · rcases List.mem_cons.1 hm with rfl | hm
      · exact Or.inl rfl
      · right
        have := (List.pairwise_append.1 hsrt).2.1
        exact cmpData_lt_iff.1 ((List.pairwise_cons.1 this).1 e' hm)

/-- C03 fails for a Data whose own name ends in an implicit-digest component: it is stored and satisfies the
Interest, but the lookup misses. -/
theorem C03_miss_witness :
    let x : Component := ⟨1, dig 7⟩
    let d : Data := ⟨nA ++ [x, ⟨8, [1]⟩], dig 9, 10, false⟩
    let i : Interest := ⟨nA ++ [x], true, false⟩
    ∃ s, (init 5).run [.insert d false] = some s ∧ (∃ e ∈ s.table, Usable s.now i e) ∧
      s.serve = true ∧ s.limit ≠ 0 ∧ DataWF d ∧ Name.WF i.name ∧
      s.step (.find i) = some (s, .miss) := by
  refine ⟨_, rfl, ⟨_, List.mem_singleton.2 rfl, ?_, by intro h; cases h⟩, rfl, by decide, ?_, ?_, by decide⟩
  · exact Or.inr (Or.inr ⟨rfl, ⟨[⟨8, [1]⟩], rfl⟩⟩)
  · exact dataWF_of (by decide) (by decide)
  · exact (dataWF_of (d := ⟨nA ++ [⟨1, dig 7⟩], dig 9, 0, false⟩) (by decide) (by decide)).1

/-- C04 (one packet per full name). -/
theorem C04_unique (n : Nat) (ops : List Op) (hw : ∀ op ∈ ops, OpWF op) (s : Cs)
    (hr : (init n).run ops = some s) :
    (s.table.map (fun e => (e.data.name, e.data.digest))).Nodup := by
  obtain ⟨s1, log, h, -, hi⟩ := run_inv (n := n) hw
  rw [hr] at h; simp only [Option.some.injEq] at h; subst h
  exact keys_nodup hi.sorted

/-- C04 (re-insertion refreshes). Inserting a stored packet again keeps the set of packets, restarts the freshness
period and keeps it unsolicited only if both insertions were unsolicited. -/
theorem C04_refresh (n : Nat) (ops : List Op) (hw : ∀ op ∈ ops, OpWF op) (s : Cs)
    (hr : (init n).run ops = some s) (d : Data) (u : Bool) (ha : Admitted s d) (e : Entry) (he : e ∈ s.table)
    (hk : (e.data.name, e.data.digest) = (d.name, d.digest)) :
    ∃ s', s.step (.insert d u) = some (s', .none) ∧
      (∀ x, x ∈ s'.table ↔ (x ∈ s.table ∧ x ≠ e) ∨ x = ⟨e.data, e.unsolicited && u, s.now + e.data.freshness⟩) := by
  obtain ⟨s1, log, h, -, hi⟩ := run_inv (n := n) hw
  rw [hr] at h; simp only [Option.some.injEq] at h; subst h
  obtain ⟨s', ev, h1, -, -, -, -, -, -, h2, -, h3, -⟩ := insert_spec hi d u ha
  have hk' : e.key = keyOf d := hk
  have hkt : keyOf d ∈ keys s.table := hk' ▸ mem_keys_of_mem he
  have hev := h3 hkt
  subst hev
  refine ⟨s', by simp [Cs.step, h1], ?_⟩
  intro x
  rw [h2]
  have hins : inserted s d u = ⟨e.data, e.unsolicited && u, s.now + e.data.freshness⟩ := by
    unfold inserted
    have : s.table.find? (fun e => e.key == keyOf d) = some e := (lookup_some hi.sorted).2 ⟨he, hk'⟩
    rw [this]
  rw [hins]
  simp only [List.not_mem_nil, not_false_eq_true, and_true]
  constructor
  · rintro (⟨g1, g2⟩ | g)
    · exact Or.inl ⟨g1, fun hx => g2 (by rw [hx, hk'])⟩
    · exact Or.inr g
  · rintro (⟨g1, g2⟩ | g)
    · exact Or.inl ⟨g1, fun hx => g2 (eq_of_key hi.sorted g1 he (by rw [hx, hk']))⟩
    · exact Or.inr g

/-- C04 (first insertion). Inserting a packet that is not stored, with room left, adds exactly that packet. -/
theorem C04_insert_new (n : Nat) (ops : List Op) (hw : ∀ op ∈ ops, OpWF op) (s : Cs)
    (hr : (init n).run ops = some s) (d : Data) (u : Bool) (ha : Admitted s d)
    (hnew : ∀ e ∈ s.table, (e.data.name, e.data.digest) ≠ (d.name, d.digest)) (hroom : s.table.length < s.limit) :
    ∃ s', s.step (.insert d u) = some (s', .none) ∧
      (∀ x, x ∈ s'.table ↔ x ∈ s.table ∨ x = ⟨d, u, s.now + d.freshness⟩) := by
  obtain ⟨s1, log, h, -, hi⟩ := run_inv (n := n) hw
  rw [hr] at h; simp only [Option.some.injEq] at h; subst h
  obtain ⟨s', ev, h1, hinv', -, -, -, -, -, h2, h3, -, -⟩ := insert_spec hi d u ha
  have hkt : keyOf d ∉ keys s.table := by
    intro hm
    obtain ⟨e, he, hke⟩ := List.mem_map.1 hm
    exact hnew e he hke
  have hins : inserted s d u = ⟨d, u, s.now + d.freshness⟩ := by
    unfold inserted
    have : s.table.find? (fun e => e.key == keyOf d) = none := by
      rw [List.find?_eq_none]
      intro e he hc
      have hc' : e.key = keyOf d := by simpa using hc
      exact hnew e he hc'
    rw [this]
  rw [hins] at h2
  refine ⟨s', by simp [Cs.step, h1], ?_⟩
  have hmem : ∀ x, x ∈ s'.table ↔ (x ∈ s.table ∨ x = ⟨d, u, s.now + d.freshness⟩) ∧ x.key ∉ ev := by
    intro x; rw [h2]
    constructor
    · rintro ⟨⟨g, _⟩ | g, g2⟩
      · exact ⟨Or.inl g, g2⟩
      · exact ⟨Or.inr g, g2⟩
    · rintro ⟨g | g, g2⟩
      · exact ⟨Or.inl ⟨g, hnew x g⟩, g2⟩
      · exact ⟨Or.inr g, g2⟩
  intro x
  rw [hmem]
  refine ⟨fun g => g.1, fun g => ⟨g, ?_⟩⟩
  rcases h3 with h3 | h3
  · simp [h3]
  · -- everything fits: nothing can have been evicted
    intro hx
    have hsub : ∀ y ∈ s'.table, y ∈ (⟨d, u, s.now + d.freshness⟩ :: s.table).erase x := by
      intro y hy
      have hy' := (hmem y).1 hy
      have hyx : y ≠ x := fun hyx => hy'.2 (hyx ▸ hx)
      refine (List.mem_erase_of_ne hyx).2 ?_
      rcases hy'.1 with g | g <;> simp [g]
    have hlen := (table_nodup hinv'.sorted).length_le_of_subset hsub
    rw [List.length_erase_of_mem (by rcases g with g | g <;> simp [g])] at hlen
    simp only [List.length_cons] at hlen
    omega

/-- C05. `erase(prefix, limit)` removes the first `min limit m` of the `m` stored packets under the prefix
(the prefix may include the implicit digest), in canonical order, reports that number, and keeps the rest. -/
theorem C05_erase (n : Nat) (ops : List Op) (hw : ∀ op ∈ ops, OpWF op) (hnd : ∀ op ∈ ops, OpNoDigest op)
    (s : Cs) (hr : (init n).run ops = some s) (p : Name) (hp : Name.WF p) (limit : Nat) :
    ∃ s', s.step (.erase p limit) =
        some (s', .erased (min limit (s.table.countP (fun e => decide (p <+: e.data.fullName))))) ∧
      (∀ e ∈ s'.table, e ∈ s.table) ∧
      s'.table.length + min limit (s.table.countP (fun e => decide (p <+: e.data.fullName))) = s.table.length ∧
      (∀ e ∈ s.table, e ∉ s'.table → p <+: e.data.fullName ∧
        ∀ e' ∈ s'.table, p <+: e'.data.fullName → DataLt e.data e'.data) := by
  obtain ⟨s1, log, h, -, hi⟩ := run_inv (n := n) hw
  rw [hr] at h; simp only [Option.some.injEq] at h; subst h
  have hdw : ∀ e ∈ s.table, DataWF e.data :=
    run_all (P := DataWF) (init_inv n) hw (fun d u hd => hw _ hd) (by simp [init]) hr
  have hdn : ∀ e ∈ s.table, NoDigest e.data.name :=
    run_all (P := fun d => NoDigest d.name) (init_inv n) hw (fun d u hd => hnd _ hd) (by simp [init]) hr
  have hin : ∀ e ∈ s.table, inRange p e = true ↔ p <+: e.data.fullName := fun e he =>
    inRange_iff hp (hdw e he) (hdn e he)
  obtain ⟨s', h1, h2, h3, h4, -⟩ := erase_spec hi hp limit
  have hflt : s.table.filter (inRange p) = s.table.filter (fun e => decide (p <+: e.data.fullName)) := by
    apply List.filter_congr
    intro e he
    rw [Bool.eq_iff_iff, hin e he]; simp
  have hcnt : (s.table.filter (inRange p)).length = s.table.countP (fun e => decide (p <+: e.data.fullName)) := by
    rw [hflt, List.countP_eq_length_filter]
  rw [hcnt] at h1
  have hnd' := table_nodup hi.sorted
  refine ⟨s', by simp [Cs.step, h1], fun e he => ((h3 e).1 he).1, ?_, ?_⟩
  · -- counting
    rw [← hcnt, ← List.length_take]
    have hperm : s.table.Perm (s'.table ++ (s.table.filter (inRange p)).take limit) := by
      apply (List.perm_ext_iff_of_nodup hnd' ?_).2
      · intro e
        rw [List.mem_append, h3]
        by_cases hc : e ∈ (s.table.filter (inRange p)).take limit
        · simp only [hc, not_true, and_false, or_true, iff_true]
          exact (List.mem_filter.1 (List.mem_of_mem_take hc)).1
        · simp [hc]
      · refine List.nodup_append.2 ⟨table_nodup h2.sorted, (hnd'.sublist List.filter_sublist).sublist (List.take_sublist _ _), ?_⟩
        rintro a ha b hb rfl
        exact ((h3 a).1 ha).2 hb
    rw [hperm.length_eq, List.length_append]
  · intro e he hne
    have hc : e ∈ (s.table.filter (inRange p)).take limit := by
      refine Decidable.byContradiction fun hc => hne ((h3 e).2 ⟨he, hc⟩)
    refine ⟨(hin e he).1 (List.mem_filter.1 (List.mem_of_mem_take hc)).2, ?_⟩
    intro e' he' hp'
    have g := (h3 e').1 he'
    have hsrt : Sorted (s.table.filter (inRange p)) := hi.sorted.sublist List.filter_sublist
    have hm : e' ∈ s.table.filter (inRange p) := List.mem_filter.2 ⟨g.1, (hin e' g.1).2 hp'⟩
    rw [← List.take_append_drop limit (s.table.filter (inRange p))] at hsrt hm
    have hd : e' ∈ (s.table.filter (inRange p)).drop limit := by
      rcases List.mem_append.1 hm with hm | hm
      · exact absurd hm g.2
      · exact hm
    exact cmpData_lt_iff.1 ((List.pairwise_append.1 hsrt).2.2 e hc e' hd)

/-- C06. Under LRU, when a packet is evicted, every packet that stays was touched (inserted, refreshed or served)
after the evicted one was last touched. -/
theorem C06_lru (n : Nat) (ops : List Op) (hw : ∀ op ∈ ops, OpWF op) (s s' : Cs) (log : List Key) (op : Op) (out : Out)
    (hop : OpWF op) (hr : (init n).runLog [] ops = some (s, log)) (hk : s.kind = .lru)
    (hstep : s.step op = some (s', out)) (e : Entry) (he : Evicted s op s' e) (e' : Entry) (he' : e' ∈ s'.table) :
    TouchedAfter (log ++ touched s op out) e.key e'.key := by
  obtain ⟨s1, log1, -, h, hi⟩ := run_inv (n := n) hw
  rw [hr] at h; simp only [Option.some.injEq, Prod.mk.injEq] at h
  obtain ⟨rfl, rfl⟩ := h
  obtain ⟨q, t, ev, q', h1, h2, h3, h4⟩ := lru_evicted hi hop hk hstep he
  have := h1.2.pw
  rw [h2] at this
  exact (List.pairwise_append.1 this).2.2 _ h3 _ (h4 e' he')

/-- C07. Under priority_fifo, an evicted packet is compared with every packet that stays:
* a solicited packet is evicted only if no unsolicited one stays;
* if timers run on time, a solicited fresh packet is evicted only if no stale one stays;
* inside a class (unsolicited; solicited and stale; solicited and fresh), the packet that entered it first goes first,
  i.e. the one that stays was inserted, refreshed or became stale after the evicted one. -/
theorem C07_priority_fifo (n : Nat) (ops : List Op) (hw : ∀ op ∈ ops, OpWF op) (s s' : Cs) (log : List Key) (op : Op)
    (out : Out) (hop : OpWF op) (hr : (init n).runLog [] ops = some (s, log)) (hk : s.kind = .pfifo)
    (hstep : s.step op = some (s', out)) (e : Entry) (he : Evicted s op s' e) (e' : Entry) (he' : e' ∈ s'.table) :
    (e.unsolicited = false → e'.unsolicited = false) ∧
    (Prompt s → e.unsolicited = false → s.now < e.freshUntil → s.now ≤ e'.freshUntil) ∧
    (e.unsolicited = true → e'.unsolicited = true → TouchedAfter (log ++ touched s op out) e.key e'.key) ∧
    (Prompt s → e.unsolicited = false → e'.unsolicited = false → e.freshUntil < s.now → e'.freshUntil < s.now →
      TouchedAfter (log ++ touched s op out) e.key e'.key) ∧
    (e.unsolicited = false → e'.unsolicited = false → s.now < e.freshUntil → s.now < e'.freshUntil →
      TouchedAfter (log ++ touched s op out) e.key e'.key) := by
  obtain ⟨s1, log1, -, h, hi⟩ := run_inv (n := n) hw
  rw [hr] at h; simp only [Option.some.injEq, Prod.mk.injEq] at h
  obtain ⟨rfl, rfl⟩ := h
  obtain ⟨p, t, ev, p', h1, h2, h3, h4, h5, h6⟩ := pfifo_evicted hi hop hk hstep he
  have hpw := order_pairwise h1.2.2
  rw [h2] at hpw
  obtain ⟨het', hord'⟩ := h5 e' he'
  obtain ⟨qa, qb, ha, hb, hrank, htouch⟩ := (List.pairwise_append.1 hpw).2.2 _ h3 _ hord'
  have ca := class_of h1 h4 ha
  have cb := class_of h1 het' hb
  cases qa <;> cases qb <;> simp only [QType.rank] at hrank <;> simp only at ca cb <;>
    simp only [reduceCtorEq, forall_const, false_implies] at htouch <;>
    (try omega)
  · simp only [ca, cb]; simp; exact htouch
  · simp [ca, cb.1]
  · simp [ca, cb.1]
  · simp only [ca.1, cb.1]
    refine ⟨by simp, fun _ _ h => by omega, by simp, fun _ _ _ _ _ => htouch, fun _ _ h => by omega⟩
  · obtain ⟨cb1, id, cb2⟩ := cb
    simp only [ca.1, cb1]
    refine ⟨by simp, fun _ _ h => by omega, by simp, fun hp _ _ _ h => ?_, fun _ _ h => by omega⟩
    have := h6 hp _ cb2; simp only at this; omega
  · obtain ⟨cb1, id, cb2⟩ := cb
    obtain ⟨ca1, id', ca2⟩ := ca
    simp only [ca1, cb1]
    exact ⟨by simp, fun hp _ _ => h6 hp _ cb2, by simp, fun _ _ _ _ _ => htouch, fun _ _ _ _ => htouch⟩

/-- C08. No history makes the code follow a dangling reference or fail an assertion, and at the end the policy holds
each stored packet exactly once and nothing else, and every pending stale-timer is for a stored packet. -/
theorem C08_no_dangling (n : Nat) (ops : List Op) (hw : ∀ op ∈ ops, OpWF op) :
    ∃ s, (init n).run ops = some s ∧
      match s.policy with
      | .lru q => q.Nodup ∧ ∀ k, k ∈ q ↔ ∃ e ∈ s.table, e.key = k
      | .pfifo p => (p.qUnsolicited ++ p.qStale ++ p.qFifo).Nodup ∧
          (∀ k, k ∈ p.qUnsolicited ++ p.qStale ++ p.qFifo ↔ ∃ e ∈ s.table, e.key = k) ∧
          ∀ id k due, (id, k, due) ∈ p.events → ∃ e ∈ s.table, e.key = k := by
  obtain ⟨s, log, h, -, hi⟩ := run_inv (n := n) hw
  refine ⟨s, h, ?_⟩
  have hpol := hi.pol
  have hkeys : ∀ k, k ∈ keys s.table ↔ ∃ e ∈ s.table, e.key = k := fun k => List.mem_map
  cases hp : s.policy with
  | lru q =>
    rw [hp] at hpol
    exact ⟨hpol.1.nodup, fun k => by rw [hpol.1.mem, hkeys]⟩
  | pfifo p =>
    rw [hp] at hpol
    have hstr := hpol.1
    refine ⟨?_, fun k => by rw [← hkeys]; exact mem_order hstr k, ?_⟩
    · refine List.nodup_append.2 ⟨List.nodup_append.2 ⟨hstr.qNodup .unsolicited, hstr.qNodup .stale, ?_⟩,
        hstr.qNodup .fifo, ?_⟩
      · rintro a ha b hb rfl
        cases queue_disjoint hstr (q := .unsolicited) (q' := .stale) ha hb
      · rintro a ha b hb rfl
        rcases List.mem_append.1 ha with ha | ha
        · cases queue_disjoint hstr (q := .unsolicited) (q' := .fifo) ha hb
        · cases queue_disjoint hstr (q := .stale) (q' := .fifo) ha hb
    · intro id k due hev
      rw [← hkeys]
      exact (hstr.infoKeys k).1 ⟨_, hstr.evInfo _ _ _ hev⟩

/-- C68. Switches: with admission off, capacity zero or a NoCache packet, an insertion changes nothing; with serving off
or capacity zero, a lookup misses and changes nothing. -/
theorem C68_switches (n : Nat) (ops : List Op) (hw : ∀ op ∈ ops, OpWF op) (s : Cs) (hr : (init n).run ops = some s) :
    (∀ d u, (s.admit = false ∨ s.limit = 0 ∨ d.noCache = true) → s.step (.insert d u) = some (s, .none)) ∧
    (∀ i, Name.WF i.name → (s.serve = false ∨ s.limit = 0) → s.step (.find i) = some (s, .miss)) ∧
    (∀ i s' out, Name.WF i.name → s.step (.find i) = some (s', out) → s'.table = s.table) := by
  obtain ⟨s1, log, h, -, hi⟩ := run_inv (n := n) hw
  rw [hr] at h; simp only [Option.some.injEq] at h; subst h
  refine ⟨?_, ?_, ?_⟩
  · intro d u hc
    simp only [Cs.step, Cs.insert]
    rcases hc with hc | hc | hc
    · simp [hc]
    · simp [hc]
    · by_cases h1 : (!s.admit || s.limit == 0) = true
      · rw [if_pos h1]; rfl
      · rw [if_neg h1, if_pos hc]; rfl
  · intro i _ hc
    simp only [Cs.step, Cs.find]
    rcases hc with hc | hc <;> simp [hc]
  · intro i s' out hiw hstep
    obtain ⟨s2, r, h1, -, h2, -⟩ := find_spec hi hiw
    simp only [Cs.step, h1, Option.map_some, Option.some.injEq, Prod.mk.injEq] at hstep
    rw [← hstep.1, h2]

/-- C68: a reachable store with both switches off and packets inside. -/
example : ∃ s, (init 2).run (sampleOps ++ [.enableAdmit false, .enableServe false]) = some s ∧
    (s.table.length == 2 && !s.admit && !s.serve) = true := by
  have h : ((init 2).run (sampleOps ++ [.enableAdmit false, .enableServe false])).any
    (fun s => s.table.length == 2 && !s.admit && !s.serve) = true := by decide +kernel
  cases hr : (init 2).run (sampleOps ++ [.enableAdmit false, .enableServe false]) with
  | none => rw [hr] at h; cases h
  | some s => rw [hr] at h; exact ⟨s, rfl, h⟩

/-- C66. The `cs/erase` command with at most 256 erasures per command: what it erases, what it reports. -/
theorem C66_mgmt_erase (n : Nat) (ops : List Op) (hw : ∀ op ∈ ops, OpWF op) (hnd : ∀ op ∈ ops, OpNoDigest op)
    (s : Cs) (hr : (init n).run ops = some s) (p : Name) (hp : Name.WF p) (count : Option Nat) :
    ∃ s' k cap, mgmtErase 256 s p count = some (s', k, cap) ∧
      k = min (min (count.getD 256) 256) (s.table.countP (fun e => decide (p <+: e.data.fullName))) ∧
      s'.table.length + k = s.table.length ∧
      (∀ e ∈ s'.table, e ∈ s.table) ∧
      (∀ e ∈ s.table, e ∉ s'.table → p <+: e.data.fullName) ∧
      (cap = true ↔ k = 256 ∧ (∀ c, count = some c → 256 < c) ∧ s.serve = true ∧ s.limit ≠ 0 ∧
        ∃ e ∈ s'.table, p <+: e.data.fullName) := by
  have hlim : (count.map (min · 256)).getD 256 = min (count.getD 256) 256 := by
    cases count <;> simp
  obtain ⟨s1, h1, h2, h3, h4⟩ := C05_erase n ops hw hnd s hr p hp (min (count.getD 256) 256)
  have hr1 : (init n).run (ops ++ [.erase p (min (count.getD 256) 256)]) = some s1 := by
    rw [run_append, hr]; simp [Cs.run, h1]
  have hw1 : ∀ op ∈ ops ++ [Op.erase p (min (count.getD 256) 256)], OpWF op := by
    intro op ho; rcases List.mem_append.1 ho with ho | ho
    · exact hw op ho
    · simp at ho; subst ho; exact hp
  have hnd1 : ∀ op ∈ ops ++ [Op.erase p (min (count.getD 256) 256)], OpNoDigest op := by
    intro op ho; rcases List.mem_append.1 ho with ho | ho
    · exact hnd op ho
    · simp at ho; subst ho; trivial
  generalize hk : min (min (count.getD 256) 256) (s.table.countP (fun e => decide (p <+: e.data.fullName))) = k at *
  have he : s.erase p (min (count.getD 256) 256) = some (s1, k) := by
    simp only [Cs.step] at h1
    cases h : s.erase p (min (count.getD 256) 256) with
    | none => simp [h] at h1
    | some r => simp [h] at h1; simp [← h1.1, ← h1.2]
  obtain ⟨_, log, h0, -, hi0⟩ := run_inv (n := n) hw
  rw [hr] at h0; simp only [Option.some.injEq] at h0; subst h0
  obtain ⟨s1', e1, -, -, -, e2, -, -, e3, -⟩ := erase_spec hi0 hp (min (count.getD 256) 256)
  rw [e1] at he; simp only [Option.some.injEq, Prod.mk.injEq] at he
  obtain ⟨rfl, he⟩ := he
  rw [he] at e1
  unfold mgmtErase
  simp only [hlim, e1]
  have hcond : (k = 256 ∧ (count.isNone = true ∨ count.getD 0 > 256)) ↔ (k = 256 ∧ ∀ c, count = some c → 256 < c) := by
    cases count <;> simp
  by_cases hc : k = 256 ∧ (count.isNone = true ∨ count.getD 0 > 256)
  · rw [if_pos hc]
    obtain ⟨_, log1, h0, -, hi1⟩ := run_inv (n := n) hw1
    rw [hr1] at h0; simp only [Option.some.injEq] at h0; subst h0
    obtain ⟨s2, r, f1, -, f2, -, -, -, -, -, f3⟩ := find_spec (i := ⟨p, true, false⟩) hi1 hp
    rw [f1]
    have hrr : r.isSome = true ↔ s.serve = true ∧ s.limit ≠ 0 ∧ ∃ e ∈ s1'.table, p <+: e.data.fullName := by
      constructor
      · intro hsome
        by_cases hsl : s1'.serve = true ∧ s1'.limit ≠ 0
        · rw [if_pos hsl] at f3
          refine ⟨e3 ▸ hsl.1, e2 ▸ hsl.2, ?_⟩
          rw [f3, Option.isSome_map] at hsome
          obtain ⟨e, hfe⟩ := Option.isSome_iff_exists.1 hsome
          have hm := List.mem_filter.1 (List.mem_of_find?_eq_some hfe)
          have hdw := run_all (P := DataWF) (init_inv n) hw1 (fun d u hd => hw1 _ hd) (by simp [init]) hr1 e hm.1
          have hdn := run_all (P := fun d => NoDigest d.name) (init_inv n) hw1 (fun d u hd => hnd1 _ hd) (by simp [init]) hr1 e hm.1
          exact ⟨e, hm.1, (inRange_iff hp hdw hdn).1 hm.2⟩
        · rw [if_neg hsl] at f3; rw [f3] at hsome; cases hsome
      · rintro ⟨g1, g2, e, g3, g4⟩
        have hmt : Matches ⟨p, true, false⟩ e.data := by
          rcases List.prefix_concat_iff.1 g4 with g | g
          · exact Or.inl g
          · exact Or.inr (Or.inr ⟨rfl, g⟩)
        obtain ⟨s3, e3', k1, k2, k3, -⟩ := C03_find_complete n _ hw1 hnd1 s1' ⟨p, true, false⟩ hp hr1 (by rw [e3]; exact g1)
          (by rw [e2]; exact g2) ⟨e, g3, hmt, by intro h; cases h⟩
        simp only [Cs.step, f1, Option.map_some, Option.some.injEq, Prod.mk.injEq] at k1
        cases r with
        | none => simp at k1
        | some d => rfl
    cases r with
    | none =>
      refine ⟨s2, k, false, rfl, rfl, by rw [f2]; exact h3, by rw [f2]; exact h2, by rw [f2]; exact fun e he hne => (h4 e he hne).1, ?_⟩
      rw [f2]
      constructor
      · intro h; cases h
      · rintro ⟨_, _, g⟩; exact absurd (hrr.2 g) (by simp)
    | some d =>
      refine ⟨s2, k, true, rfl, rfl, by rw [f2]; exact h3, by rw [f2]; exact h2, by rw [f2]; exact fun e he hne => (h4 e he hne).1, ?_⟩
      rw [f2]
      exact ⟨fun _ => ⟨hc.1, (hcond.1 hc).2, hrr.1 rfl⟩, fun _ => rfl⟩
  · rw [if_neg hc]
    refine ⟨s1', k, false, rfl, rfl, h3, h2, fun e he hne => (h4 e he hne).1, ?_⟩
    constructor
    · intro h; cases h
    · rintro ⟨g1, g2, _⟩; exact absurd (hcond.2 ⟨g1, g2⟩) hc

/-! ### The hypotheses are met by real histories -/

theorem sampleOps_wf : ∀ op ∈ sampleOps, OpWF op ∧ OpNoDigest op := by
  have hA : DataWF dA := dataWF_of (by decide) (by decide)
  have hAB : DataWF dAB := dataWF_of (by decide) (by decide)
  have hZ : DataWF dZ := dataWF_of (by decide) (by decide)
  have nd : ∀ n : Name, n.all (fun c => c.typ != 1) = true → NoDigest n := by
    intro n h c hc; have := List.all_eq_true.1 h c hc; simpa [ttImplicitDigest] using this
  intro op ho
  simp only [sampleOps, List.mem_cons, List.not_mem_nil, or_false] at ho
  rcases ho with rfl | rfl | rfl | rfl | rfl | rfl | rfl
  · exact ⟨hA, nd _ (by decide)⟩
  · exact ⟨hAB, nd _ (by decide)⟩
  · exact ⟨hA.1, trivial⟩
  · exact ⟨trivial, trivial⟩
  · exact ⟨hZ, nd _ (by decide)⟩
  · exact ⟨hA, nd _ (by decide)⟩
  · exact ⟨hAB.1, trivial⟩

theorem sampleFifo_wf : ∀ op ∈ sampleFifo, OpWF op := by
  have hA : DataWF dA := dataWF_of (by decide) (by decide)
  have hAB : DataWF dAB := dataWF_of (by decide) (by decide)
  have hZ : DataWF dZ := dataWF_of (by decide) (by decide)
  intro op ho
  simp only [sampleFifo, List.mem_cons, List.not_mem_nil, or_false] at ho
  rcases ho with rfl | rfl | rfl | rfl | rfl | rfl | rfl <;> first | trivial | assumption

/-- Witness of a decidable fact about an optional result. -/
theorem ex_of_any {α} {o : Option α} {p : α → Bool} (h : o.any p = true) : ∃ s, o = some s ∧ p s = true := by
  cases o with
  | none => simp at h
  | some s => exact ⟨s, rfl, by simpa using h⟩

/-- C01/C04/C08: a run that reaches a full store. -/
example : ∃ s, (init 2).run sampleOps = some s ∧ (s.table.length == 2 && s.limit == 2) = true :=
  ex_of_any (by decide +kernel)

/-- C02/C03: a lookup that hits, with CanBePrefix and MustBeFresh. -/
example : ∃ s, (init 2).run sampleOps = some s ∧
    ((s.step (.find ⟨[], true, true⟩)).any (fun r => r.2 == .hit dA)) = true := ex_of_any (by decide +kernel)

/-- C04: a packet is stored and its re-insertion accepted; another is new and there is room for it. -/
example : ∃ s, (init 3).run sampleOps = some s ∧
    decide (Admitted s dA ∧ s.table.any (fun e => e.data = dA) = true ∧
      s.table.all (fun e => e.data.name ≠ dAB'.name) = true ∧ s.table.length < s.limit) = true :=
  ex_of_any (by decide +kernel)

/-- C05/C66: an erasure that takes one of two matching packets. -/
example : ∃ s, (init 9).run (sampleOps.take 5) = some s ∧
    ((s.step (.erase nA 1)).any (fun r => r.2 == .erased 1 && s.table.length == 3 && r.1.table.length == 2 &&
      r.1.table.any (fun e => decide (nA <+: e.data.fullName)))) = true :=
  ex_of_any (by decide +kernel)

/-- C06: an eviction under LRU: with capacity 2, `dAB` goes because `dA` was looked up later. -/
example : ∃ s, (init 2).runLog [] (sampleOps.take 4) = some s ∧
    (s.1.kind == .lru && (s.1.step (.insert dZ false)).any (fun r =>
      s.1.table.any (fun e => e.data == dAB) && !r.1.table.any (fun e => e.data == dAB) &&
      r.1.table.map (·.data) == [dA, dZ])) = true :=
  ex_of_any (by decide +kernel)

/-- C07: evictions under priority_fifo with punctual timers: first the unsolicited packet, then the stale one. -/
example : ∃ s, (init 3).runLog [] sampleFifo = some s ∧
    (s.1.kind == .pfifo && (match s.1.policy with
        | .pfifo p => p.events.all (fun ev => s.1.now ≤ ev.2.2) && p.events.length == 1 | .lru _ => false) &&
      s.1.table.map (·.data) == [dA, dAB, dZ] &&
      (s.1.step (.setLimit 2)).any (fun r => r.1.table.map (·.data) == [dA, dZ]) &&
      (s.1.step (.setLimit 1)).any (fun r => r.1.table.map (·.data) == [dA])) = true :=
  ex_of_any (by decide +kernel)

end Verif.Cs
