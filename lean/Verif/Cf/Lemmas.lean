import Verif.Cf.Spec
import Verif.Cs.Step
import Verif.Cs.Hist
import Verif.Tables.ScProps
import Verif.Mgmt.TblCmdProps
import Verif.Mgmt.AuthProps

namespace Verif.Cf

variable {Cert F : Type} {e : Env Cert F} {d : Name} {s s' : St Cert F} {n : Node}

theorem first_iff (n : Node) (key : String) (x : Node) : First n key x ↔ n.child key = some x := by
  unfold First Node.child
  rw [Option.map_eq_some_iff]
  constructor
  · rintro ⟨b, a, h1, h2⟩
    refine ⟨(key, x), ?_, rfl⟩
    rw [List.find?_eq_some_iff_append]
    exact ⟨by simp, b, a, h1, fun y hy => by simp [h2 y hy]⟩
  · rintro ⟨⟨k, x'⟩, h, rfl⟩
    rw [List.find?_eq_some_iff_append] at h
    obtain ⟨h0, b, a, h1, h2⟩ := h
    simp only [beq_iff_eq] at h0
    subst h0
    exact ⟨b, a, h1, fun y hy => by simpa using h2 y hy⟩

theorem lacks_iff (n : Node) (key : String) : Lacks n key ↔ n.child key = none := by
  unfold Lacks Node.child
  rw [Option.map_eq_none_iff, List.find?_eq_none]
  simp

theorem readOpt_iff' {α : Type} (n : Node) (key : String) (dflt : α) (read : String → Option α) (reads : String → α → Prop)
    (hr : ∀ x v, read x = some v ↔ reads x v) (v : α) : readOpt (n.child key) dflt read = some v ↔ Says n key dflt reads v := by
  unfold readOpt Says
  simp only [first_iff, lacks_iff, ← hr]
  cases n.child key with
  | none => simp [eq_comm]
  | some x => simp

theorem limit_iff (e : Env Cert F) (n : Node) (v : Nat) :
    readOpt (n.child "cs_max_packets") defaultCsMaxPackets (e.num sizeMax) = some v ↔ Says n "cs_max_packets" 65536 (Size e) v :=
  readOpt_iff' n _ _ _ _ (fun x v => by unfold Size sizeMax; norm_cast) v

theorem policy_iff (n : Node) (v : Option Cs.PolicyKind) :
    readOpt (n.child "cs_policy") none (fun x => (csPolicy x).map some) = some v ↔ Says n "cs_policy" none PolicyNamed v := by
  refine readOpt_iff' n _ _ _ _ (fun x v => ?_) v
  unfold csPolicy PolicyNamed
  by_cases h1 : x = "lru"
  · subst h1; simp [eq_comm]
  · rw [if_neg h1]
    by_cases h2 : x = "priority_fifo"
    · subst h2; simp [eq_comm]
    · simp [h1, h2]

theorem unsolicited_iff (n : Node) (v : Fw.Unsolicited) :
    readOpt (n.child "cs_unsolicited_policy") defaultUnsolicited unsolicitedPolicy = some v ↔ Says n "cs_unsolicited_policy" .dropAll UnsolicitedNamed v := by
  refine readOpt_iff' n _ _ _ _ (fun x v => ?_) v
  unfold unsolicitedPolicy UnsolicitedNamed
  by_cases h1 : x = "drop-all"
  · subst h1; simp [eq_comm]
  rw [if_neg h1]
  by_cases h2 : x = "admit-local"
  · subst h2; simp [eq_comm]
  rw [if_neg h2]
  by_cases h3 : x = "admit-network"
  · subst h3; simp [eq_comm]
  rw [if_neg h3]
  by_cases h4 : x = "admit-all"
  · subst h4; simp [eq_comm]
  · simp [h1, h2, h3, h4]

theorem mem_insertChoice (x y : Name × Name) (l : List (Name × Name)) : y ∈ insertChoice x l ↔ y = x ∨ y ∈ l := by
  induction l with
  | nil => simp [insertChoice]
  | cons z l ih =>
    rw [insertChoice]
    split
    · simp
    · simp only [List.mem_cons, ih]; grind

theorem insertChoice_keys (x : Name × Name) (l : List (Name × Name)) (hx : ∀ y ∈ l, y.1 ≠ x.1) (h : l.Pairwise (fun a b => a.1 ≠ b.1)) :
    (insertChoice x l).Pairwise (fun a b => a.1 ≠ b.1) := by
  induction l with
  | nil => simp [insertChoice]
  | cons z l ih =>
    rw [insertChoice]
    split
    · rw [List.pairwise_cons]
      exact ⟨fun y hy => Ne.symm (hx y hy), h⟩
    · rw [List.pairwise_cons] at h ⊢
      refine ⟨?_, ih (fun y hy => hx y (by simp [hy])) h.2⟩
      intro y hy
      rcases (mem_insertChoice x y l).1 hy with rfl | hy
      · exact hx z (by simp)
      · exact h.1 y hy

/-- What `readChoices` returns. -/
theorem readChoices_spec (e : Env Cert F) : ∀ (l : List (String × Node)) (m r : List (Name × Name)), m.Pairwise (fun a b => a.1 ≠ b.1) →
    readChoices e l m = some r →
    r.Pairwise (fun a b => a.1 ≠ b.1) ∧
    (∀ p st, (p, st) ∈ r ↔ (p, st) ∈ m ∨ ∃ y ∈ l, e.name y.1 = some p ∧ e.name y.2.value = some st) := by
  intro l
  induction l with
  | nil => intro m r hm h; simp only [readChoices, Option.some.injEq] at h; subst h; exact ⟨hm, by simp⟩
  | cons x l ih =>
    intro m r hm h
    simp only [readChoices] at h
    cases hp : e.name x.1 with
    | none => rw [hp] at h; cases h
    | some p =>
      rw [hp] at h; dsimp only at h
      cases hst : e.name x.2.value with
      | none => rw [hst] at h; cases h
      | some st =>
        rw [hst] at h; dsimp only at h
        split at h
        · cases h
        · split at h
          · cases h
          · rename_i _ hn
            have hk : ∀ y ∈ m, y.1 ≠ p := by
              intro y hy hyp; exact hn (List.any_eq_true.2 ⟨y, hy, by simp [hyp]⟩)
            obtain ⟨h1, h2⟩ := ih _ _ (insertChoice_keys (p, st) m hk hm) h
            refine ⟨h1, ?_⟩
            intro p' st'
            rw [h2, mem_insertChoice]
            simp only [Prod.mk.injEq, List.mem_cons, exists_eq_or_imp, hp, hst, Option.some.injEq]
            grind

/-- When `readChoices` returns. -/
theorem readChoices_isSome (e : Env Cert F) : ∀ (l : List (String × Node)) (m : List (Name × Name)),
    (readChoices e l m).isSome ↔
      (∀ y ∈ l, ∃ p st, e.name y.1 = some p ∧ e.name y.2.value = some st ∧ e.tb.create st ≠ .notRegistered ∧ ∀ z ∈ m, z.1 ≠ p) ∧
      l.Pairwise (fun a b => e.name a.1 ≠ e.name b.1) := by
  intro l
  induction l with
  | nil => intro m; simp [readChoices]
  | cons x l ih =>
    intro m
    simp only [readChoices]
    cases hp : e.name x.1 with
    | none => simp [hp]
    | some p =>
      dsimp only
      cases hst : e.name x.2.value with
      | none => simp [hst]
      | some st =>
        dsimp only
        by_cases hc : e.tb.create st = .notRegistered
        · simp [hc, hp, hst]
        · rw [if_neg hc]
          by_cases hm : (m.any fun y => y.1 == p) = true
          · rw [if_pos hm]
            obtain ⟨y, hy, hyp⟩ := List.any_eq_true.1 hm
            simp only [Option.isSome_none, Bool.false_eq_true, false_iff, not_and]
            intro h
            obtain ⟨p', st', h1, _, _, h4⟩ := h x (by simp)
            rw [hp] at h1; cases h1
            exact absurd (by simpa using hyp) (h4 y hy)
          · rw [if_neg hm, ih]
            have hk : ∀ y ∈ m, y.1 ≠ p := by
              intro y hy hyp; exact hm (List.any_eq_true.2 ⟨y, hy, by simp [hyp]⟩)
            simp only [mem_insertChoice, List.pairwise_cons, List.mem_cons]
            constructor
            · rintro ⟨h1, h2⟩
              refine ⟨?_, ?_, h2⟩
              · rintro y (rfl | hy)
                · exact ⟨p, st, hp, hst, hc, hk⟩
                · obtain ⟨p', st', a, b, c, d⟩ := h1 y hy
                  exact ⟨p', st', a, b, c, fun z hz => d z (Or.inr hz)⟩
              · intro y hy hxy
                obtain ⟨p', st', a, b, c, d⟩ := h1 y hy
                rw [hp, a] at hxy
                cases hxy
                exact d (p, st) (Or.inl rfl) rfl
            · rintro ⟨h1, h2, h3⟩
              refine ⟨?_, h3⟩
              intro y hy
              obtain ⟨p', st', a, b, c, d⟩ := h1 y (Or.inr hy)
              refine ⟨p', st', a, b, c, ?_⟩
              rintro z (rfl | hz)
              · intro hpp
                exact h2 y hy (by rw [hp, a]; exact congrArg some hpp)
              · exact d z hz

/-- Applying choices of distinct prefixes: it never fails an assertion; the tables stay reachable; a prefix not listed keeps its
choice; it succeeds if and only if all are acceptable, and then each is made. -/
theorem applyChoices_spec {e : Tb.Env} {d : Name} : ∀ (l : List (Name × Name)) (t : Tb.Tables), Tb.Reachable e d t →
    l.Pairwise (fun a b => a.1 ≠ b.1) →
    ∃ t' ok, applyChoices e t l = some (t', ok) ∧ Tb.Reachable e d t' ∧
      (∀ m, (∀ x ∈ l, x.1 ≠ m) → Tb.scAt e t' m = Tb.scAt e t m) ∧
      (ok = true ↔ ∀ x ∈ l, x.1.length ≤ 32 ∧ ∃ inst, e.create x.2 = .ok inst) ∧
      (ok = true → ∀ x ∈ l, ∃ inst, e.create x.2 = .ok inst ∧ Tb.scAt e t' x.1 = some inst) := by
  intro l
  induction l with
  | nil => intro t ht _; exact ⟨t, true, rfl, ht, fun _ _ => rfl, by simp, by simp⟩
  | cons x l ih =>
    intro t ht hp
    rw [List.pairwise_cons] at hp
    obtain ⟨t1, r, h1, h2, h3, h4, h5, h6⟩ := Tb.C21_insert ht x.1 x.2
    have h2 : r = .depthExceeded ↔ 32 < x.1.length := h2
    have h3 : r = .exception ↔ x.1.length ≤ 32 ∧ _ := h3
    have h4 : r = .notRegistered ↔ x.1.length ≤ 32 ∧ _ := h4
    have h6 : ∀ inst, x.1.length ≤ 32 → _ := h6
    have ht1 : Tb.Reachable e d t1 := TblCmd.Reachable.op ht (.scInsert x.1 x.2) (by simp [Tb.Op.run, h1])
    by_cases hr : r = .ok
    · subst hr
      simp only [reduceCtorEq, false_iff, not_and] at h2 h3 h4
      have hlen : x.1.length ≤ 32 := by omega
      have hcr : ∃ inst, e.create x.2 = .ok inst := by
        cases hc : e.create x.2 with
        | notRegistered => exact absurd hc (h4 hlen)
        | exception => exact absurd hc (h3 hlen)
        | ok inst => exact ⟨inst, rfl⟩
      obtain ⟨inst, hc⟩ := hcr
      obtain ⟨_, h7, h8⟩ := h6 inst hlen hc
      obtain ⟨t2, ok, a1, a2, a3, a4, a5⟩ := ih t1 ht1 hp.2
      refine ⟨t2, ok, by simp only [applyChoices, h1]; exact a1, a2, ?_, ?_, ?_⟩
      · intro m hm
        rw [a3 m (fun y hy => hm y (by simp [hy])), h8 m (Ne.symm (hm x (by simp)))]
      · rw [a4]
        simp only [List.forall_mem_cons]
        exact ⟨fun h => ⟨⟨hlen, inst, hc⟩, h⟩, fun h => h.2⟩
      · intro hok y hy
        rcases List.mem_cons.1 hy with rfl | hy
        · exact ⟨inst, hc, by rw [a3 y.1 (fun z hz => Ne.symm (hp.1 z hz)), h7]⟩
        · exact a5 hok y hy
    · have ht' : t1 = t := h5 hr
      refine ⟨t1, false, ?_, ht1, ?_, ?_, by simp⟩
      · simp only [applyChoices, h1]
      · intro m _; rw [ht']
      · simp only [Bool.false_eq_true, false_iff]
        intro h
        obtain ⟨hl, inst, hc⟩ := h x (by simp)
        exact hr (h6 inst hl hc).1

theorem insertRegions_spec (name : String → Option Name) : ∀ (l : List (String × Node)) (r : List Name),
    ((insertRegions name r l).2 = true ↔ ∀ y ∈ l, (name y.1).isSome) ∧
    ((insertRegions name r l).2 = true → ∀ n, n ∈ (insertRegions name r l).1 ↔ n ∈ r ∨ ∃ y ∈ l, name y.1 = some n) := by
  intro l
  induction l with
  | nil => intro r; simp [insertRegions]
  | cons x l ih =>
    intro r
    rw [insertRegions]
    cases hx : name x.1 with
    | none => simp [hx]
    | some p =>
      dsimp only
      obtain ⟨h1, h2⟩ := ih (if p ∈ r then r else r ++ [p])
      refine ⟨?_, ?_⟩
      · rw [h1]; simp [hx]
      · intro h n
        rw [h2 h n]
        simp only [List.mem_cons, exists_eq_or_imp, hx, Option.some.injEq]
        split <;> grind

/-- The Content Store after `setLimit` and possibly `setPolicy`. -/
theorem cs_config (hc : ∃ n ops, (∀ op ∈ ops, Cs.OpWF op) ∧ (Cs.init n).run ops = some s.cs) (limit : Nat) (policy : Option Cs.PolicyKind) :
    ∃ c1 c2, s.cs.setLimit limit = some c1 ∧ replacePolicy c1 policy = some c2 ∧
      (∃ n ops, (∀ op ∈ ops, Cs.OpWF op) ∧ (Cs.init n).run ops = some c2) ∧
      c2.limit = limit ∧ c2.table.length ≤ limit ∧ (∀ x ∈ c2.table, x ∈ s.cs.table) ∧ (s.cs.table.length ≤ limit → c2.table = s.cs.table) ∧
      c2.admit = s.cs.admit ∧ c2.serve = s.cs.serve ∧
      c2.kind = (match policy with | some k => if c2.table = [] then k else s.cs.kind | none => s.cs.kind) := by
  obtain ⟨n, ops, hw, hr⟩ := hc
  obtain ⟨s0, log, h1, -, hi⟩ := Cs.run_inv (n := n) hw
  rw [hr] at h1; cases h1
  obtain ⟨c1, ev, a1, a2, a3, a4, a5, a6, a7, a8, a9, a10⟩ := Cs.setLimit_spec hi limit
  have hr1 : (Cs.init n).run (ops ++ [.setLimit limit]) = some c1 := by
    rw [Cs.run_append, hr]; simp [Cs.Cs.run, Cs.Cs.step, a1]
  have hsub : s.cs.table.length ≤ limit → c1.table = s.cs.table := by
    intro hle
    unfold Cs.Cs.setLimit Cs.Cs.evictEntries at a1
    simp only at a1
    split at a1
    · rw [Cs.lruEvict.eq_def] at a1; dsimp only at a1; rw [if_neg (by omega)] at a1; cases a1; rfl
    · rw [Cs.PFifo.evict.eq_def] at a1; dsimp only at a1; rw [if_neg (by omega)] at a1; cases a1; rfl
  have hsub1 : ∀ x ∈ c1.table, x ∈ s.cs.table := fun x hx => ((a8 x).1 hx).1
  have hcap := a2.cap
  cases policy with
  | none =>
    exact ⟨c1, c1, a1, rfl, ⟨n, _, (by simpa [or_imp, forall_and] using ⟨hw, trivial⟩), hr1⟩, a3, (by rw [← a3]; exact hcap), hsub1, hsub, a5, a6, a7⟩
  | some k =>
    obtain ⟨c2, b1, b2, b3, b4, b5, b6, b7⟩ := Cs.setPolicy_spec a2 k
    have hr2 : (Cs.init n).run ((ops ++ [.setLimit limit]) ++ [.setPolicy k]) = some c2 := by
      rw [Cs.run_append, hr1]; simp [Cs.Cs.run, Cs.Cs.step, b1]
    refine ⟨c1, c2, a1, b1, ⟨n, _, (by simpa [or_imp, forall_and] using ⟨hw, trivial, trivial⟩), hr2⟩, b4.trans a3, (by rw [b3, ← a3]; exact hcap), (by rw [b3]; exact hsub1),
      (by rw [b3]; exact hsub), b6.trans a5, b7.trans a6, ?_⟩
    dsimp only
    by_cases ht : c2.table = []
    · rw [if_pos ht]
      rw [b3] at ht
      unfold Cs.Cs.setPolicy at b1
      rw [if_pos (by rw [ht]; rfl)] at b1
      obtain ⟨c3, ev3, d1, -, -, -, -, -, d7, -⟩ := Cs.setLimit_spec (s := { c1 with policy := Cs.Policy.fresh k }) (log := log)
        ⟨a2.sorted, a2.cap, by simp only [ht]; exact Cs.fresh_polInv k _ _⟩ c1.limit
      rw [d1] at b1; cases b1
      rw [d7]
      cases k <;> rfl
    · rw [if_neg ht]
      rw [b3] at ht
      unfold Cs.Cs.setPolicy at b1
      rw [if_neg (by intro h; exact ht (List.length_eq_zero_iff.1 h))] at b1
      cases b1
      exact a7

theorem strategySection_dry (t : Tb.Tables) : strategySection e n true t = some (t, (readChoices e n.kids []).isSome) := by
  unfold strategySection
  cases readChoices e n.kids [] <;> rfl

/-- A dry run of section `tables`. -/
theorem tables_dry (e : Env Cert F) (n : Node) (s : St Cert F) :
    ∃ ok, tablesSection e n true s = some (s, ok) ∧ (ok = true ↔ TablesWellFormed e n) := by
  unfold tablesSection
  cases h1 : readOpt (n.child "cs_max_packets") defaultCsMaxPackets (e.num sizeMax) with
  | none =>
    refine ⟨false, rfl, by simp; intro h; obtain ⟨v, hv⟩ := h.limit; rw [← limit_iff, h1] at hv; cases hv⟩
  | some limit =>
    dsimp only
    cases h2 : readOpt (n.child "cs_policy") none (fun x => (csPolicy x).map some) with
    | none =>
      refine ⟨false, rfl, by simp; intro h; obtain ⟨v, hv⟩ := h.policy; rw [← policy_iff, h2] at hv; cases hv⟩
    | some policy =>
      dsimp only
      cases h3 : readOpt (n.child "cs_unsolicited_policy") defaultUnsolicited unsolicitedPolicy with
      | none =>
        refine ⟨false, rfl, by simp; intro h; obtain ⟨v, hv⟩ := h.unsolicited; rw [← unsolicited_iff, h3] at hv; cases hv⟩
      | some uns =>
        dsimp only
        have hwf : (∀ x, n.child "strategy_choice" = some x → (readChoices e x.kids []).isSome = true) ↔ TablesWellFormed e n := by
          constructor
          · intro h
            refine ⟨⟨_, (limit_iff ..).1 h1⟩, ⟨_, (policy_iff ..).1 h2⟩, ⟨_, (unsolicited_iff ..).1 h3⟩, ?_, ?_⟩
            · intro x hx y hy
              rw [first_iff] at hx
              obtain ⟨p, st, a, b, c, _⟩ := ((readChoices_isSome e x.kids []).1 (h x hx)).1 y hy
              exact ⟨p, st, a, b, c⟩
            · intro x hx
              rw [first_iff] at hx
              exact ((readChoices_isSome e x.kids []).1 (h x hx)).2
          · intro h x hx
            rw [readChoices_isSome]
            refine ⟨fun y hy => ?_, h.once x ((first_iff ..).2 hx)⟩
            obtain ⟨p, st, a, b, c⟩ := h.names x ((first_iff ..).2 hx) y hy
            exact ⟨p, st, a, b, c, by simp⟩
        cases h4 : n.child "strategy_choice" with
        | none =>
          refine ⟨true, ?_, by simp [← hwf, h4]⟩
          dsimp only
          cases n.child "network_region" <;> rfl
        | some x =>
          dsimp only
          rw [strategySection_dry]
          have hx : (readChoices e x.kids []).isSome = true ↔ TablesWellFormed e n := by rw [← hwf, h4]; simp
          cases hb : (readChoices e x.kids []).isSome with
          | false => exact ⟨false, rfl, by rw [← hx, hb]⟩
          | true =>
            refine ⟨true, ?_, by rw [← hx, hb]⟩
            dsimp only
            cases n.child "network_region" <;> rfl

theorem tables_real (hr : Running e d s) (n : Node) :
    ∃ s' ok, tablesSection e n false s = some (s', ok) ∧ Running e d s' ∧ TablesFrame s s' ∧
      (ok = true ↔ TablesWellFormed e n ∧ TablesApplicable e n) ∧
      (¬ TablesWellFormed e n → s' = s) ∧
      (ok = false → s'.cs = s.cs ∧ s'.fw.unsolicited = s.fw.unsolicited ∧ s'.configured = s.configured) ∧
      (ok = true → TablesDone e n s s') := by
  obtain ⟨okd, hdry, hwf⟩ := tables_dry e n s
  have hbad : tablesSection e n false s = some (s, false) → ¬ TablesWellFormed e n →
      ∃ s' ok, tablesSection e n false s = some (s', ok) ∧ Running e d s' ∧ TablesFrame s s' ∧
      (ok = true ↔ TablesWellFormed e n ∧ TablesApplicable e n) ∧
      (¬ TablesWellFormed e n → s' = s) ∧
      (ok = false → s'.cs = s.cs ∧ s'.fw.unsolicited = s.fw.unsolicited ∧ s'.configured = s.configured) ∧
      (ok = true → TablesDone e n s s') := by
    intro h1 h2
    exact ⟨s, false, h1, hr, ⟨rfl, rfl, rfl, rfl⟩, by simp [h2], fun _ => rfl, fun _ => ⟨rfl, rfl, rfl⟩, by simp⟩
  cases h1 : readOpt (n.child "cs_max_packets") defaultCsMaxPackets (e.num sizeMax) with
  | none =>
    refine hbad (by unfold tablesSection; rw [h1]) ?_
    intro h; obtain ⟨v, hv⟩ := h.limit; rw [← limit_iff, h1] at hv; cases hv
  | some limit =>
  cases h2 : readOpt (n.child "cs_policy") none (fun x => (csPolicy x).map some) with
  | none =>
    refine hbad (by unfold tablesSection; rw [h1]; dsimp only; rw [h2]) ?_
    intro h; obtain ⟨v, hv⟩ := h.policy; rw [← policy_iff, h2] at hv; cases hv
  | some policy =>
  cases h3 : readOpt (n.child "cs_unsolicited_policy") defaultUnsolicited unsolicitedPolicy with
  | none =>
    refine hbad (by unfold tablesSection; rw [h1]; dsimp only; rw [h2]; dsimp only; rw [h3]) ?_
    intro h; obtain ⟨v, hv⟩ := h.unsolicited; rw [← unsolicited_iff, h3] at hv; cases hv
  | some uns =>
  -- the strategy choices
  have hstr : (∃ x, n.child "strategy_choice" = some x ∧ readChoices e x.kids [] = none) ∨
      ((∀ x, n.child "strategy_choice" = some x → (readChoices e x.kids []).isSome) ∧
      ∃ t okt, (match n.child "strategy_choice" with | none => some (s.tb, true) | some x => strategySection e x false s.tb) = some (t, okt) ∧
      Tb.Reachable e.tb d t ∧ (∀ p, (∀ st, ¬ Chooses e n p st) → Tb.scAt e.tb t p = Tb.scAt e.tb s.tb p) ∧
      (okt = true ↔ ∀ p st, Chooses e n p st → p.length ≤ 32 ∧ ∃ inst, e.tb.create st = .ok inst) ∧
      (okt = true → ∀ p st, Chooses e n p st → ∃ inst, e.tb.create st = .ok inst ∧ Tb.scAt e.tb t p = some inst)) := by
    cases h4 : n.child "strategy_choice" with
    | none =>
      refine Or.inr ⟨by simp, s.tb, true, rfl, hr.tb, fun _ _ => rfl, ?_, ?_⟩
      · simp only [true_iff]; rintro p st ⟨x, hx, _⟩; rw [first_iff, h4] at hx; cases hx
      · rintro _ p st ⟨x, hx, _⟩; rw [first_iff, h4] at hx; cases hx
    | some x =>
      cases hrc : readChoices e x.kids [] with
      | none => exact Or.inl ⟨x, rfl, hrc⟩
      | some m =>
        right
        obtain ⟨hm1, hm2⟩ := readChoices_spec e x.kids [] m List.Pairwise.nil hrc
        have hch : ∀ p st, Chooses e n p st ↔ (p, st) ∈ m := by
          intro p st
          rw [hm2]
          simp only [List.not_mem_nil, false_or]
          constructor
          · rintro ⟨x', hx', hy⟩; rw [first_iff, h4] at hx'; cases hx'; exact hy
          · intro hy; exact ⟨x, (first_iff ..).2 h4, hy⟩
        obtain ⟨t, okt, a1, a2, a3, a4, a5⟩ := applyChoices_spec m s.tb hr.tb hm1
        refine ⟨by simp [hrc], t, okt, ?_, a2, ?_, ?_, ?_⟩
        · simp only [strategySection, hrc]; exact a1
        · intro p hp
          exact a3 p (fun z hz hzp => hp z.2 ((hch p z.2).2 (by rw [← hzp]; exact hz)))
        · rw [a4]
          constructor
          · intro h p st hc; exact h (p, st) ((hch p st).1 hc)
          · intro h z hz; exact h z.1 z.2 ((hch z.1 z.2).2 hz)
        · intro hok p st hc; exact a5 hok (p, st) ((hch p st).1 hc)
  rcases hstr with ⟨x, hx, hrc⟩ | ⟨hall, t, okt, b1, b2, b3, b4, b5⟩
  · refine hbad ?_ ?_
    · unfold tablesSection; rw [h1]; dsimp only; rw [h2]; dsimp only; rw [h3]; dsimp only; rw [hx]; dsimp only
      simp only [strategySection, hrc]
    · intro h
      have := (readChoices_isSome e x.kids []).2 ⟨fun y hy => (by obtain ⟨p, st, a, b, c⟩ := h.names x ((first_iff ..).2 hx) y hy; exact ⟨p, st, a, b, c, by simp⟩), h.once x ((first_iff ..).2 hx)⟩
      rw [hrc] at this; cases this
  have hW : TablesWellFormed e n := by
    refine ⟨⟨_, (limit_iff ..).1 h1⟩, ⟨_, (policy_iff ..).1 h2⟩, ⟨_, (unsolicited_iff ..).1 h3⟩, ?_, ?_⟩
    · intro x hx y hy
      rw [first_iff] at hx
      obtain ⟨p, st, a, b, c, _⟩ := ((readChoices_isSome e x.kids []).1 (hall x hx)).1 y hy
      exact ⟨p, st, a, b, c⟩
    · intro x hx
      rw [first_iff] at hx
      exact ((readChoices_isSome e x.kids []).1 (hall x hx)).2
  have hreg : ∀ p st, Chooses e n p st → e.tb.create st ≠ .notRegistered := by
    rintro p st ⟨x, hx, y, hy, hp, hst⟩
    obtain ⟨p', st', a, b, c⟩ := hW.names x hx y hy
    rw [hst] at b; cases b; exact c
  have hunf : tablesSection e n false s =
      (match (match n.child "strategy_choice" with | none => some (s.tb, true) | some x => strategySection e x false s.tb) with
        | none => none
        | some (tb, false) => some ({ s with tb := tb }, false)
        | some (tb, true) =>
          let s := { s with tb := tb }
          match (match n.child "network_region" with
                 | none => (s.fw.regions, true)
                 | some x => regionSection e x false s.fw.regions) with
          | (r, false) => some ({ s with fw := { s.fw with regions := r } }, false)
          | (r, true) =>
            let s := { s with fw := { s.fw with regions := r } }
            if false then some (s, true)
            else
              match s.cs.setLimit limit with
              | none => none
              | some cs =>
                match replacePolicy cs policy with
                | none => none
                | some cs => some ({ s with cs := cs, fw := { s.fw with unsolicited := uns }, configured := true }, true)) := by
    unfold tablesSection; rw [h1]; dsimp only; rw [h2]; dsimp only; rw [h3]; rfl
  rw [hunf, b1]
  cases okt with
  | false =>
    refine ⟨{ s with tb := t }, false, rfl, ⟨hr.cs, b2⟩, ⟨rfl, rfl, rfl, rfl⟩, ?_, fun h => absurd hW h, fun _ => ⟨rfl, rfl, rfl⟩, by simp⟩
    simp only [Bool.false_eq_true, false_iff] at b4 ⊢
    rintro ⟨_, ha⟩
    refine b4 (fun p st hc => ⟨ha.depth p st hc, ?_⟩)
    cases hcr : e.tb.create st with
    | notRegistered => exact absurd hcr (hreg p st hc)
    | exception => exact absurd hcr (ha.create p st hc)
    | ok inst => exact ⟨inst, rfl⟩
  | true =>
    simp only [true_iff] at b4
    -- the regions
    have hrg : ∃ r okr, (match n.child "network_region" with | none => (s.fw.regions, true) | some x => regionSection e x false s.fw.regions) = (r, okr) ∧
        (okr = true ↔ ∀ x, First n "network_region" x → ∀ y ∈ x.kids, (e.name y.1).isSome) ∧
        (okr = true → (Lacks n "network_region" → r = s.fw.regions) ∧
          ∀ x, First n "network_region" x → ∀ m, m ∈ r ↔ RegionNames e x m) := by
      simp only [first_iff, lacks_iff]
      cases h6 : n.child "network_region" with
      | none => exact ⟨s.fw.regions, true, rfl, by simp, fun _ => ⟨fun _ => rfl, by simp⟩⟩
      | some x =>
        obtain ⟨c1, c2⟩ := insertRegions_spec e.name x.kids []
        refine ⟨(insertRegions e.name [] x.kids).1, (insertRegions e.name [] x.kids).2, rfl, ?_, ?_⟩
        · rw [c1]; simp
        · intro hok
          refine ⟨by simp, ?_⟩
          intro x' hx' m
          cases hx'
          rw [c2 hok m]
          simp [RegionNames]
    obtain ⟨r, okr, d1, d2, d3⟩ := hrg
    dsimp only
    rw [d1]
    cases okr with
    | false =>
      refine ⟨_, false, rfl, ⟨hr.cs, b2⟩, ⟨rfl, rfl, rfl, rfl⟩, ?_, fun h => absurd hW h, fun _ => ⟨rfl, rfl, rfl⟩, by simp⟩
      simp only [Bool.false_eq_true, false_iff] at d2 ⊢
      rintro ⟨_, ha⟩
      exact d2 ha.regions
    | true =>
      obtain ⟨cs1, cs2, f1, f2, f3, f4, f5, f6, f7, f8, f9, f10⟩ := cs_config hr.cs limit policy
      dsimp only
      rw [if_neg (by simp), f1]
      dsimp only
      rw [f2]
      refine ⟨_, true, rfl, ⟨f3, b2⟩, ⟨rfl, rfl, rfl, rfl⟩, ?_, fun h => absurd hW h, by simp, fun _ => ?_⟩
      · simp only [true_iff]
        refine ⟨hW, fun p st hc => (b4 p st hc).1, ?_, d2.1 rfl⟩
        intro p st hc
        obtain ⟨inst, hi⟩ := (b4 p st hc).2
        rw [hi]; simp
      · exact ⟨(by dsimp only; rw [f4]; exact (limit_iff ..).1 h1), (by dsimp only; rw [f4]; exact f5), ⟨f6, (by dsimp only; rw [f4]; exact f7)⟩,
          ⟨policy, (policy_iff ..).1 h2, (by cases policy <;> exact f10)⟩, ⟨f8, f9⟩, (unsolicited_iff ..).1 h3, b5 rfl, b3, d3 rfl, rfl⟩

end Verif.Cf
