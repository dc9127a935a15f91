import Verif.Cs.Step

namespace Verif.Cs
open Std

theorem run_append (s : Cs) (a b : List Op) :
    s.run (a ++ b) = (s.run a).bind (fun s' => s'.run b) := by
  induction a generalizing s with
  | nil => rfl
  | cons op a ih =>
    simp only [List.cons_append, Cs.run]
    cases h : s.step op with
    | none => rfl
    | some r => exact ih r.1

theorem run_snoc {s s' : Cs} {ops : List Op} {op : Op} (h : s.run (ops ++ [op]) = some s') :
    ∃ s1 out, s.run ops = some s1 ∧ s1.step op = some (s', out) := by
  rw [run_append] at h
  cases h1 : s.run ops with
  | none => simp [h1] at h
  | some s1 =>
    simp only [h1, Option.bind_some, Cs.run] at h
    cases h2 : s1.step op with
    | none => simp [h2] at h
    | some r =>
      simp only [h2, Option.some.injEq] at h
      exact ⟨s1, r.2, rfl, by rw [h2, ← h]⟩

/-! ### matching -/

theorem matchesData_iff {i : Interest} {d : Data} (hd : d.digest.length = 32) :
    i.matchesData d = true ↔ Matches i d := by
  unfold Interest.matchesData Matches
  have hfl : d.fullName.length = d.name.length + 1 := by simp [Data.fullName]
  have hfd : d.fullName.getLast? = some d.digestComp := by simp [Data.fullName]
  have hdi : d.digestComp.isImplicitDigest = true := isImplicitDigest_iff.2 ⟨rfl, hd⟩
  by_cases hl : i.name.length = d.name.length + 1
  · simp only [if_pos hl]
    constructor
    · intro h
      split at h
      · simp only [Bool.and_eq_true, beq_iff_eq] at h; exact Or.inl h.2
      · cases h
    · rintro (h | h | ⟨_, h⟩)
      · rw [h, hfd]; simp [hdi]
      · rw [h] at hl; omega
      · have := h.length_le; omega
  · simp only [if_neg hl]
    by_cases hc : i.canBePrefix = true
    · simp only [hc, if_true, Name.isPrefixOf_iff, true_and]
      constructor
      · intro h; exact Or.inr (Or.inr h)
      · rintro (h | h | h)
        · rw [h] at hl; exact absurd hfl hl
        · rw [h]; exact List.prefix_refl _
        · exact h
    · have hc' : i.canBePrefix = false := by simpa using hc
      simp only [hc', Bool.false_eq_true, if_false, beq_iff_eq, false_and, or_false]
      constructor
      · intro h; exact Or.inr h
      · rintro (h | h)
        · rw [h] at hl; exact absurd hfl hl
        · exact h

theorem canSatisfy_iff {now : Nat} {i : Interest} {e : Entry} (hd : e.data.digest.length = 32) :
    e.canSatisfy now i = true ↔ Usable now i e := by
  unfold Entry.canSatisfy Usable
  rw [← matchesData_iff hd]
  cases h1 : i.matchesData e.data <;> cases h2 : i.mustBeFresh <;> simp [Entry.isFresh]

theorem matches_prefix {i : Interest} {d : Data} (h : Matches i d) : i.name <+: d.fullName := by
  rcases h with h | h | ⟨_, h⟩
  · rw [h]; exact List.prefix_refl _
  · rw [h]; exact List.prefix_append _ _
  · exact h.trans (List.prefix_append _ _)

theorem cmpData_lt_iff {a b : Data} : cmpData a b = .lt ↔ DataLt a b := by
  unfold cmpData DataLt
  cases h : Name.cmp a.name b.name with
  | lt => simp
  | gt =>
    simp only [reduceCtorEq, false_or, false_iff, not_and]
    intro h'; rw [h', Name.cmp_self] at h; cases h
  | eq =>
    have := Name.cmp_eq.1 h
    simp [this]

/-! ### stored packets are the inserted ones -/

/-- Where a stored entry comes from. -/
def Prov (n : Nat) (ops : List Op) (e : Entry) : Prop :=
  (∃ u, Op.insert e.data u ∈ ops) ∧
  ∃ pre d0 u post s0, ops = pre ++ Op.insert d0 u :: post ∧ keyOf d0 = e.key ∧
    (init n).run pre = some s0 ∧ Admitted s0 d0 ∧ e.freshUntil = s0.now + e.data.freshness ∧
    (∀ a d1 u1 b s1, post = a ++ Op.insert d1 u1 :: b → keyOf d1 = e.key →
      (init n).run (pre ++ Op.insert d0 u :: a) = some s1 → ¬ Admitted s1 d1) ∧
    (∀ a b s1, post = a ++ b → (init n).run (pre ++ Op.insert d0 u :: a) = some s1 →
      ∃ e1 ∈ s1.table, e1.data = e.data)

theorem Prov.snoc {n : Nat} {ops : List Op} {e : Entry} {op : Op} {s s' : Cs} {out : Out}
    (h : Prov n ops e) (hr : (init n).run ops = some s) (hstep : s.step op = some (s', out)) (he : e ∈ s'.table)
    (hop : ∀ d u, op = .insert d u → keyOf d = e.key → ¬ Admitted s d) : Prov n (ops ++ [op]) e := by
  obtain ⟨⟨u, h1⟩, pre, d0, u0, post, s0, h2, h3, h4, h5, h6, h7, h8⟩ := h
  have hr' : (init n).run (ops ++ [op]) = some s' := by
    rw [run_append, hr]; simp [Cs.run, hstep]
  refine ⟨⟨u, by simp [h1]⟩, pre, d0, u0, post ++ [op], s0, by simp [h2], h3, h4, h5, h6, ?_, ?_⟩
  · intro a d1 u1 b s1 hp hk hr1
    rcases List.eq_nil_or_concat b with rfl | ⟨b', x, rfl⟩
    · have hp' : post ++ [op] = a ++ [Op.insert d1 u1] := by simpa using hp
      have ⟨e1, e2⟩ := List.append_inj' hp' rfl
      subst e1
      simp only [List.cons.injEq, and_true] at e2
      have : s1 = s := by
        have : (init n).run ops = some s1 := by rw [h2]; exact hr1
        rw [hr] at this; simpa using this.symm
      subst this
      exact hop d1 u1 e2 hk
    · have hp' : post ++ [op] = (a ++ Op.insert d1 u1 :: b') ++ [x] := by simpa using hp
      have ⟨e1, _⟩ := List.append_inj' hp' rfl
      exact h7 a d1 u1 b' s1 e1 hk hr1
  · intro a b s1 hp hr1
    rcases List.eq_nil_or_concat b with rfl | ⟨b', x, rfl⟩
    · have hp' : post ++ [op] = a := by simpa using hp
      subst hp'
      have : s1 = s' := by
        have : (init n).run (ops ++ [op]) = some s1 := by rw [h2]; simpa using hr1
        rw [hr'] at this; simpa using this.symm
      subst this
      exact ⟨e, he, rfl⟩
    · have hp' : post ++ [op] = (a ++ b') ++ [x] := by simpa using hp
      have ⟨e1, _⟩ := List.append_inj' hp' rfl
      exact h8 a b' s1 e1 hr1

theorem prov_run {n : Nat} (k : Nat) : ∀ {ops : List Op} {s : Cs}, ops.length = k → (∀ op ∈ ops, OpWF op) →
    (init n).run ops = some s → ∀ e ∈ s.table, Prov n ops e := by
  induction k with
  | zero =>
    intro ops s hl _ hr e he
    rw [List.length_eq_zero_iff.1 hl] at hr
    simp only [Cs.run, Option.some.injEq] at hr
    subst hr
    cases he
  | succ k ih =>
    intro ops s hl hw hr e he
    rcases List.eq_nil_or_concat ops with rfl | ⟨ops', op, rfl⟩
    · simp at hl
    · rw [List.concat_eq_append] at *
      have hw' : ∀ o ∈ ops', OpWF o := fun o ho => hw o (by simp [ho])
      obtain ⟨s1, out, hr1, hstep⟩ := run_snoc hr
      obtain ⟨s1', log, hr1', -, hi⟩ := run_inv (n := n) hw'
      rw [hr1] at hr1'; simp only [Option.some.injEq] at hr1'; subst hr1'
      have hsub := step_table_sub hi (hw op (by simp)) hstep e he
      have hl' : ops'.length = k := by simpa using hl
      by_cases hold : e ∈ s1.table ∧ ∀ d u, op = .insert d u → keyOf d = e.key → ¬ Admitted s1 d
      · exact (ih hl' hw' hr1 e hold.1).snoc hr1 hstep he hold.2
      · -- the entry was inserted or refreshed by this operation
        cases op with
        | insert d u =>
          simp only [Unlimited] at hsub
          by_cases ha : Admitted s1 d
          · rw [if_pos ha] at hsub
            rcases hsub with ⟨h1, h2⟩ | heq
            · exfalso; apply hold
              refine ⟨h1, ?_⟩
              rintro d' u' h3 h4
              simp only [Op.insert.injEq] at h3
              rw [h3.1] at h2; exact absurd h4.symm h2
            · have hkey : keyOf d = e.key := by rw [heq]; exact (preInsert_spec hi.sorted).2.2.1.symm
              refine ⟨?_, ops', d, u, [], s1, rfl, hkey, hr1, ha, by rw [heq]; exact inserted_fresh s1 d u, ?_, ?_⟩
              · rcases inserted_data s1 d u with h | ⟨e', h1, h2⟩
                · rw [heq, h]; exact ⟨u, by simp⟩
                · obtain ⟨⟨u', h3⟩, _⟩ := ih hl' hw' hr1 e' h1
                  rw [heq, h2]; exact ⟨u', by simp [h3]⟩
              · intro a d1 u1 b s2 h; simp at h
              · intro a b s2 h hr2
                have : a = [] ∧ b = [] := by simpa using h
                rw [this.1, hr] at hr2
                simp only [Option.some.injEq] at hr2; subst hr2
                exact ⟨e, he, rfl⟩
          · rw [if_neg ha] at hsub
            exfalso; apply hold
            refine ⟨hsub, ?_⟩
            rintro d' u' h3 h4
            simp only [Op.insert.injEq] at h3
            rw [← h3.1]; exact ha
        | _ => exact absurd ⟨hsub, by intro d u h; cases h⟩ hold

/-! ### eviction -/

theorem lru_evicted {s s' : Cs} {log : List Key} (hi : Inv s log) {op : Op} {out : Out} (hw : OpWF op)
    (hk : s.kind = .lru) (h : s.step op = some (s', out)) {e : Entry} (he : Evicted s op s' e) :
    ∃ q t ev q', PolInv (.lru q) t s.now (log ++ touched s op out) ∧ q = ev ++ q' ∧ e.key ∈ ev ∧
      ∀ e' ∈ s'.table, e'.key ∈ q' := by
  obtain ⟨he1, he2, he3⟩ := he
  cases op with
  | insert d u =>
    simp only [Unlimited] at he2
    by_cases ha : Admitted s d
    · rw [if_pos ha] at he2
      obtain ⟨s1, ev, h1, h2, -, -, -, -, hk1, h3, -, -, h4⟩ := insert_spec hi d u ha
      simp only [Cs.step, h1, Option.map_some, Option.some.injEq, Prod.mk.injEq] at h
      obtain ⟨rfl, -⟩ := h
      cases hp : s1.policy with
      | pfifo p => rw [hk] at hk1; simp [Cs.kind, hp] at hk1
      | lru q' =>
        rw [hp] at h4
        obtain ⟨q, g1, g2⟩ := h4
        refine ⟨q, _, ev, q', by simpa [touched, ha] using g1, g2, ?_, ?_⟩
        · exact Decidable.byContradiction fun hc => he3 ((h3 e).2 ⟨he2, hc⟩)
        · intro e' he'
          have := h2.pol; rw [hp] at this
          exact (this.1.mem _).2 (mem_keys_of_mem he')
    · rw [if_neg ha] at he2
      simp only [Cs.step, insert_eq, ha, if_false, Option.map_some, Option.some.injEq, Prod.mk.injEq] at h
      obtain ⟨rfl, -⟩ := h
      exact absurd he2 he3
  | setLimit n =>
    obtain ⟨s1, ev, h1, h2, -, -, -, -, hk1, h3, -, h4⟩ := setLimit_spec hi n
    simp only [Cs.step, h1, Option.map_some, Option.some.injEq, Prod.mk.injEq] at h
    obtain ⟨rfl, -⟩ := h
    cases hp : s.policy with
    | pfifo p => simp [Cs.kind, hp] at hk
    | lru q =>
      rw [hp] at h4
      cases hp1 : s1.policy with
      | pfifo p => rw [hp1] at h4; exact h4.elim
      | lru q' =>
        rw [hp1] at h4
        have := hi.pol; rw [hp] at this
        refine ⟨q, _, ev, q', by simpa [touched] using this, h4, ?_, ?_⟩
        · exact Decidable.byContradiction fun hc => he3 ((h3 e).2 ⟨he2, hc⟩)
        · intro e' he'
          have := h2.pol; rw [hp1] at this
          exact (this.1.mem _).2 (mem_keys_of_mem he')
  | erase p n => exact absurd rfl (he1 p n)
  | find i =>
    obtain ⟨s1, r, h1, -, h2, -⟩ := find_spec hi hw
    simp only [Cs.step, h1, Option.map_some, Option.some.injEq, Prod.mk.injEq] at h
    obtain ⟨rfl, -⟩ := h
    rw [h2] at he3; exact absurd he2 he3
  | setPolicy k =>
    obtain ⟨s1, h1, -, h2, -⟩ := setPolicy_spec hi k
    simp only [Cs.step, h1, Option.map_some, Option.some.injEq, Prod.mk.injEq] at h
    obtain ⟨rfl, -⟩ := h
    rw [h2] at he3; exact absurd he2 he3
  | enableAdmit b =>
    simp only [Cs.step, Option.some.injEq, Prod.mk.injEq] at h
    obtain ⟨rfl, -⟩ := h
    exact absurd he2 he3
  | enableServe b =>
    simp only [Cs.step, Option.some.injEq, Prod.mk.injEq] at h
    obtain ⟨rfl, -⟩ := h
    exact absurd he2 he3
  | tick dt =>
    simp only [Cs.step, Option.some.injEq, Prod.mk.injEq] at h
    obtain ⟨rfl, -⟩ := h
    exact absurd he2 he3
  | fire id =>
    obtain ⟨s1, h1, -, h2, -⟩ := fire_spec hi id
    simp only [Cs.step, h1, Option.map_some, Option.some.injEq, Prod.mk.injEq] at h
    obtain ⟨rfl, -⟩ := h
    rw [h2] at he3; exact absurd he2 he3

theorem pfifo_evicted {s s' : Cs} {log : List Key} (hi : Inv s log) {op : Op} {out : Out} (hw : OpWF op)
    (hk : s.kind = .pfifo) (h : s.step op = some (s', out)) {e : Entry} (he : Evicted s op s' e) :
    ∃ p t ev p', PolInv (.pfifo p) t s.now (log ++ touched s op out) ∧ p.order = ev ++ PFifo.order p' ∧ e.key ∈ ev ∧
      e ∈ t ∧ (∀ e' ∈ s'.table, e' ∈ t ∧ e'.key ∈ PFifo.order p') ∧ (Prompt s → ∀ v ∈ p.events, s.now ≤ v.2.2) := by
  obtain ⟨he1, he2, he3⟩ := he
  cases op with
  | insert d u =>
    simp only [Unlimited] at he2
    by_cases ha : Admitted s d
    · rw [if_pos ha] at he2
      obtain ⟨s1, ev, h1, h2, -, -, -, -, hk1, h3, -, -, h4⟩ := insert_spec hi d u ha
      simp only [Cs.step, h1, Option.map_some, Option.some.injEq, Prod.mk.injEq] at h
      obtain ⟨rfl, -⟩ := h
      cases hp : s1.policy with
      | lru p => rw [hk] at hk1; simp [Cs.kind, hp] at hk1
      | pfifo p' =>
        rw [hp] at h4
        obtain ⟨p, g1, g2, g3, g4, g5, g6⟩ := h4
        have hpre := (preInsert_spec (d := d) (u := u) hi.sorted).2.1
        refine ⟨p, _, ev, p', by simpa [touched, ha] using g1, g2, ?_, (hpre e).2 he2, ?_, ?_⟩
        · exact Decidable.byContradiction fun hc => he3 ((h3 e).2 ⟨he2, hc⟩)
        · intro e' he'
          have := h2.pol; rw [hp] at this
          exact ⟨(hpre e').2 ((h3 e').1 he').1, (mem_order this.1 _).2 (mem_keys_of_mem he')⟩
        · intro hpr v hv
          by_cases hvk : v.2.1 = keyOf d
          · exact g6 v hv hvk
          · obtain ⟨p0, hp0, hv0⟩ := g5 v hv hvk
            unfold Prompt at hpr; rw [hp0] at hpr
            exact hpr v hv0
    · rw [if_neg ha] at he2
      simp only [Cs.step, insert_eq, ha, if_false, Option.map_some, Option.some.injEq, Prod.mk.injEq] at h
      obtain ⟨rfl, -⟩ := h
      exact absurd he2 he3
  | setLimit n =>
    obtain ⟨s1, ev, h1, h2, -, -, -, -, hk1, h3, -, h4⟩ := setLimit_spec hi n
    simp only [Cs.step, h1, Option.map_some, Option.some.injEq, Prod.mk.injEq] at h
    obtain ⟨rfl, -⟩ := h
    cases hp : s.policy with
    | lru p => simp [Cs.kind, hp] at hk
    | pfifo p =>
      rw [hp] at h4
      cases hp1 : s1.policy with
      | lru p => rw [hp1] at h4; exact h4.elim
      | pfifo p' =>
        rw [hp1] at h4
        obtain ⟨g1, g2, g3⟩ := h4
        have := hi.pol; rw [hp] at this
        refine ⟨p, _, ev, p', by simpa [touched] using this, g1, ?_, he2, ?_, ?_⟩
        · exact Decidable.byContradiction fun hc => he3 ((h3 e).2 ⟨he2, hc⟩)
        · intro e' he'
          have := h2.pol; rw [hp1] at this
          exact ⟨((h3 e').1 he').1, (mem_order this.1 _).2 (mem_keys_of_mem he')⟩
        · intro hpr v hv
          unfold Prompt at hpr; rw [hp] at hpr
          exact hpr v hv
  | erase p n => exact absurd rfl (he1 p n)
  | find i =>
    obtain ⟨s1, r, h1, -, h2, -⟩ := find_spec hi hw
    simp only [Cs.step, h1, Option.map_some, Option.some.injEq, Prod.mk.injEq] at h
    obtain ⟨rfl, -⟩ := h
    rw [h2] at he3; exact absurd he2 he3
  | setPolicy k =>
    obtain ⟨s1, h1, -, h2, -⟩ := setPolicy_spec hi k
    simp only [Cs.step, h1, Option.map_some, Option.some.injEq, Prod.mk.injEq] at h
    obtain ⟨rfl, -⟩ := h
    rw [h2] at he3; exact absurd he2 he3
  | enableAdmit b =>
    simp only [Cs.step, Option.some.injEq, Prod.mk.injEq] at h
    obtain ⟨rfl, -⟩ := h
    exact absurd he2 he3
  | enableServe b =>
    simp only [Cs.step, Option.some.injEq, Prod.mk.injEq] at h
    obtain ⟨rfl, -⟩ := h
    exact absurd he2 he3
  | tick dt =>
    simp only [Cs.step, Option.some.injEq, Prod.mk.injEq] at h
    obtain ⟨rfl, -⟩ := h
    exact absurd he2 he3
  | fire id =>
    obtain ⟨s1, h1, -, h2, -⟩ := fire_spec hi id
    simp only [Cs.step, h1, Option.map_some, Option.some.injEq, Prod.mk.injEq] at h
    obtain ⟨rfl, -⟩ := h
    rw [h2] at he3; exact absurd he2 he3

def QType.rank : QType → Nat
  | .unsolicited => 0
  | .stale => 1
  | .fifo => 2

/-- The eviction order respects class rank, and inside a class the event log. -/
theorem order_pairwise {p : PFifo} {log : List Key} (hq : ∀ q, QOrd (p.queue q) log) :
    p.order.Pairwise (fun a b => ∃ qa qb, a ∈ p.queue qa ∧ b ∈ p.queue qb ∧ qa.rank ≤ qb.rank ∧
      (qa = qb → TouchedAfter log a b)) := by
  have hin : ∀ q, (p.queue q).Pairwise (fun a b => ∃ qa qb, a ∈ p.queue qa ∧ b ∈ p.queue qb ∧ qa.rank ≤ qb.rank ∧
      (qa = qb → TouchedAfter log a b)) := by
    intro q
    refine (hq q).pw.imp_of_mem ?_
    intro a b ha hb hab
    exact ⟨q, q, ha, hb, Nat.le_refl _, fun _ => hab⟩
  unfold PFifo.order
  refine List.pairwise_append.2 ⟨List.pairwise_append.2 ⟨hin .unsolicited, hin .stale, ?_⟩, hin .fifo, ?_⟩
  · intro a ha b hb
    exact ⟨.unsolicited, .stale, ha, hb, by decide, by intro h; cases h⟩
  · intro a ha b hb
    rcases List.mem_append.1 ha with ha | ha
    · exact ⟨.unsolicited, .fifo, ha, hb, by decide, by intro h; cases h⟩
    · exact ⟨.stale, .fifo, ha, hb, by decide, by intro h; cases h⟩

/-- Class of an entry as the policy sees it. -/
theorem class_of {p : PFifo} {t : Table} {now : Nat} {log : List Key} (h : PolInv (.pfifo p) t now log)
    {e : Entry} (he : e ∈ t) {q : QType} (hq : e.key ∈ p.queue q) :
    match q with
    | .unsolicited => e.unsolicited = true
    | .stale => e.unsolicited = false ∧ e.freshUntil ≤ now
    | .fifo => e.unsolicited = false ∧ ∃ id, (id, e.key, e.freshUntil) ∈ p.events := by
  obtain ⟨id, hid⟩ := (h.1.qInfo q e.key).1 hq
  have := h.2.1 _ _ hid e he rfl
  cases q with
  | unsolicited => exact this
  | stale => exact this
  | fifo => exact ⟨this.1, id, this.2⟩

end Verif.Cs
