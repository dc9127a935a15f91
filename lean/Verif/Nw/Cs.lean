import Verif.Cs.Model

/-
Helper lemmas: what a Content Store holds was put in by an insertion, and what a lookup returns is held and matches. No invariant of
the Content Store is needed.
-/
namespace Verif.Nw

/-- Every packet of `t'` is one of `t`, apart from its flags. -/
def Kept (t t' : Cs.Table) : Prop := ∀ e ∈ t', ∃ e0 ∈ t, e0.data = e.data

theorem Kept.refl (t : Cs.Table) : Kept t t := fun e h => ⟨e, h, rfl⟩

theorem Kept.trans {a b c : Cs.Table} (h : Kept a b) (h' : Kept b c) : Kept a c := by
  intro e he
  obtain ⟨e1, h1, h2⟩ := h' e he
  obtain ⟨e0, h3, h4⟩ := h e1 h1
  exact ⟨e0, h3, h4.trans h2⟩

theorem kept_erase {k : Cs.Key} {t t' : Cs.Table} (h : Cs.tableErase k t = some t') : Kept t t' := by
  unfold Cs.tableErase at h
  split at h
  · cases h
    exact fun e he => ⟨e, List.mem_of_mem_eraseP he, rfl⟩
  · cases h

theorem kept_lru {limit : Nat} : ∀ {q : List Cs.Key} {t : Cs.Table} {r : Cs.Table × List Cs.Key}, Cs.lruEvict limit q t = some r → Kept t r.1 := by
  intro q
  induction q with
  | nil =>
    intro t r h
    unfold Cs.lruEvict at h
    split at h
    · cases h
    · cases h; exact .refl _
  | cons k q ih =>
    intro t r h
    unfold Cs.lruEvict at h
    split at h
    · simp only at h
      split at h
      · cases h
      · rename_i t' ht
        exact (kept_erase ht).trans (ih h)
    · cases h; exact .refl _

theorem kept_evictOne {s : Cs.PFifo} {t : Cs.Table} {r : Cs.Table × Cs.PFifo} (h : s.evictOne t = some r) : Kept t r.1 := by
  unfold Cs.PFifo.evictOne at h
  split at h
  · cases h
  · split at h
    · cases h
    · split at h
      · cases h
      · rename_i t' ht
        cases h
        exact kept_erase ht

theorem kept_pfifo {limit : Nat} : ∀ {n : Nat} {s : Cs.PFifo} {t : Cs.Table} {r : Cs.Table × Cs.PFifo}, Cs.PFifo.evict limit n s t = some r → Kept t r.1 := by
  intro n
  induction n with
  | zero =>
    intro s t r h
    unfold Cs.PFifo.evict at h
    split at h
    · cases h
    · cases h; exact .refl _
  | succ n ih =>
    intro s t r h
    unfold Cs.PFifo.evict at h
    split at h
    · simp only at h
      split at h
      · cases h
      · rename_i t' s' he
        exact (kept_evictOne he).trans (ih h)
    · cases h; exact .refl _

theorem kept_evict {s s' : Cs.Cs} (h : s.evictEntries = some s') : Kept s.table s'.table := by
  unfold Cs.Cs.evictEntries at h
  split at h
  · split at h
    · cases h
    · rename_i he; cases h; exact kept_lru he
  · split at h
    · cases h
    · rename_i he; cases h; exact kept_pfifo he

theorem kept_afterInsert {s s' : Cs.Cs} {k : Cs.Key} (h : s.afterInsert k = some s') : Kept s.table s'.table := by
  unfold Cs.Cs.afterInsert at h
  split at h
  · split at h
    · cases h
    · have := kept_evict h; exact this
  · split at h
    · cases h
    · split at h
      · cases h
      · have := kept_evict h; exact this

theorem table_afterRefresh {s s' : Cs.Cs} {k : Cs.Key} (h : s.afterRefresh k = some s') : s'.table = s.table := by
  unfold Cs.Cs.afterRefresh at h
  split at h
  · split at h
    · cases h
    · cases h; rfl
  · split at h
    · cases h
    · split at h
      · cases h
      · split at h
        · cases h
        · cases h; rfl

theorem table_beforeUse {s s' : Cs.Cs} {k : Cs.Key} (h : s.beforeUse k = some s') : s'.table = s.table := by
  unfold Cs.Cs.beforeUse at h
  split at h
  · split at h
    · cases h
    · cases h; rfl
  · split at h
    · cases h; rfl
    · cases h

theorem table_beforeErase {s s' : Cs.Cs} {k : Cs.Key} (h : s.beforeErase k = some s') : s'.table = s.table := by
  unfold Cs.Cs.beforeErase at h
  split at h
  · cases h; rfl
  · split at h
    · cases h
    · cases h; rfl

theorem mem_emplace {x e : Cs.Entry} {t : Cs.Table} (h : e ∈ (Cs.emplace x t).1) : e = x ∨ e ∈ t := by
  induction t with
  | nil => exact Or.inl (List.mem_singleton.1 h)
  | cons y t ih =>
    unfold Cs.emplace at h
    split at h
    · rcases List.mem_cons.1 h with h | h
      · exact Or.inl h
      · exact Or.inr h
    · exact Or.inr h
    · rcases List.mem_cons.1 h with h | h
      · exact Or.inr (h ▸ List.mem_cons_self ..)
      · rcases ih h with h | h
        · exact Or.inl h
        · exact Or.inr (List.mem_cons_of_mem _ h)

theorem kept_modify {k : Cs.Key} {f : Cs.Entry → Cs.Entry} {t : Cs.Table} (hf : ∀ e, (f e).data = e.data) : Kept t (Cs.modify k f t) := by
  intro e he
  obtain ⟨e0, h0, rfl⟩ := List.mem_map.1 he
  refine ⟨e0, h0, ?_⟩
  split
  · exact (hf e0).symm
  · rfl

/-- Whatever is stored after an insertion was stored before, or is what was inserted. -/
theorem insert_origin {s s' : Cs.Cs} {d : Data} {u : Bool} (h : s.insert d u = some s') :
    ∀ e ∈ s'.table, e.data = d ∨ ∃ e0 ∈ s.table, e0.data = e.data := by
  unfold Cs.Cs.insert at h
  have base : ∀ {t : Cs.Table}, Kept (Cs.emplace ⟨d, u, s.now + d.freshness⟩ s.table).1 t →
      ∀ e ∈ t, e.data = d ∨ ∃ e0 ∈ s.table, e0.data = e.data := by
    intro t ht e he
    obtain ⟨e1, h1, h2⟩ := ht e he
    rcases mem_emplace h1 with rfl | h1
    · exact Or.inl h2.symm
    · exact Or.inr ⟨e1, h1, h2⟩
  split at h
  · cases h; exact fun e he => Or.inr ⟨e, he, rfl⟩
  · split at h
    · cases h; exact fun e he => Or.inr ⟨e, he, rfl⟩
    · simp only at h
      split at h
      · rw [table_afterRefresh h]
        refine base ((kept_modify (f := Cs.Entry.updateFreshUntil s.now) (fun e => rfl)).trans (kept_modify (fun e => ?_)))
        split <;> rfl
      · exact base ((kept_modify (f := Cs.Entry.updateFreshUntil s.now) (fun e => rfl)).trans (kept_afterInsert h))

theorem mem_iterRange {r : Nat × Nat} {t : Cs.Table} {es : List Cs.Entry} (h : Cs.iterRange r t = some es) : ∀ e ∈ es, e ∈ t := by
  unfold Cs.iterRange at h
  split at h
  · cases h
    exact fun e he => List.mem_of_mem_take (List.mem_of_mem_drop he)
  · cases h

/-- A lookup stores nothing, and what it returns is stored and matches. -/
theorem find_origin {s s' : Cs.Cs} {i : Interest} {o : Option Data} (h : s.find i = some (s', o)) :
    s'.table = s.table ∧ ∀ d, o = some d → i.matchesData d = true ∧ ∃ e ∈ s.table, e.data = d := by
  unfold Cs.Cs.find at h
  split at h
  · cases h; exact ⟨rfl, fun d hd => by cases hd⟩
  · split at h
    · cases h
    · rename_i es hes
      split at h
      · cases h; exact ⟨rfl, fun d hd => by cases hd⟩
      · rename_i e he
        split at h
        · cases h
        · rename_i hb
          cases h
          refine ⟨table_beforeUse hb, ?_⟩
          intro d hd
          cases hd
          refine ⟨?_, e, mem_iterRange hes e (List.mem_of_find?_eq_some he), rfl⟩
          have := List.find?_some he
          unfold Cs.Entry.canSatisfy at this
          cases hm : i.matchesData e.data with
          | true => rfl
          | false => rw [hm] at this; simp at this

theorem kept_eraseLoop : ∀ {es : List Cs.Entry} {s : Cs.Cs} {n : Nat} {r : Cs.Cs × Nat}, s.eraseLoop es n = some r → Kept s.table r.1.table := by
  intro es
  induction es with
  | nil => intro s n r h; cases h; exact .refl _
  | cons e es ih =>
    intro s n r h
    unfold Cs.Cs.eraseLoop at h
    split at h
    · cases h
    · rename_i s1 h1
      split at h
      · cases h
      · rename_i t ht
        rw [← table_beforeErase h1]
        exact (kept_erase ht).trans (ih h)

/-- An operation on the Content Store that is not an insertion adds nothing. -/
theorem op_origin {s s' : Cs.Cs} {op : Cs.Op} {o : Cs.Out} (h : s.step op = some (s', o)) (hop : ∀ d u, op ≠ .insert d u) :
    Kept s.table s'.table := by
  cases op with
  | insert d u => exact absurd rfl (hop d u)
  | erase p n =>
    obtain ⟨r, h1, h2⟩ := Option.map_eq_some_iff.1 h
    cases h2
    unfold Cs.Cs.erase at h1
    split at h1
    · cases h1
    · exact kept_eraseLoop h1
  | find i =>
    obtain ⟨r, h1, h2⟩ := Option.map_eq_some_iff.1 h
    cases h2
    rw [(find_origin (o := r.2) h1).1]
    exact .refl _
  | setLimit n =>
    obtain ⟨r, h1, h2⟩ := Option.map_eq_some_iff.1 h
    cases h2
    have := kept_evict h1; exact this
  | setPolicy k =>
    obtain ⟨r, h1, h2⟩ := Option.map_eq_some_iff.1 h
    cases h2
    unfold Cs.Cs.setPolicy at h1
    split at h1
    · have := kept_evict h1; exact this
    · cases h1; exact .refl _
  | enableAdmit b => cases h; exact .refl _
  | enableServe b => cases h; exact .refl _
  | tick dt => cases h; exact .refl _
  | fire id =>
    obtain ⟨r, h1, h2⟩ := Option.map_eq_some_iff.1 h
    cases h2
    unfold Cs.Cs.fire at h1
    split at h1
    · cases h1; exact .refl _
    · split at h1
      · cases h1; exact .refl _
      · split at h1
        · split at h1
          · split at h1
            · cases h1
            · cases h1; exact .refl _
          · cases h1
        · cases h1; exact .refl _

end Verif.Nw
