import Verif.Rib.Table

/-
The tree of entries: every entry's parent is the nearest entry above, and its children are those whose parent it is.
-/
namespace Verif.Rib

structure Tree (t : List Entry) : Prop where
  sorted : Sorted t
  parent : ∀ (n : Name) (e : Entry), get t n = some e → e.parent = parentOf t n
  nodup : ∀ (n : Name) (e : Entry), get t n = some e → e.children.Nodup
  children : ∀ (n : Name) (e : Entry), get t n = some e → ∀ c, c ∈ e.children ↔ (get t c).isSome = true ∧ parentOf t c = some n

theorem Tree.empty : Tree [] := ⟨List.Pairwise.nil, (fun n e h => by cases h), (fun n e h => by cases h), (fun n e h => by cases h)⟩

theorem isSome_put {t : List Entry} {e : Entry} (n : Name) : (get (put t e) n).isSome = (get t n).isSome := by
  rw [get_put]; split <;> simp

theorem Tree.put {t : List Entry} (h : Tree t) {n : Name} {e e' : Entry} (hg : get t n = some e) (hn : e'.name = n)
    (hp : e'.parent = e.parent) (hc : e'.children = e.children) : Tree (put t e') := by
  have hpar := parentOf_congr (t := t) (t' := Rib.put t e') (fun m => isSome_put m)
  have key : ∀ (m : Name) (x : Entry), get (Rib.put t e') m = some x → ∃ y, get t m = some y ∧ x.parent = y.parent ∧ x.children = y.children := by
    intro m x hx
    rw [get_put] at hx
    split at hx
    · rename_i hm
      rw [hm, hn, hg] at hx
      simp only [Option.map_some, Option.some.injEq] at hx
      exact ⟨e, by rw [hm, hn]; exact hg, by rw [← hx]; exact hp, by rw [← hx]; exact hc⟩
    · exact ⟨x, hx, rfl, rfl⟩
  refine ⟨h.sorted.map (fun x _ => put_name e' x), ?_, ?_, ?_⟩
  · intro m x hx
    obtain ⟨y, h1, h2, _⟩ := key m x hx
    rw [h2, h.parent m y h1, hpar]
  · intro m x hx
    obtain ⟨y, h1, _, h3⟩ := key m x hx
    rw [h3]; exact h.nodup m y h1
  · intro m x hx c
    obtain ⟨y, h1, _, h3⟩ := key m x hx
    rw [h3, h.children m y h1 c, isSome_put, hpar]

/-! ### Adding a name -/

theorem parentOf_insert {t t1 : List Entry} {n : Name} (hn : get t n = none)
    (h1 : ∀ q, (get t1 q).isSome = true ↔ q = n ∨ (get t q).isSome = true) (m : Name) :
    parentOf t1 m = if n <+: m ∧ m ≠ n ∧ parentOf t m = parentOf t n then some n else parentOf t m := by
  have hnone : ∀ q, q ≠ n → get t q = none → get t1 q = none := by
    intro q hq h
    cases hg : get t1 q with
    | none => rfl
    | some x =>
      rcases (h1 q).1 (by rw [hg]; rfl) with h' | h'
      · exact absurd h' hq
      · rw [h] at h'; cases h'
  have hne : ∀ p, (get t p).isSome = true → p ≠ n := fun p hp hc => by rw [hc, hn] at hp; cases hp
  by_cases hpre : n <+: m ∧ m ≠ n
  · obtain ⟨h2, h3⟩ := hpre
    have hlt : n.length < m.length := by
      rcases Nat.lt_or_ge n.length m.length with h | h
      · exact h
      · exact absurd (prefix_eq_of_length h2 h).symm h3
    by_cases heq : parentOf t m = parentOf t n
    · rw [if_pos ⟨h2, h3, heq⟩]
      refine parentOf_eq_some ((h1 n).2 (.inl rfl)) h2 hlt (fun q k1 k2 k3 => ?_)
      refine hnone q (fun hc => by rw [hc] at k3; omega) ?_
      cases hp : parentOf t m with
      | none => exact parentOf_none hp q k1 k2
      | some p =>
        have hpn : parentOf t n = some p := by rw [← heq, hp]
        obtain ⟨_, _, k6, _⟩ := parentOf_some hpn
        exact (parentOf_some hp).2.2.2 q k1 k2 (by omega)
    · rw [if_neg (fun hc => heq hc.2.2)]
      cases hp : parentOf t m with
      | none =>
        exfalso
        apply heq
        rw [hp]
        refine (parentOf_eq_none (fun q k1 k2 => parentOf_none hp q (k1.trans h2) (by omega))).symm
      | some p =>
        obtain ⟨k1, k2, k3, k4⟩ := parentOf_some hp
        have hlen : n.length < p.length := by
          rcases Nat.lt_trichotomy p.length n.length with h | h | h
          · exfalso
            apply heq
            rw [hp]
            refine (parentOf_eq_some k1 (prefix_comparable k2 h2 (by omega)) h (fun q a b c => k4 q (a.trans h2) (by omega) c)).symm
          · exact absurd (prefix_eq_of_length (prefix_comparable k2 h2 (by omega)) (by omega)) (hne p k1)
          · exact h
        exact parentOf_eq_some ((h1 p).2 (.inr k1)) k2 k3 (fun q a b c => hnone q (fun hc => by rw [hc] at c; omega) (k4 q a b c))
  · rw [if_neg (fun hc => hpre ⟨hc.1, hc.2.1⟩)]
    have hq : ∀ q : Name, q <+: m → q.length < m.length → q ≠ n := by
      intro q a b hc
      subst hc
      exact hpre ⟨a, fun hc => by rw [hc] at b; omega⟩
    cases hp : parentOf t m with
    | none => exact parentOf_eq_none (fun q a b => hnone q (hq q a b) (parentOf_none hp q a b))
    | some p =>
      obtain ⟨k1, k2, k3, k4⟩ := parentOf_some hp
      exact parentOf_eq_some ((h1 p).2 (.inr k1)) k2 k3 (fun q a b c => hnone q (hq q a b) (k4 q a b c))

/-! ### Removing a name -/

theorem parentOf_remove {t t1 : List Entry} {n : Name}
    (h1 : ∀ q, (get t1 q).isSome = true ↔ q ≠ n ∧ (get t q).isSome = true) (m : Name) :
    parentOf t1 m = if parentOf t m = some n then parentOf t n else parentOf t m := by
  have hnone : ∀ q, get t q = none → get t1 q = none := by
    intro q h
    cases hg : get t1 q with
    | none => rfl
    | some x =>
      have := ((h1 q).1 (by rw [hg]; rfl)).2
      rw [h] at this; cases this
  have hself : get t1 n = none := by
    cases hg : get t1 n with
    | none => rfl
    | some x => exact absurd rfl ((h1 n).1 (by rw [hg]; rfl)).1
  split
  · rename_i hp
    obtain ⟨k1, k2, k3, k4⟩ := parentOf_some hp
    have hlong : ∀ q : Name, q <+: m → q.length < m.length → n.length ≤ q.length → get t1 q = none := by
      intro q a b c
      rcases Nat.lt_or_ge n.length q.length with h | h
      · exact hnone q (k4 q a b h)
      · rw [← prefix_eq_of_length (prefix_comparable k2 a c) h]; exact hself
    cases hn : parentOf t n with
    | none =>
      refine parentOf_eq_none (fun q a b => ?_)
      rcases Nat.lt_or_ge q.length n.length with h | h
      · exact hnone q (parentOf_none hn q (prefix_comparable a k2 (by omega)) h)
      · exact hlong q a b h
    | some p =>
      obtain ⟨j1, j2, j3, j4⟩ := parentOf_some hn
      refine parentOf_eq_some ((h1 p).2 ⟨fun hc => by rw [hc] at j3; omega, j1⟩) (j2.trans k2) (by omega) (fun q a b c => ?_)
      rcases Nat.lt_or_ge q.length n.length with h | h
      · exact hnone q (j4 q (prefix_comparable a k2 (by omega)) h c)
      · exact hlong q a b h
  · rename_i hp
    cases hq : parentOf t m with
    | none => exact parentOf_eq_none (fun q a b => hnone q (parentOf_none hq q a b))
    | some p =>
      obtain ⟨k1, k2, k3, k4⟩ := parentOf_some hq
      exact parentOf_eq_some ((h1 p).2 ⟨fun hc => hp (by rw [hq, hc]), k1⟩) k2 k3 (fun q a b c => hnone q (k4 q a b c))

theorem parentOf_ne {t : List Entry} {n : Name} : parentOf t n ≠ some n := by
  intro h
  have := (parentOf_some h).2.2.1
  omega

/-! ### `insert` -/

theorem Entry.insertRoute_fields (e : Entry) (r : Route) :
    (e.insertRoute r).1.name = e.name ∧ (e.insertRoute r).1.parent = e.parent ∧ (e.insertRoute r).1.children = e.children ∧
      (e.insertRoute r).1.id = e.id ∧ (e.insertRoute r).1.inherited = e.inherited := by
  unfold Entry.insertRoute
  split <;> exact ⟨rfl, rfl, rfl, rfl, rfl⟩

/-- What insertion of a new name makes of an entry. -/
def insertNewEntry (n : Name) (parent : Option Name) (moved : List Name) (e : Entry) : Entry :=
  if e.name = n then { e with parent := parent, children := moved }
  else if some e.name = parent then { e with children := (e.children ++ [n]).filter (fun c => !moved.contains c) }
  else if moved.contains e.name then { e with parent := some n }
  else e

theorem insertNewEntry_name (n : Name) (parent : Option Name) (moved : List Name) (e : Entry) : (insertNewEntry n parent moved e).name = e.name := by
  unfold insertNewEntry
  split
  · rfl
  · split
    · rfl
    · split <;> rfl

theorem insertNewEntry_same (n : Name) (parent : Option Name) (moved : List Name) (e : Entry) :
    (insertNewEntry n parent moved e).id = e.id ∧ (insertNewEntry n parent moved e).routes = e.routes ∧
      (insertNewEntry n parent moved e).inherited = e.inherited ∧ (insertNewEntry n parent moved e).nCapture = e.nCapture := by
  unfold insertNewEntry
  split
  · exact ⟨rfl, rfl, rfl, rfl⟩
  · split
    · exact ⟨rfl, rfl, rfl, rfl⟩
    · split <;> exact ⟨rfl, rfl, rfl, rfl⟩

/-- The new entry. -/
def newEntry (id : Nat) (n : Name) (r : Route) : Entry := ⟨id, n, [r], [], if r.capture then 1 else 0, none, []⟩

theorem insertRoute_new (id : Nat) (n : Name) (r : Route) : (Entry.insertRoute ⟨id, n, [], [], 0, none, []⟩ r).1 = newEntry id n r := by
  simp only [Entry.insertRoute, Entry.findRoute, List.find?_nil, newEntry, List.nil_append]
  congr 1

def movedNames (t : List Entry) (n : Name) : List Name := ((findDescendants t n).filter (fun e => e.parent == parentOf t n)).map (·.name)

theorem insertNew_table (b : Rib) (n : Name) (r : Route) :
    (insertNew b n r).table =
      (add (newEntry b.nextId n r) b.table).map
        (insertNewEntry n (parentOf (add (newEntry b.nextId n r) b.table) n) (movedNames (add (newEntry b.nextId n r) b.table) n)) := by
  unfold insertNew
  rw [insertRoute_new]
  rfl

theorem get_insertNew {b : Rib} {n : Name} (r : Route) (hn : get b.table n = none) (m : Name) :
    get (insertNew b n r).table m =
      (if m = n then some (newEntry b.nextId n r) else get b.table m).map
        (insertNewEntry n (parentOf (add (newEntry b.nextId n r) b.table) n) (movedNames (add (newEntry b.nextId n r) b.table) n)) := by
  rw [insertNew_table, get_map (fun e _ => insertNewEntry_name n _ _ e), get_add (e := newEntry b.nextId n r) hn]
  rfl

theorem Tree.insertNew {b : Rib} (h : Tree b.table) {n : Name} (r : Route) (hn : get b.table n = none) : Tree (insertNew b n r).table := by
  have hg := get_insertNew r hn
  have hsome : ∀ q, (get (Rib.insertNew b n r).table q).isSome = true ↔ q = n ∨ (get b.table q).isSome = true := by
    intro q
    rw [hg q, Option.isSome_map]
    split <;> simp [*]
  have hadd : ∀ q, (get (add (newEntry b.nextId n r) b.table) q).isSome = true ↔ q = n ∨ (get b.table q).isSome = true := by
    intro q
    rw [get_add (e := newEntry b.nextId n r) hn]
    show Option.isSome (if q = n then some (newEntry b.nextId n r) else get b.table q) = true ↔ _
    split <;> simp [*]
  have hp1 := parentOf_insert hn hsome
  have hp2 := parentOf_insert hn hadd
  have hpn : parentOf (add (newEntry b.nextId n r) b.table) n = parentOf b.table n := by rw [hp2, if_neg (fun hc => hc.2.1 rfl)]
  have hsorted : Sorted (add (newEntry b.nextId n r) b.table) := h.sorted.add (e := newEntry b.nextId n r) hn
  -- which entries move
  have hmoved : ∀ c, c ∈ movedNames (add (newEntry b.nextId n r) b.table) n ↔
      (get b.table c).isSome = true ∧ n <+: c ∧ c ≠ n ∧ parentOf b.table c = parentOf b.table n := by
    intro c
    unfold movedNames
    rw [List.mem_map]
    constructor
    · rintro ⟨x, hx, rfl⟩
      obtain ⟨k1, k2⟩ := List.mem_filter.1 hx
      rw [mem_findDescendants hsorted ((hadd n).2 (.inl rfl))] at k1
      obtain ⟨k1, k3, k4⟩ := k1
      have hx2 : x ∈ b.table := by
        rcases mem_add.1 k1 with rfl | k1
        · exact absurd rfl k4
        · exact k1
      have hgx := get_of_mem h.sorted.nodup hx2
      refine ⟨by rw [hgx]; rfl, k3, k4, ?_⟩
      rw [← h.parent _ _ hgx, ← hpn]
      simpa using k2
    · rintro ⟨k1, k2, k3, k4⟩
      obtain ⟨x, hx⟩ := Option.isSome_iff_exists.1 k1
      refine ⟨x, List.mem_filter.2 ⟨?_, ?_⟩, get_name hx⟩
      · rw [mem_findDescendants hsorted ((hadd n).2 (.inl rfl)), get_name hx]
        exact ⟨mem_add.2 (.inr (get_mem hx)), k2, k3⟩
      · rw [hpn, h.parent _ _ hx, k4]; simp
  have hmnodup : (movedNames (add (newEntry b.nextId n r) b.table) n).Nodup := by
    unfold movedNames
    refine List.Nodup.sublist ?_ hsorted.nodup
    refine List.Sublist.map _ (List.filter_sublist.trans ?_)
    unfold findDescendants
    split
    · exact List.nil_sublist _
    · rename_i x l heq
      refine (List.takeWhile_sublist _).trans ?_
      refine (List.sublist_cons_self x l).trans ?_
      rw [← heq]
      exact List.dropWhile_sublist _
  generalize hmv : movedNames (add (newEntry b.nextId n r) b.table) n = moved at *
  rw [hpn] at hg
  have hmv' : ∀ c, moved.contains c = true ↔ c ∈ moved := by simp
  -- parents in the new table
  have hpar : ∀ c, (get b.table c).isSome = true → parentOf (Rib.insertNew b n r).table c = if c ∈ moved then some n else parentOf b.table c := by
    intro c hc
    rw [hp1]
    by_cases hcm : c ∈ moved
    · rw [if_pos hcm, if_pos ((hmoved c).1 hcm).2]
    · rw [if_neg hcm, if_neg (fun hx => hcm ((hmoved c).2 ⟨hc, hx⟩))]
  have hparn : parentOf (Rib.insertNew b n r).table n = parentOf b.table n := by rw [hp1, if_neg (fun hc => hc.2.1 rfl)]
  refine ⟨?_, ?_, ?_, ?_⟩
  · rw [insertNew_table]
    exact hsorted.map (fun e _ => insertNewEntry_name n _ _ e)
  · intro m x hx
    rw [hg m] at hx
    by_cases hm : m = n
    · subst hm
      rw [if_pos rfl, Option.map_some, Option.some.injEq] at hx
      rw [← hx, hparn]
      simp [insertNewEntry, newEntry]
    · rw [if_neg hm, Option.map_eq_some_iff] at hx
      obtain ⟨y, hy, rfl⟩ := hx
      have hyn := get_name hy
      have hym := h.parent m y hy
      rw [hpar m (by rw [hy]; rfl)]
      unfold insertNewEntry
      rw [hyn, if_neg hm]
      by_cases hmp : some m = parentOf b.table n
      · rw [if_pos hmp]
        rw [if_neg (fun hc => by
          have := (hmoved m).1 hc
          rw [← hmp] at this
          exact parentOf_ne this.2.2.2)]
        exact hym
      · rw [if_neg hmp]
        by_cases hmm : m ∈ moved
        · rw [if_pos hmm, if_pos ((hmv' m).2 hmm)]
        · rw [if_neg hmm, if_neg (fun hc => hmm ((hmv' m).1 hc))]
          exact hym
  · intro m x hx
    rw [hg m] at hx
    by_cases hm : m = n
    · subst hm
      rw [if_pos rfl, Option.map_some, Option.some.injEq] at hx
      rw [← hx]
      simpa [insertNewEntry, newEntry] using hmnodup
    · rw [if_neg hm, Option.map_eq_some_iff] at hx
      obtain ⟨y, hy, rfl⟩ := hx
      have hyn := get_name hy
      have hnd := h.nodup m y hy
      unfold insertNewEntry
      rw [hyn, if_neg hm]
      by_cases hmp : some m = parentOf b.table n
      · rw [if_pos hmp]
        refine List.Pairwise.filter _ ?_
        refine List.nodup_append.2 ?_
        refine ⟨hnd, (by simp), ?_⟩
        intro a ha c hc hac
        rw [List.mem_singleton.1 hc] at hac
        rw [hac, h.children m y hy n] at ha
        rw [hn] at ha
        cases ha.1
      · rw [if_neg hmp]
        split <;> exact hnd
  · intro m x hx c
    have hcsome : (get (Rib.insertNew b n r).table c).isSome = true ∧ parentOf (Rib.insertNew b n r).table c = some m ↔
        (c = n ∧ parentOf b.table n = some m) ∨ ((get b.table c).isSome = true ∧ (if c ∈ moved then some n else parentOf b.table c) = some m) := by
      rw [hsome]
      constructor
      · rintro ⟨rfl | h1, h2⟩
        · exact .inl ⟨rfl, by rw [← hparn]; exact h2⟩
        · exact .inr ⟨h1, by rw [← hpar c h1]; exact h2⟩
      · rintro (⟨rfl, h2⟩ | ⟨h1, h2⟩)
        · exact ⟨.inl rfl, by rw [hparn]; exact h2⟩
        · exact ⟨.inr h1, by rw [hpar c h1]; exact h2⟩
    rw [hcsome]
    rw [hg m] at hx
    by_cases hm : m = n
    · subst hm
      rw [if_pos rfl, Option.map_some, Option.some.injEq] at hx
      have : x.children = moved := by rw [← hx]; simp [insertNewEntry, newEntry]
      rw [this]
      constructor
      · intro hc
        exact .inr ⟨((hmoved c).1 hc).1, by rw [if_pos hc]⟩
      · rintro (⟨_, h2⟩ | ⟨h1, h2⟩)
        · exact absurd h2 parentOf_ne
        · by_cases hcm : c ∈ moved
          · exact hcm
          · rw [if_neg hcm] at h2
            have := (parentOf_some h2).1
            rw [hn] at this
            cases this
    · rw [if_neg hm, Option.map_eq_some_iff] at hx
      obtain ⟨y, hy, rfl⟩ := hx
      have hyn := get_name hy
      have hch := h.children m y hy c
      unfold insertNewEntry
      rw [hyn, if_neg hm]
      by_cases hmp : some m = parentOf b.table n
      · rw [if_pos hmp]
        simp only [List.mem_filter, List.mem_append, List.mem_singleton, Bool.not_eq_true', hch]
        rw [← hmp]
        constructor
        · rintro ⟨h1, h2⟩
          have h2 : c ∉ moved := fun hc => by rw [(hmv' c).2 hc] at h2; cases h2
          rcases h1 with h1 | h1
          · exact .inr ⟨h1.1, by rw [if_neg h2]; exact h1.2⟩
          · exact .inl ⟨h1, rfl⟩
        · rintro (⟨h1, _⟩ | ⟨h1, h2⟩)
          · refine ⟨.inr h1, ?_⟩
            cases hc : moved.contains c with
            | false => rfl
            | true => exact absurd h1 ((hmoved c).1 ((hmv' c).1 hc)).2.2.1
          · by_cases hcm : c ∈ moved
            · rw [if_pos hcm] at h2
              exact absurd (Option.some.inj h2).symm hm
            · rw [if_neg hcm] at h2
              refine ⟨.inl ⟨h1, h2⟩, ?_⟩
              cases hc : moved.contains c with
              | false => rfl
              | true => exact absurd ((hmv' c).1 hc) hcm
      · rw [if_neg hmp]
        simp only [apply_ite Entry.children, ite_self]
        rw [hch]
        constructor
        · rintro ⟨h1, h2⟩
          refine .inr ⟨h1, ?_⟩
          rw [if_neg (fun hc => hmp (by rw [← ((hmoved c).1 hc).2.2.2, h2]))]
          exact h2
        · rintro (⟨_, h2⟩ | ⟨h1, h2⟩)
          · exact absurd h2.symm hmp
          · by_cases hcm : c ∈ moved
            · rw [if_pos hcm] at h2
              exact absurd (Option.some.inj h2).symm hm
            · rw [if_neg hcm] at h2
              exact ⟨h1, h2⟩

/-! ### `eraseEntry` -/

def eraseEntryEntry (e x : Entry) : Entry :=
  if some x.name = e.parent then { x with children := x.children.filter (· != e.name) ++ e.children }
  else if e.children.contains x.name then { x with parent := e.parent }
  else x

theorem eraseEntryEntry_same (e x : Entry) :
    (eraseEntryEntry e x).name = x.name ∧ (eraseEntryEntry e x).id = x.id ∧ (eraseEntryEntry e x).routes = x.routes ∧
      (eraseEntryEntry e x).inherited = x.inherited ∧ (eraseEntryEntry e x).nCapture = x.nCapture := by
  unfold eraseEntryEntry
  split
  · exact ⟨rfl, rfl, rfl, rfl, rfl⟩
  · split <;> exact ⟨rfl, rfl, rfl, rfl, rfl⟩

/-- The table after `eraseEntry`. -/
def erasedTable (t : List Entry) (e : Entry) : List Entry := (t.filter (fun x => x.name != e.name)).map (eraseEntryEntry e)

theorem eraseEntry_ok {b : Rib} (h : Tree b.table) {n : Name} {e : Entry} (hg : get b.table n = some e) :
    eraseEntry b e = .ok { b with table := erasedTable b.table e, log := b.log ++ [.eraseEntry e.name] } := by
  unfold eraseEntry
  rw [if_neg]
  · rfl
  · rw [Bool.not_eq_true, List.any_eq_false]
    intro c hc
    obtain ⟨h1, h2⟩ := (h.children n e hg c).1 hc
    obtain ⟨x, hx⟩ := Option.isSome_iff_exists.1 h1
    rw [hx]
    simp [h.parent c x hx, h2, get_name hg]

theorem get_erased {t : List Entry} {e : Entry} (m : Name) :
    get (erasedTable t e) m = (if m = e.name then none else get t m).map (eraseEntryEntry e) := by
  unfold erasedTable
  rw [get_map (fun x _ => (eraseEntryEntry_same e x).1), get_remove]

theorem Tree.erased {t : List Entry} (h : Tree t) {n : Name} {e : Entry} (hgn : get t n = some e) : Tree (erasedTable t e) := by
  have hen := get_name hgn
  have hg : ∀ m, get (erasedTable t e) m = (if m = n then none else get t m).map (eraseEntryEntry e) := by
    intro m; rw [get_erased, hen]
  have hsome : ∀ q, (get (erasedTable t e) q).isSome = true ↔ q ≠ n ∧ (get t q).isSome = true := by
    intro q
    rw [hg q, Option.isSome_map]
    split <;> simp [*]
  have hp := parentOf_remove hsome
  have hep := h.parent n e hgn
  have hch := h.children n e hgn
  have hcc : ∀ c, e.children.contains c = true ↔ c ∈ e.children := by simp
  refine ⟨?_, ?_, ?_, ?_⟩
  · unfold erasedTable
    exact Sorted.map (List.Pairwise.filter _ h.sorted) (fun x _ => (eraseEntryEntry_same e x).1)
  · intro m x hx
    rw [hg m] at hx
    by_cases hm : m = n
    · rw [if_pos hm] at hx; cases hx
    · rw [if_neg hm, Option.map_eq_some_iff] at hx
      obtain ⟨y, hy, rfl⟩ := hx
      have hyn := get_name hy
      have hyp := h.parent m y hy
      have hmch := hch m
      rw [hy] at hmch
      simp only [Option.isSome_some, true_and] at hmch
      rw [hp]
      unfold eraseEntryEntry
      rw [hyn, hep]
      by_cases hmp : some m = parentOf t n
      · rw [if_pos hmp]
        rw [if_neg]
        · exact hyp
        · intro hc
          have h1 := (parentOf_some hc).2.2.1
          have h2 := (parentOf_some hmp.symm).2.2.1
          omega
      · rw [if_neg hmp]
        by_cases hmc : m ∈ e.children
        · rw [if_pos ((hcc m).2 hmc), if_pos (hmch.1 hmc)]
        · rw [if_neg (fun hc => hmc ((hcc m).1 hc)), if_neg (fun hc => hmc (hmch.2 hc))]
          exact hyp
  · intro m x hx
    rw [hg m] at hx
    by_cases hm : m = n
    · rw [if_pos hm] at hx; cases hx
    · rw [if_neg hm, Option.map_eq_some_iff] at hx
      obtain ⟨y, hy, rfl⟩ := hx
      have hyn := get_name hy
      have hnd := h.nodup m y hy
      unfold eraseEntryEntry
      rw [hyn, hep]
      split
      · simp only
        rw [List.nodup_append]
        refine ⟨hnd.filter _, h.nodup n e hgn, ?_⟩
        intro a ha c hc hac
        subst hac
        have h1 := ((h.children m y hy a).1 (List.mem_filter.1 ha).1).2
        have h2 := ((hch a).1 hc).2
        rw [h1] at h2
        exact hm (Option.some.inj h2)
      · split <;> exact hnd
  · intro m x hx c
    rw [hsome, hp]
    rw [hg m] at hx
    by_cases hm : m = n
    · rw [if_pos hm] at hx; cases hx
    · rw [if_neg hm, Option.map_eq_some_iff] at hx
      obtain ⟨y, hy, rfl⟩ := hx
      have hyn := get_name hy
      have hych := h.children m y hy c
      unfold eraseEntryEntry
      rw [hyn, hep]
      by_cases hmp : some m = parentOf t n
      · rw [if_pos hmp]
        simp only [List.mem_append, List.mem_filter, hych, hch c, hen]
        constructor
        · rintro (⟨⟨h1, h2⟩, h3⟩ | ⟨h1, h2⟩)
          · refine ⟨⟨by simpa using h3, h1⟩, ?_⟩
            rw [if_neg (fun hc => by rw [h2] at hc; exact hm (Option.some.inj hc))]
            exact h2
          · exact ⟨⟨fun hc => parentOf_ne (by rw [hc] at h2; exact h2), h1⟩, by rw [if_pos h2]; exact hmp.symm⟩
        · rintro ⟨⟨h1, h2⟩, h3⟩
          by_cases hc : parentOf t c = some n
          · exact .inr ⟨h2, hc⟩
          · rw [if_neg hc] at h3
            exact .inl ⟨⟨h2, h3⟩, by simpa using h1⟩
      · rw [if_neg hmp]
        simp only [apply_ite Entry.children, ite_self]
        rw [hych]
        constructor
        · rintro ⟨h1, h2⟩
          refine ⟨⟨fun hc => hmp (by rw [hc] at h2; exact h2.symm), h1⟩, ?_⟩
          rw [if_neg (fun hc => by rw [h2] at hc; exact hm (Option.some.inj hc))]
          exact h2
        · rintro ⟨⟨_, h2⟩, h3⟩
          by_cases hc : parentOf t c = some n
          · rw [if_pos hc] at h3; exact absurd h3.symm hmp
          · rw [if_neg hc] at h3
            exact ⟨h2, h3⟩

end Verif.Rib
