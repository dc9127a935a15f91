import Verif.Cs.Range

namespace Verif.Cs
open Std

theorem range_ok {t : Table} (hs : Sorted t) {p : Name} (hp : Name.WF p) :
    iterRange (findPrefixRange p t) t = some (t.filter (inRange p)) :=
  iterRange_eq hs p (fun hne _ _ h => lt_succ_of_lt hne hp h)

/-! ### erase -/

theorem beforeErase_spec {s : Cs} {log : List Key} (hi : Inv s log) {e : Entry} (he : e ∈ s.table) :
    ∃ s1 t1, s.beforeErase e.key = some s1 ∧ s1.table = s.table ∧ tableErase e.key s1.table = some t1 ∧
      Inv { s1 with table := t1 } log ∧ (∀ x, x ∈ t1 ↔ x ∈ s.table ∧ x ≠ e) ∧ t1.Sublist s.table ∧
      s1.limit = s.limit ∧ s1.now = s.now ∧ s1.admit = s.admit ∧ s1.serve = s.serve ∧ s1.kind = s.kind ∧
      t1.length + 1 = s.table.length := by
  have hk := mem_keys_of_mem he
  obtain ⟨t1, a1, a2, a3, a4⟩ := tableErase_some hi.sorted hk
  have hmem : ∀ x, x ∈ t1 ↔ x ∈ s.table ∧ x ≠ e := by
    intro x
    rw [a4]
    constructor
    · rintro ⟨h1, h2⟩; exact ⟨h1, fun h => h2 (by rw [h])⟩
    · rintro ⟨h1, h2⟩; exact ⟨h1, fun h => h2 (eq_of_key hi.sorted h1 he h)⟩
  have hcap := hi.cap
  have hpol := hi.pol
  unfold Cs.beforeErase
  cases hp : s.policy with
  | lru q =>
    rw [hp] at hpol
    obtain ⟨⟨b1, b2⟩, b3⟩ := hpol
    refine ⟨{ s with policy := .lru (q.erase e.key) }, t1, rfl, rfl, a1, ⟨a2, by simp only; omega, ⟨b1.erase _, ?_⟩, b3.sublist (List.erase_sublist ..)⟩,
      hmem, tableErase_sub a1, rfl, rfl, rfl, rfl, by simp [Cs.kind, hp], a3⟩
    intro k
    rw [b1.mem_erase_iff, b2, keys_erase a4, and_comm]
  | pfifo p =>
    rw [hp] at hpol
    obtain ⟨b1, b2, b3⟩ := hpol
    obtain ⟨p1, d1, d2, d3, d4, d5, d6⟩ := detach_spec b1 hk
    simp only [d1]
    refine ⟨{ s with policy := .pfifo p1 }, t1, rfl, rfl, a1, ⟨a2, by simp only; omega, d2.congr (fun k => (keys_erase a4 k).symm), ?_, ?_⟩,
      hmem, tableErase_sub a1, rfl, rfl, rfl, rfl, by simp [Cs.kind, hp], a3⟩
    · intro k i hki x hx hxk
      have hki' := (d4 _ _).1 hki
      have := b2 k i hki'.1 x ((a4 x).1 hx).1 hxk
      cases hq : i.qtype <;> simp only [hq] at this ⊢
      · exact this
      · exact this
      · exact ⟨this.1, (d5 _).2 ⟨this.2, hki'.2⟩⟩
    · intro q; simp only [d3]; exact (b3 q).sublist (List.erase_sublist ..)

theorem eraseLoop_spec {log : List Key} (es : List Entry) : ∀ (s : Cs) (n : Nat), Inv s log →
    (∀ e ∈ es, e ∈ s.table) → es.Nodup →
    ∃ s', s.eraseLoop es n = some (s', n + es.length) ∧ Inv s' log ∧
      (∀ x, x ∈ s'.table ↔ x ∈ s.table ∧ x ∉ es) ∧ s'.table.Sublist s.table ∧
      s'.limit = s.limit ∧ s'.now = s.now ∧ s'.admit = s.admit ∧ s'.serve = s.serve ∧ s'.kind = s.kind := by
  induction es with
  | nil =>
    intro s n hi _ _
    exact ⟨s, rfl, hi, by simp, List.Sublist.refl _, rfl, rfl, rfl, rfl, rfl⟩
  | cons e es ih =>
    intro s n hi hsub hnd
    obtain ⟨hn1, hn2⟩ := List.nodup_cons.1 hnd
    obtain ⟨s1, t1, a1, a2, a3, a4, a5, a6, a7, a8, a9, a10, a11, _⟩ := beforeErase_spec hi (hsub e (by simp))
    obtain ⟨s', b1, b2, b3, b4, b5, b6, b7, b8, b9⟩ := ih { s1 with table := t1 } (n + 1) a4 (by
      intro x hx
      show x ∈ t1
      exact (a5 x).2 ⟨hsub x (by simp [hx]), fun h => hn1 (h ▸ hx)⟩) hn2
    refine ⟨s', ?_, b2, ?_, b4.trans a6, by rw [b5]; exact a7, by rw [b6]; exact a8, by rw [b7]; exact a9,
      by rw [b8]; exact a10, by rw [b9]; exact a11⟩
    · simp only [Cs.eraseLoop, a1, a3, b1, List.length_cons]
      congr 2; omega
    · intro x; rw [b3]; simp only [a5, List.mem_cons, not_or, and_assoc]

theorem table_nodup {t : Table} (hs : Sorted t) : t.Nodup := by
  unfold List.Nodup
  refine hs.imp ?_
  rintro a b h rfl
  rw [cmpData_self] at h; cases h

theorem erase_spec {s : Cs} {log : List Key} (hi : Inv s log) {p : Name} (hp : Name.WF p) (n : Nat) :
    ∃ s', s.erase p n = some (s', min n (s.table.filter (inRange p)).length) ∧ Inv s' log ∧
      (∀ x, x ∈ s'.table ↔ x ∈ s.table ∧ x ∉ (s.table.filter (inRange p)).take n) ∧ s'.table.Sublist s.table ∧
      s'.limit = s.limit ∧ s'.now = s.now ∧ s'.admit = s.admit ∧ s'.serve = s.serve ∧ s'.kind = s.kind := by
  obtain ⟨s', a1, a2, a3, a4⟩ := eraseLoop_spec (log := log) ((s.table.filter (inRange p)).take n) s 0 hi
    (fun e he => (List.mem_filter.1 (List.mem_of_mem_take he)).1)
    (((table_nodup hi.sorted).sublist List.filter_sublist).sublist (List.take_sublist _ _))
  refine ⟨s', ?_, a2, a3, a4⟩
  simp only [Cs.erase, range_ok hi.sorted hp, a1, List.length_take, Nat.zero_add]

/-! ### find -/

theorem beforeUse_spec {s : Cs} {log : List Key} (hi : Inv s log) {e : Entry} (he : e ∈ s.table) :
    ∃ s1, s.beforeUse e.key = some s1 ∧ s1.table = s.table ∧
      Inv s1 (log ++ if s.kind = .lru then [e.key] else []) ∧
      s1.limit = s.limit ∧ s1.now = s.now ∧ s1.admit = s.admit ∧ s1.serve = s.serve ∧ s1.kind = s.kind := by
  have hk := mem_keys_of_mem he
  have hpol := hi.pol
  unfold Cs.beforeUse
  cases hp : s.policy with
  | lru q =>
    rw [hp] at hpol
    obtain ⟨⟨b1, b2⟩, b3⟩ := hpol
    have hq : e.key ∈ q := (b2 _).2 hk
    simp only [lruInsert_old hq]
    have hkind : s.kind = .lru := by simp [Cs.kind, hp]
    have hne : e.key ∉ q.erase e.key := fun hm => (b1.mem_erase_iff.1 hm).1 rfl
    refine ⟨{ s with policy := .lru (q.erase e.key ++ [e.key]) }, rfl, rfl, ⟨hi.sorted, hi.cap, ⟨?_, ?_⟩, ?_⟩, rfl, rfl, rfl, rfl, by simp [Cs.kind, hp]⟩
    · refine List.nodup_append.2 ⟨b1.erase _, by simp, ?_⟩
      rintro a ha' b hb rfl
      simp at hb; subst hb; exact hne ha'
    · intro k
      rw [List.mem_append, List.mem_singleton, b1.mem_erase_iff, b2]
      constructor
      · rintro (⟨_, h⟩ | rfl)
        · exact h
        · exact hk
      · intro h
        by_cases hk' : k = e.key
        · exact Or.inr hk'
        · exact Or.inl ⟨hk', h⟩
    · simp only [hkind, if_true]
      exact (b3.sublist (List.erase_sublist ..)).push hne
  | pfifo p =>
    rw [hp] at hpol
    have hkind : s.kind = .pfifo := by simp [Cs.kind, hp]
    obtain ⟨i, hi'⟩ := (hpol.1.infoKeys e.key).2 hk
    have := findInfo_of_mem hpol.1.infoNodup hi'
    simp only [this, Option.isSome_some, if_true]
    refine ⟨s, rfl, rfl, ⟨hi.sorted, hi.cap, ?_⟩, rfl, rfl, rfl, rfl, rfl⟩
    simp only [hkind, reduceCtorEq, if_false, List.append_nil]
    rw [hp]; exact hpol

theorem find_spec {s : Cs} {log : List Key} (hi : Inv s log) {i : Interest} (hp : Name.WF i.name) :
    ∃ s' r, s.find i = some (s', r) ∧
      Inv s' (log ++ touched s (.find i) (match r with | some d => .hit d | none => .miss)) ∧
      s'.table = s.table ∧ s'.limit = s.limit ∧ s'.now = s.now ∧ s'.admit = s.admit ∧ s'.serve = s.serve ∧
      s'.kind = s.kind ∧
      r = (if s.serve = true ∧ s.limit ≠ 0 then
        ((s.table.filter (inRange i.name)).find? (Entry.canSatisfy s.now i)).map (·.data) else none) := by
  unfold Cs.find
  by_cases hc : s.serve = true ∧ s.limit ≠ 0
  · have hc' : (!s.serve || s.limit == 0) = false := by simp [hc.1, hc.2]
    simp only [hc', Bool.false_eq_true, if_false, range_ok hi.sorted hp, if_pos hc]
    cases hf : (s.table.filter (inRange i.name)).find? (Entry.canSatisfy s.now i) with
    | none =>
      refine ⟨s, none, rfl, ?_, rfl, rfl, rfl, rfl, rfl, rfl, rfl⟩
      have : touched s (.find i) .miss = [] := by
        unfold touched; cases s.kind <;> rfl
      rw [this, List.append_nil]; exact hi
    | some e =>
      have he : e ∈ s.table := (List.mem_filter.1 (List.mem_of_find?_eq_some hf)).1
      obtain ⟨s1, a1, a2, a3, a4, a5, a6, a7, a8⟩ := beforeUse_spec hi he
      refine ⟨s1, some e.data, by simp only [a1], ?_, a2, a4, a5, a6, a7, a8, rfl⟩
      have : touched s (.find i) (.hit e.data) = if s.kind = .lru then [e.key] else [] := by
        unfold touched; cases s.kind <;> simp [Entry.key]
      rw [this]; exact a3
  · have hc' : (!s.serve || s.limit == 0) = true := by
      simp only [not_and, ne_eq, Decidable.not_not] at hc
      cases hsv : s.serve
      · simp
      · simp [hc hsv]
    simp only [hc', if_true, if_neg hc]
    refine ⟨s, none, rfl, ?_, rfl, rfl, rfl, rfl, rfl, rfl, rfl⟩
    have : touched s (.find i) .miss = [] := by
      unfold touched; cases s.kind <;> rfl
    rw [this, List.append_nil]; exact hi

/-! ### fire, tick, setPolicy -/

theorem fire_spec {s : Cs} {log : List Key} (hi : Inv s log) (id : Nat) :
    ∃ s', s.fire id = some s' ∧ Inv s' (log ++ touched s (.fire id) .none) ∧ s'.table = s.table ∧
      s'.limit = s.limit ∧ s'.now = s.now ∧ s'.admit = s.admit ∧ s'.serve = s.serve ∧ s'.kind = s.kind := by
  have hpol := hi.pol
  unfold Cs.fire touched
  cases hp : s.policy with
  | lru q =>
    have hkind : s.kind = .lru := by simp [Cs.kind, hp]
    simp only [hkind]
    exact ⟨s, rfl, by simpa using hi, rfl, rfl, rfl, rfl, rfl, hkind⟩
  | pfifo p =>
    have hkind : s.kind = .pfifo := by simp [Cs.kind, hp]
    rw [hp] at hpol
    obtain ⟨b1, b2, b3⟩ := hpol
    simp only [hkind]
    cases hf : p.events.find? (fun ev => ev.1 == id) with
    | none => exact ⟨s, rfl, by simpa using hi, rfl, rfl, rfl, rfl, rfl, hkind⟩
    | some ev =>
      obtain ⟨id', k, due⟩ := ev
      have hm := List.mem_of_find?_eq_some hf
      have hid : id' = id := by simpa using List.find?_some hf
      subst hid
      simp only
      by_cases hd : due ≤ s.now
      · simp only [if_pos hd]
        have hkt : k ∈ keys s.table := (b1.infoKeys k).1 ⟨_, b1.evInfo _ _ _ hm⟩
        rw [if_pos (hasKey_iff.2 hkt)]
        obtain ⟨p', c1, c2, c3, c4, c5, c6, c7, c8⟩ := moveToStale_spec b1 hm
        simp only [c1]
        refine ⟨{ s with policy := .pfifo p' }, rfl, ⟨hi.sorted, hi.cap, c2, ?_, ?_⟩, rfl, rfl, rfl, rfl, rfl, by simp [Cs.kind]⟩
        · intro k' i hk' e he hek
          rcases (c6 _ _).1 hk' with ⟨h1, h2⟩ | ⟨rfl, rfl⟩
          · have := b2 k' i h1 e he hek
            cases hq : i.qtype <;> simp only [hq] at this ⊢
            · exact this
            · exact this
            · refine ⟨this.1, (c7 _).2 ⟨this.2, ?_⟩⟩
              rintro rfl
              have h3 := b1.evInfo _ _ _ hm
              have h4 := b1.evInfo _ _ _ this.2
              -- same event id for two keys
              have key : ∀ (l : List (Nat × Key × Nat)), (l.map (·.1)).Nodup → ∀ a ∈ l, ∀ b ∈ l, a.1 = b.1 → a = b := by
                intro l
                induction l with
                | nil => intro _ a ha; cases ha
                | cons x xs ih =>
                  intro hn a ha b hb hab
                  obtain ⟨n1, n2⟩ := List.nodup_cons.1 (by simpa using hn : (x.1 :: xs.map (·.1)).Nodup)
                  rcases List.mem_cons.1 ha with rfl | ha' <;> rcases List.mem_cons.1 hb with rfl | hb'
                  · rfl
                  · exact absurd (List.mem_map.2 ⟨b, hb', hab.symm⟩) n1
                  · exact absurd (List.mem_map.2 ⟨a, ha', hab⟩) n1
                  · exact ih n2 a ha' b hb' hab
              have := key _ b1.evNodup _ this.2 _ hm rfl
              simp at this; exact h2 this.1
          · have := b2 k' _ (b1.evInfo _ _ _ hm) e he hek
            simp only at this ⊢
            refine ⟨this.1, ?_⟩
            have key : ∀ (l : List (Nat × Key × Nat)), (l.map (·.1)).Nodup → ∀ a ∈ l, ∀ b ∈ l, a.1 = b.1 → a = b := by
              intro l
              induction l with
              | nil => intro _ a ha; cases ha
              | cons x xs ih =>
                intro hn a ha b hb hab
                obtain ⟨n1, n2⟩ := List.nodup_cons.1 (by simpa using hn : (x.1 :: xs.map (·.1)).Nodup)
                rcases List.mem_cons.1 ha with rfl | ha' <;> rcases List.mem_cons.1 hb with rfl | hb'
                · rfl
                · exact absurd (List.mem_map.2 ⟨b, hb', hab.symm⟩) n1
                · exact absurd (List.mem_map.2 ⟨a, ha', hab⟩) n1
                · exact ih n2 a ha' b hb' hab
            have := key _ b1.evNodup _ this.2 _ hm rfl
            simp at this; omega
        · have hns : k ∉ p.qStale := fun h => by
            have := queue_disjoint b1 (q := .stale) (q' := .fifo) h c8; cases this
          have hnu : k ∉ p.qUnsolicited := fun h => by
            have := queue_disjoint b1 (q := .unsolicited) (q' := .fifo) h c8; cases this
          intro q
          cases q
          · show QOrd p'.qUnsolicited _
            rw [c3]; exact QOrd.log (b3 .unsolicited) hnu
          · show QOrd p'.qStale _
            rw [c5]; exact QOrd.push (b3 .stale) hns
          · show QOrd p'.qFifo _
            rw [c4]
            refine QOrd.log ((b3 .fifo).sublist (List.erase_sublist ..)) ?_
            have hn : p.qFifo.Nodup := b1.qNodup .fifo
            exact fun hm => (hn.mem_erase_iff.1 hm).1 rfl
      · simp only [if_neg hd]
        exact ⟨s, rfl, by simpa using hi, rfl, rfl, rfl, rfl, rfl, hkind⟩

theorem tick_inv {s : Cs} {log : List Key} (hi : Inv s log) (dt : Nat) : Inv (s.tick dt) log := by
  refine ⟨hi.sorted, hi.cap, ?_⟩
  have := hi.pol
  unfold PolInv at *
  simp only [Cs.tick]
  cases hp : s.policy with
  | lru q => rw [hp] at this; exact this
  | pfifo p =>
    rw [hp] at this
    refine ⟨this.1, ?_, this.2.2⟩
    intro k i hk e he hek
    have h := this.2.1 k i hk e he hek
    cases hq : i.qtype <;> simp only [hq] at h ⊢
    · exact h
    · exact ⟨h.1, by omega⟩
    · exact h

theorem fresh_polInv (k : PolicyKind) (now : Nat) (log : List Key) : PolInv (Policy.fresh k) [] now log := by
  cases k
  · exact ⟨⟨List.nodup_nil, by simp [keys]⟩, QOrd.nil _⟩
  · refine ⟨⟨by simp, by simp [keys], ?_, ?_, by simp, by simp, by simp, by simp⟩, ?_, ?_⟩
    · intro q; cases q <;> simp [PFifo.queue]
    · intro q k; cases q <;> simp [PFifo.queue]
    · intro k i h; simp at h
    · intro q; cases q <;> exact QOrd.nil _

theorem setLimit_spec {s : Cs} {log : List Key} (hi : Inv s log) (n : Nat) :
    ∃ s' ev, s.setLimit n = some s' ∧ Inv s' log ∧ s'.limit = n ∧ s'.now = s.now ∧ s'.admit = s.admit ∧
      s'.serve = s.serve ∧ s'.kind = s.kind ∧ (∀ e, e ∈ s'.table ↔ e ∈ s.table ∧ e.key ∉ ev) ∧
      (ev = [] ∨ s'.table.length = n) ∧
      (match s.policy, s'.policy with
       | .lru q, .lru q' => q = ev ++ q'
       | .pfifo p, .pfifo p' => p.order = ev ++ p'.order ∧ (∀ q, p'.queue q <:+ p.queue q) ∧
          (∀ v, v ∈ p'.events ↔ v ∈ p.events ∧ v.2.1 ∉ ev)
       | _, _ => False) := evict_spec (s := { s with limit := n }) hi.sorted hi.pol

theorem setPolicy_spec {s : Cs} {log : List Key} (hi : Inv s log) (k : PolicyKind) :
    ∃ s', s.setPolicy k = some s' ∧ Inv s' log ∧ s'.table = s.table ∧ s'.limit = s.limit ∧ s'.now = s.now ∧
      s'.admit = s.admit ∧ s'.serve = s.serve := by
  unfold Cs.setPolicy
  by_cases h : s.table.length = 0
  · rw [if_pos h]
    have ht := List.length_eq_zero_iff.1 h
    obtain ⟨s', ev, a1, a2, a3, a4, a5, a6, a7, a8, a9, a10⟩ :=
      setLimit_spec (s := { s with policy := Policy.fresh k }) (log := log)
        ⟨hi.sorted, hi.cap, by simp only [ht]; exact fresh_polInv k _ _⟩ s.limit
    refine ⟨s', a1, a2, ?_, a3, a4, a5, a6⟩
    rw [ht]
    apply List.eq_nil_iff_forall_not_mem.2
    intro e he
    have := ((a8 e).1 he).1
    simp [ht] at this
  · rw [if_neg h]
    exact ⟨s, rfl, hi, rfl, rfl, rfl, rfl, rfl⟩

/-! ### One step -/

theorem touched_nil_append {s : Cs} {op : Op} {out : Out} {log : List Key} {P : List Key → Prop}
    (h : touched s op out = []) (hp : P log) : P (log ++ touched s op out) := by
  rw [h, List.append_nil]; exact hp

/-- No operation faults, and the invariant is kept. -/
theorem step_inv {s : Cs} {log : List Key} (hi : Inv s log) {op : Op} (hw : OpWF op) :
    ∃ s' out, s.step op = some (s', out) ∧ Inv s' (log ++ touched s op out) := by
  cases op with
  | insert d u =>
    by_cases ha : Admitted s d
    · obtain ⟨s', ev, h1, h2, -⟩ := insert_spec hi d u ha
      refine ⟨s', .none, by simp [Cs.step, h1], ?_⟩
      simpa [touched, ha] using h2
    · refine ⟨s, .none, by simp [Cs.step, insert_eq, ha], ?_⟩
      simpa [touched, ha] using hi
  | erase p n =>
    obtain ⟨s', h1, h2, -⟩ := erase_spec hi hw n
    refine ⟨s', _, by simp [Cs.step, h1]; rfl, ?_⟩
    simpa [touched] using h2
  | find i =>
    obtain ⟨s', r, h1, h2, -⟩ := find_spec hi hw
    refine ⟨s', _, by simp [Cs.step, h1]; rfl, h2⟩
  | setLimit n =>
    obtain ⟨s', ev, h1, h2, -⟩ := setLimit_spec hi n
    refine ⟨s', .none, by simp [Cs.step, h1], ?_⟩
    simpa [touched] using h2
  | setPolicy k =>
    obtain ⟨s', h1, h2, -⟩ := setPolicy_spec hi k
    refine ⟨s', .none, by simp [Cs.step, h1], ?_⟩
    simpa [touched] using h2
  | enableAdmit b =>
    refine ⟨_, .none, rfl, ?_⟩
    simp only [touched, List.append_nil]
    exact ⟨hi.sorted, hi.cap, hi.pol⟩
  | enableServe b =>
    refine ⟨_, .none, rfl, ?_⟩
    simp only [touched, List.append_nil]
    exact ⟨hi.sorted, hi.cap, hi.pol⟩
  | tick dt =>
    refine ⟨_, .none, rfl, ?_⟩
    simp only [touched, List.append_nil]
    exact tick_inv hi dt
  | fire id =>
    obtain ⟨s', h1, h2, -⟩ := fire_spec hi id
    exact ⟨s', .none, by simp [Cs.step, h1], h2⟩

theorem init_inv (n : Nat) : Inv (init n) [] :=
  ⟨List.Pairwise.nil, by simp [init], fresh_polInv .lru _ _⟩

/-- Every run succeeds and keeps the invariant. -/
theorem runLog_inv {ops : List Op} : ∀ {s : Cs} {log : List Key}, Inv s log → (∀ op ∈ ops, OpWF op) →
    ∃ s' log', s.runLog log ops = some (s', log') ∧ Inv s' log' := by
  induction ops with
  | nil => intro s log hi _; exact ⟨s, log, rfl, hi⟩
  | cons op ops ih =>
    intro s log hi hw
    obtain ⟨s1, out, h1, h2⟩ := step_inv hi (hw op (by simp))
    obtain ⟨s', log', h3, h4⟩ := ih h2 (fun o ho => hw o (by simp [ho]))
    exact ⟨s', log', by simp [Cs.runLog, h1, h3], h4⟩

theorem run_eq_runLog {ops : List Op} : ∀ {s : Cs} {log : List Key},
    s.run ops = (s.runLog log ops).map (·.1) := by
  induction ops with
  | nil => intro s log; rfl
  | cons op ops ih =>
    intro s log
    simp only [Cs.run, Cs.runLog]
    cases h : s.step op with
    | none => rfl
    | some r => exact ih

theorem run_inv {n : Nat} {ops : List Op} (hw : ∀ op ∈ ops, OpWF op) :
    ∃ s log, (init n).run ops = some s ∧ (init n).runLog [] ops = some (s, log) ∧ Inv s log := by
  obtain ⟨s, log, h1, h2⟩ := runLog_inv (init_inv n) hw
  exact ⟨s, log, by rw [run_eq_runLog (log := []), h1]; rfl, h1, h2⟩

/-! ### A property of all stored packets that holds of every inserted packet -/

theorem step_table_sub {s s' : Cs} {log : List Key} (hi : Inv s log) {op : Op} {out : Out} (hw : OpWF op)
    (h : s.step op = some (s', out)) : ∀ e ∈ s'.table, Unlimited s op e := by
  cases op with
  | insert d u =>
    by_cases ha : Admitted s d
    · obtain ⟨s1, ev, h1, -, -, -, -, -, -, h2, -⟩ := insert_spec hi d u ha
      simp only [Cs.step, h1, Option.map_some, Option.some.injEq, Prod.mk.injEq] at h
      obtain ⟨rfl, -⟩ := h
      intro e he
      simp only [Unlimited, if_pos ha]
      exact ((h2 e).1 he).1
    · simp only [Cs.step, insert_eq, ha, if_false, Option.map_some, Option.some.injEq, Prod.mk.injEq] at h
      obtain ⟨rfl, -⟩ := h
      intro e he
      simpa only [Unlimited, if_neg ha] using he
  | erase p n =>
    obtain ⟨s1, h1, -, h2, -⟩ := erase_spec hi hw n
    simp only [Cs.step, h1, Option.map_some, Option.some.injEq, Prod.mk.injEq] at h
    obtain ⟨rfl, -⟩ := h
    intro e he; exact ((h2 e).1 he).1
  | find i =>
    obtain ⟨s1, r, h1, -, h2, -⟩ := find_spec hi hw
    simp only [Cs.step, h1, Option.map_some, Option.some.injEq, Prod.mk.injEq] at h
    obtain ⟨rfl, -⟩ := h
    intro e he; rw [h2] at he; exact he
  | setLimit n =>
    obtain ⟨s1, ev, h1, -, -, -, -, -, -, h2, -⟩ := setLimit_spec hi n
    simp only [Cs.step, h1, Option.map_some, Option.some.injEq, Prod.mk.injEq] at h
    obtain ⟨rfl, -⟩ := h
    intro e he; exact ((h2 e).1 he).1
  | setPolicy k =>
    obtain ⟨s1, h1, -, h2, -⟩ := setPolicy_spec hi k
    simp only [Cs.step, h1, Option.map_some, Option.some.injEq, Prod.mk.injEq] at h
    obtain ⟨rfl, -⟩ := h
    intro e he; rw [h2] at he; exact he
  | enableAdmit b =>
    simp only [Cs.step, Option.some.injEq, Prod.mk.injEq] at h
    obtain ⟨rfl, -⟩ := h
    intro e he; exact he
  | enableServe b =>
    simp only [Cs.step, Option.some.injEq, Prod.mk.injEq] at h
    obtain ⟨rfl, -⟩ := h
    intro e he; exact he
  | tick dt =>
    simp only [Cs.step, Option.some.injEq, Prod.mk.injEq] at h
    obtain ⟨rfl, -⟩ := h
    intro e he; exact he
  | fire id =>
    obtain ⟨s1, h1, -, h2, -⟩ := fire_spec hi id
    simp only [Cs.step, h1, Option.map_some, Option.some.injEq, Prod.mk.injEq] at h
    obtain ⟨rfl, -⟩ := h
    intro e he; rw [h2] at he; exact he

theorem inserted_data (s : Cs) (d : Data) (u : Bool) :
    (inserted s d u).data = d ∨ ∃ e ∈ s.table, (inserted s d u).data = e.data := by
  unfold inserted
  split
  · rename_i old h
    exact Or.inr ⟨old, List.mem_of_find?_eq_some h, rfl⟩
  · exact Or.inl rfl

/-- If every inserted packet satisfies `P`, so does every stored packet. -/
theorem run_all {P : Data → Prop} {ops : List Op} : ∀ {s s' : Cs} {log : List Key}, Inv s log →
    (∀ op ∈ ops, OpWF op) → (∀ d u, Op.insert d u ∈ ops → P d) → (∀ e ∈ s.table, P e.data) →
    s.run ops = some s' → ∀ e ∈ s'.table, P e.data := by
  induction ops with
  | nil => intro s s' log _ _ _ hP h; simp only [Cs.run, Option.some.injEq] at h; subst h; exact hP
  | cons op ops ih =>
    intro s s' log hi hw hins hP h
    obtain ⟨s1, out, h1, h2⟩ := step_inv hi (hw op (by simp))
    simp only [Cs.run, h1] at h
    refine ih h2 (fun o ho => hw o (by simp [ho])) (fun d u hd => hins d u (by simp [hd])) ?_ h
    intro e he
    have := step_table_sub hi (hw op (by simp)) h1 e he
    cases op <;> simp only [Unlimited] at this <;> try exact hP e this
    rename_i d u
    split at this
    · rcases this with ⟨h, _⟩ | rfl
      · exact hP e h
      · rcases inserted_data s d u with h | ⟨e', h3, h4⟩
        · rw [h]; exact hins d u (by simp)
        · rw [h4]; exact hP e' h3
    · exact hP e this

end Verif.Cs
