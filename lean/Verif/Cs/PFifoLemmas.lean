import Verif.Cs.Lemmas

namespace Verif.Cs

/-- Structural invariant of the priority_fifo policy for a set `K` of attached keys. -/
structure PStr (p : PFifo) (K : Key → Prop) : Prop where
  infoNodup : (p.info.map (·.1)).Nodup
  infoKeys : ∀ k, (∃ i, (k, i) ∈ p.info) ↔ K k
  qNodup : ∀ q, (p.queue q).Nodup
  qInfo : ∀ q k, k ∈ p.queue q ↔ ∃ id, (k, Info.mk q id) ∈ p.info
  evNodup : (p.events.map (·.1)).Nodup
  evLt : ∀ ev ∈ p.events, ev.1 < p.nextEvent
  evInfo : ∀ id k due, (id, k, due) ∈ p.events → (k, Info.mk .fifo id) ∈ p.info
  infoEv : ∀ k id, (k, Info.mk .fifo id) ∈ p.info → ∃ due, (id, k, due) ∈ p.events

theorem findInfo_of_mem {p : PFifo} (h : (p.info.map (·.1)).Nodup) {k : Key} {i : Info}
    (hm : (k, i) ∈ p.info) : p.findInfo k = some i := by
  unfold PFifo.findInfo
  generalize p.info = l at *
  induction l with
  | nil => cases hm
  | cons x xs ih =>
    obtain ⟨h1, h2⟩ := List.nodup_cons.1 (by simpa using h : (x.1 :: xs.map (·.1)).Nodup)
    rcases List.mem_cons.1 hm with rfl | hm
    · simp
    · have : x.1 ≠ k := by
        intro he; apply h1; rw [he]; exact List.mem_map.2 ⟨_, hm, rfl⟩
      simp only [List.find?_cons]
      rw [show (x.1 == k) = false by simp [this]]
      exact ih h2 hm

theorem mem_of_findInfo {p : PFifo} {k : Key} {i : Info} (h : p.findInfo k = some i) : (k, i) ∈ p.info := by
  unfold PFifo.findInfo at h
  cases hf : p.info.find? (fun q => q.1 == k) with
  | none => rw [hf] at h; cases h
  | some q =>
    rw [hf] at h
    have h1 := List.mem_of_find?_eq_some hf
    have h2 : q.1 = k := by simpa using List.find?_some hf
    simp at h; subst h; subst h2; exact h1

theorem findInfo_none {p : PFifo} {k : Key} (h : p.findInfo k = none) (i : Info) : (k, i) ∉ p.info := by
  intro hm
  unfold PFifo.findInfo at h
  simp only [Option.map_eq_none_iff, List.find?_eq_none] at h
  have := h _ hm; simp at this

theorem info_unique {p : PFifo} (h : (p.info.map (·.1)).Nodup) {k : Key} {i j : Info}
    (hi : (k, i) ∈ p.info) (hj : (k, j) ∈ p.info) : i = j := by
  have := findInfo_of_mem h hi
  rw [findInfo_of_mem h hj] at this
  simpa using this.symm

theorem mem_eraseP_info {l : List (Key × Info)} (h : (l.map (·.1)).Nodup) (k k' : Key) (i : Info) :
    (k', i) ∈ l.eraseP (fun p => p.1 == k) ↔ (k', i) ∈ l ∧ k' ≠ k := by
  induction l with
  | nil => simp
  | cons x xs ih =>
    obtain ⟨h1, h2⟩ := List.nodup_cons.1 (by simpa using h : (x.1 :: xs.map (·.1)).Nodup)
    by_cases hx : x.1 = k
    · rw [List.eraseP_cons_of_pos (by simp [hx])]
      constructor
      · intro hm
        refine ⟨by simp [hm], ?_⟩
        intro he; apply h1; rw [hx, ← he]; exact List.mem_map.2 ⟨_, hm, rfl⟩
      · rintro ⟨hm, hne⟩
        rcases List.mem_cons.1 hm with rfl | hm
        · exact absurd hx hne
        · exact hm
    · rw [List.eraseP_cons_of_neg (by simp [hx])]
      simp only [List.mem_cons, ih h2]
      constructor
      · rintro (rfl | ⟨a, b⟩)
        · exact ⟨Or.inl rfl, hx⟩
        · exact ⟨Or.inr a, b⟩
      · rintro ⟨rfl | a, b⟩
        · exact Or.inl rfl
        · exact Or.inr ⟨a, b⟩

@[simp] theorem queue_setQueue (p : PFifo) (q q' : QType) (l : List Key) :
    (p.setQueue q l).queue q' = if q' = q then l else p.queue q' := by
  cases q <;> cases q' <;> simp [PFifo.setQueue, PFifo.queue]
@[simp] theorem info_setQueue (p : PFifo) (q : QType) (l : List Key) : (p.setQueue q l).info = p.info := by
  cases q <;> rfl
@[simp] theorem events_setQueue (p : PFifo) (q : QType) (l : List Key) : (p.setQueue q l).events = p.events := by
  cases q <;> rfl
@[simp] theorem nextEvent_setQueue (p : PFifo) (q : QType) (l : List Key) :
    (p.setQueue q l).nextEvent = p.nextEvent := by
  cases q <;> rfl

theorem queue_mk_info (p : PFifo) (l) (q : QType) : ({ p with info := l } : PFifo).queue q = p.queue q := by
  cases q <;> rfl
theorem queue_mk_events (p : PFifo) (l) (q : QType) : ({ p with events := l } : PFifo).queue q = p.queue q := by
  cases q <;> rfl
theorem queue_mk_events' (p : PFifo) (l n) (q : QType) :
    ({ p with events := l, nextEvent := n } : PFifo).queue q = p.queue q := by
  cases q <;> rfl

/-- Result of detaching a stored key. -/
theorem detach_spec {p : PFifo} {K : Key → Prop} (h : PStr p K) {k : Key} (hk : K k) :
    ∃ p', p.detach k = some p' ∧ PStr p' (fun x => K x ∧ x ≠ k) ∧
      (∀ q, p'.queue q = (p.queue q).erase k) ∧
      (∀ k' i, (k', i) ∈ p'.info ↔ (k', i) ∈ p.info ∧ k' ≠ k) ∧
      (∀ ev, ev ∈ p'.events ↔ ev ∈ p.events ∧ ev.2.1 ≠ k) ∧ p'.nextEvent = p.nextEvent := by
  obtain ⟨i, hi⟩ := (h.infoKeys k).2 hk
  have hf := findInfo_of_mem h.infoNodup hi
  have hq : k ∈ p.queue i.qtype := (h.qInfo _ _).2 ⟨i.event, hi⟩
  let ev' := if i.qtype = .fifo then p.events.filter (fun ev => ev.1 ≠ i.event) else p.events
  let p1 : PFifo := { p with events := ev' }
  let p2 : PFifo := p1.setQueue i.qtype ((p.queue i.qtype).erase k)
  let p' : PFifo := { p2 with info := p.info.eraseP (fun q => q.1 == k) }
  have hp' : p.detach k = some p' := by
    unfold PFifo.detach
    rw [hf]
    by_cases hfq : i.qtype = .fifo
    · simp only [hfq, if_true]
      rw [queue_mk_events]
      rw [hfq] at hq
      simp [hq, p', p2, p1, ev', hfq]
    · simp only [hfq, if_false]
      simp [hq, p', p2, p1, ev', hfq]
  have hqueue : ∀ q, p'.queue q = (p.queue q).erase k := by
    intro q
    show (({ p2 with info := _ } : PFifo).queue q) = _
    rw [queue_mk_info]
    simp only [p2, queue_setQueue]
    split
    · rename_i hq; subst hq; rfl
    · rename_i hne
      simp only [p1, queue_mk_events]
      rw [List.erase_of_not_mem]
      intro hm
      obtain ⟨id, hid⟩ := (h.qInfo _ _).1 hm
      have := info_unique h.infoNodup hi hid
      rw [this] at hne; exact hne rfl
  have hinfo : ∀ k' j, (k', j) ∈ p'.info ↔ (k', j) ∈ p.info ∧ k' ≠ k :=
    fun k' j => mem_eraseP_info h.infoNodup k k' j
  have hevents : p'.events = ev' := by simp [p', p2, p1]
  have hev : ∀ ev, ev ∈ p'.events ↔ ev ∈ p.events ∧ ev.2.1 ≠ k := by
    rintro ⟨id, k2, due⟩
    rw [hevents]
    simp only [ev']
    split
    · rename_i hfq
      simp only [List.mem_filter, decide_eq_true_eq, ne_eq]
      constructor
      · rintro ⟨h1, h2⟩
        refine ⟨h1, ?_⟩
        rintro rfl
        have := info_unique h.infoNodup hi (h.evInfo _ _ _ h1)
        rw [this] at h2; exact h2 rfl
      · rintro ⟨h1, h2⟩
        refine ⟨h1, ?_⟩
        rintro rfl
        obtain ⟨due2, h3⟩ := h.infoEv k i.event (by
          have : i = ⟨.fifo, i.event⟩ := by cases i; simp_all
          rw [← this]; exact hi)
        -- same id => same event
        have key : ∀ (l : List (Nat × Key × Nat)), (l.map (·.1)).Nodup → ∀ a ∈ l, ∀ b ∈ l, a.1 = b.1 → a = b := by
          intro l
          induction l with
          | nil => intro _ a ha; cases ha
          | cons x xs ih =>
            intro hn a ha b hb hab
            obtain ⟨n1, n2⟩ := List.nodup_cons.1 (by simpa using hn : (x.1 :: xs.map (·.1)).Nodup)
            rcases List.mem_cons.1 ha with rfl | ha' <;> rcases List.mem_cons.1 hb with rfl | hb'
            · rfl
            · exact absurd (List.mem_map.2 ⟨b, hb', hab.symm⟩) n1
            · exact absurd (List.mem_map.2 ⟨a, ha', hab⟩) n1
            · exact ih n2 a ha' b hb' hab
        have := key _ h.evNodup _ h1 _ h3 rfl
        simp at this; exact h2 this.1
    · rename_i hfq
      constructor
      · intro h1
        refine ⟨h1, ?_⟩
        rintro rfl
        have := info_unique h.infoNodup hi (h.evInfo _ _ _ h1)
        rw [this] at hfq; exact hfq rfl
      · exact fun h => h.1
  have hnext : p'.nextEvent = p.nextEvent := by simp [p', p2, p1]
  refine ⟨p', hp', ?_, hqueue, hinfo, hev, hnext⟩
  constructor
  · exact h.infoNodup.sublist (List.Sublist.map _ List.eraseP_sublist)
  · intro k'
    constructor
    · rintro ⟨j, hj⟩
      have := (hinfo _ _).1 hj
      exact ⟨(h.infoKeys _).1 ⟨j, this.1⟩, this.2⟩
    · rintro ⟨h1, h2⟩
      obtain ⟨j, hj⟩ := (h.infoKeys _).2 h1
      exact ⟨j, (hinfo _ _).2 ⟨hj, h2⟩⟩
  · intro q; rw [hqueue]; exact (h.qNodup q).erase _
  · intro q k'
    rw [hqueue, (h.qNodup q).mem_erase_iff, h.qInfo]
    constructor
    · rintro ⟨h1, id, h2⟩; exact ⟨id, (hinfo _ _).2 ⟨h2, h1⟩⟩
    · rintro ⟨id, h2⟩
      have := (hinfo _ _).1 h2
      exact ⟨this.2, id, this.1⟩
  · rw [hevents]
    simp only [ev']
    split
    · exact h.evNodup.sublist (List.Sublist.map _ List.filter_sublist)
    · exact h.evNodup
  · intro ev hm; rw [hnext]; exact h.evLt ev ((hev ev).1 hm).1
  · intro id k' due hm
    have := (hev _).1 hm
    exact (hinfo _ _).2 ⟨h.evInfo _ _ _ this.1, this.2⟩
  · intro k' id hm
    have := (hinfo _ _).1 hm
    obtain ⟨due, hd⟩ := h.infoEv _ _ this.1
    exact ⟨due, (hev _).2 ⟨hd, this.2⟩⟩

/-- Queue an entry is attached to. -/
def attachQ (now : Nat) (e : Entry) : QType :=
  if e.unsolicited then .unsolicited else if !e.isFresh now then .stale else .fifo

theorem PStr.congr {p : PFifo} {K K' : Key → Prop} (h : PStr p K) (hk : ∀ k, K k ↔ K' k) : PStr p K' :=
  { h with infoKeys := fun k => (h.infoKeys k).trans (hk k) }

/-- Result of attaching a new key. -/
theorem attach_spec {p : PFifo} {K : Key → Prop} (h : PStr p K) (now : Nat) (e : Entry) (hk : ¬ K e.key) :
    ∃ p' i, p.attach now e = some p' ∧ PStr p' (fun x => K x ∨ x = e.key) ∧
      i.qtype = attachQ now e ∧
      (∀ q, p'.queue q = if q = i.qtype then p.queue q ++ [e.key] else p.queue q) ∧
      p'.info = (e.key, i) :: p.info ∧
      p'.events = (if i.qtype = .fifo then p.events ++ [(i.event, e.key, now + e.data.freshness)] else p.events) := by
  have hnone : p.findInfo e.key = none := by
    cases hf : p.findInfo e.key with
    | none => rfl
    | some i => exact absurd ((h.infoKeys _).1 ⟨i, mem_of_findInfo hf⟩) hk
  have hni : ∀ i, (e.key, i) ∉ p.info := findInfo_none hnone
  let i : Info := ⟨attachQ now e, if attachQ now e = .fifo then p.nextEvent else 0⟩
  let ev' := if attachQ now e = .fifo then p.events ++ [(p.nextEvent, e.key, now + e.data.freshness)] else p.events
  let p1 : PFifo := { p with events := ev', nextEvent := if attachQ now e = .fifo then p.nextEvent + 1 else p.nextEvent }
  let p2 : PFifo := p1.setQueue (attachQ now e) (p.queue (attachQ now e) ++ [e.key])
  let p' : PFifo := { p2 with info := (e.key, i) :: p.info }
  have hp' : p.attach now e = some p' := by
    unfold PFifo.attach
    simp only [hnone, Option.isSome_none, Bool.false_eq_true, if_false]
    by_cases hu : e.unsolicited = true
    · have : attachQ now e = .unsolicited := by simp [attachQ, hu]
      simp [hu, p', p2, p1, ev', i, this]
    · by_cases hf : e.isFresh now = true
      · have : attachQ now e = .fifo := by simp [attachQ, hu, hf]
        simp only [hu, hf, p', p2, p1, ev', i, this]
        simp [queue_mk_events']
      · have : attachQ now e = .stale := by simp [attachQ, hu, hf]
        simp only [hu, hf, p', p2, p1, ev', i, this]
        simp
  have hqueue : ∀ q, p'.queue q = if q = i.qtype then p.queue q ++ [e.key] else p.queue q := by
    intro q
    show (({ p2 with info := _ } : PFifo).queue q) = _
    rw [queue_mk_info]
    simp only [p2, queue_setQueue, i]
    split
    · rename_i hq; subst hq; rfl
    · simp only [p1, queue_mk_events']
  have hinfo : p'.info = (e.key, i) :: p.info := rfl
  have hevents : p'.events = ev' := by simp [p', p2, p1]
  have hnext : p'.nextEvent = if attachQ now e = .fifo then p.nextEvent + 1 else p.nextEvent := by simp [p', p2, p1]
  refine ⟨p', i, hp', ?_, rfl, hqueue, hinfo, ?_⟩
  · constructor
    · rw [hinfo]
      simp only [List.map_cons, List.nodup_cons]
      refine ⟨?_, h.infoNodup⟩
      intro hm
      obtain ⟨⟨k', j⟩, hj, rfl⟩ := List.mem_map.1 hm
      exact hni j hj
    · intro k'
      rw [hinfo]
      simp only [List.mem_cons, Prod.mk.injEq]
      rw [← h.infoKeys]
      constructor
      · rintro ⟨j, (⟨rfl, -⟩ | hj)⟩
        · exact Or.inr rfl
        · exact Or.inl ⟨j, hj⟩
      · rintro (⟨j, hj⟩ | rfl)
        · exact ⟨j, Or.inr hj⟩
        · exact ⟨i, Or.inl ⟨rfl, rfl⟩⟩
    · intro q
      rw [hqueue]
      split
      · refine List.nodup_append.2 ⟨h.qNodup q, by simp, ?_⟩
        rintro a ha b hb rfl
        simp at hb; subst hb
        obtain ⟨id, hid⟩ := (h.qInfo _ _).1 ha
        exact hni _ hid
      · exact h.qNodup q
    · intro q k'
      rw [hqueue, hinfo]
      split
      · rename_i hq
        rw [List.mem_append, List.mem_singleton]
        simp only [List.mem_cons, Prod.mk.injEq, h.qInfo]
        constructor
        · rintro (⟨id, hid⟩ | rfl)
          · exact ⟨id, Or.inr hid⟩
          · exact ⟨i.event, Or.inl ⟨rfl, by rw [hq]⟩⟩
        · rintro ⟨id, (⟨rfl, _⟩ | hid)⟩
          · exact Or.inr rfl
          · exact Or.inl ⟨id, hid⟩
      · rename_i hq
        simp only [List.mem_cons, Prod.mk.injEq, h.qInfo]
        constructor
        · rintro ⟨id, hid⟩; exact ⟨id, Or.inr hid⟩
        · rintro ⟨id, (⟨_, hc⟩ | hid)⟩
          · rw [← hc] at hq; exact absurd rfl hq
          · exact ⟨id, hid⟩
    · rw [hevents]
      simp only [ev']
      split
      · simp only [List.map_append, List.map_cons, List.map_nil]
        refine List.nodup_append.2 ⟨h.evNodup, by simp, ?_⟩
        rintro a ha b hb rfl
        simp at hb; subst hb
        obtain ⟨ev, hev, he⟩ := List.mem_map.1 ha
        have := h.evLt ev hev
        omega
      · exact h.evNodup
    · intro ev hm
      rw [hnext]
      rw [hevents] at hm
      simp only [ev'] at hm
      split at hm
      · rename_i hf
        rw [if_pos hf]
        rcases List.mem_append.1 hm with hm | hm
        · have := h.evLt ev hm; omega
        · simp at hm; subst hm; simp
      · rename_i hf
        rw [if_neg hf]; exact h.evLt ev hm
    · intro id k' due hm
      rw [hinfo]
      rw [hevents] at hm
      simp only [ev'] at hm
      split at hm
      · rename_i hf
        rcases List.mem_append.1 hm with hm | hm
        · exact List.mem_cons_of_mem _ (h.evInfo _ _ _ hm)
        · simp only [List.mem_singleton, Prod.mk.injEq] at hm
          obtain ⟨rfl, rfl, rfl⟩ := hm
          simp [i, hf]
      · exact List.mem_cons_of_mem _ (h.evInfo _ _ _ hm)
    · intro k' id hm
      rw [hinfo] at hm
      rw [hevents]
      rcases List.mem_cons.1 hm with hm | hm
      · simp only [Prod.mk.injEq] at hm
        obtain ⟨rfl, hi⟩ := hm
        have hq : attachQ now e = .fifo := by
          have := congrArg Info.qtype hi; simpa [i] using this.symm
        have hid : id = p.nextEvent := by
          have := congrArg Info.event hi; simpa [i, hq] using this
        exact ⟨now + e.data.freshness, by simp [ev', hq, hid]⟩
      · obtain ⟨due, hd⟩ := h.infoEv _ _ hm
        refine ⟨due, ?_⟩
        simp only [ev']
        split
        · exact List.mem_append_left _ hd
        · exact hd
  · rw [hevents]
    simp only [ev', i]
    split <;> rfl

/-- Result of moving a key whose event fires to the stale queue. -/
theorem moveToStale_spec {p : PFifo} {K : Key → Prop} (h : PStr p K) {id : Nat} {k : Key} {due : Nat}
    (hev : (id, k, due) ∈ p.events) :
    ∃ p', PFifo.moveToStale { p with events := p.events.filter (fun ev => ev.1 ≠ id) } k = some p' ∧
      PStr p' K ∧
      p'.qUnsolicited = p.qUnsolicited ∧ p'.qFifo = p.qFifo.erase k ∧ p'.qStale = p.qStale ++ [k] ∧
      (∀ k' i, (k', i) ∈ p'.info ↔ ((k', i) ∈ p.info ∧ k' ≠ k) ∨ (k' = k ∧ i = ⟨.stale, id⟩)) ∧
      (∀ ev, ev ∈ p'.events ↔ ev ∈ p.events ∧ ev.1 ≠ id) ∧ k ∈ p.qFifo := by
  have hi := h.evInfo _ _ _ hev
  have hf := findInfo_of_mem h.infoNodup hi
  have hq : k ∈ p.qFifo := (h.qInfo .fifo k).2 ⟨id, hi⟩
  have hns : k ∉ p.qStale := by
    intro hm
    obtain ⟨id', h'⟩ := (h.qInfo .stale k).1 hm
    have := info_unique h.infoNodup hi h'
    cases this
  have hnu : k ∉ p.qUnsolicited := by
    intro hm
    obtain ⟨id', h'⟩ := (h.qInfo .unsolicited k).1 hm
    have := info_unique h.infoNodup hi h'
    cases this
  let p1 : PFifo := { p with events := p.events.filter (fun ev => ev.1 ≠ id) }
  let p' : PFifo := { p1 with
          qFifo := p.qFifo.erase k
          qStale := p.qStale ++ [k]
          info := p.info.map (fun q => if q.1 = k then (k, { q.2 with qtype := .stale }) else q) }
  have hp' : PFifo.moveToStale p1 k = some p' := by
    have hf1 : p1.findInfo k = some ⟨.fifo, id⟩ := hf
    have hq1 : k ∈ p1.qFifo := hq
    unfold PFifo.moveToStale
    rw [hf1]
    simp only [if_true, List.contains_iff_mem, hq1]
    rfl
  have hinfo : ∀ k' i, (k', i) ∈ p'.info ↔ ((k', i) ∈ p.info ∧ k' ≠ k) ∨ (k' = k ∧ i = ⟨.stale, id⟩) := by
    intro k' i
    simp only [p', List.mem_map]
    constructor
    · rintro ⟨⟨k2, j⟩, hj, he⟩
      by_cases hk : k2 = k
      · subst hk
        simp only [if_true, Prod.mk.injEq] at he
        obtain ⟨rfl, rfl⟩ := he
        have := info_unique h.infoNodup hi hj
        subst this
        exact Or.inr ⟨rfl, rfl⟩
      · simp only [hk, if_false, Prod.mk.injEq] at he
        obtain ⟨rfl, rfl⟩ := he
        exact Or.inl ⟨hj, hk⟩
    · rintro (⟨h1, h2⟩ | ⟨rfl, rfl⟩)
      · exact ⟨_, h1, by simp [h2]⟩
      · exact ⟨_, hi, by simp⟩
  have hevs : ∀ ev, ev ∈ p'.events ↔ ev ∈ p.events ∧ ev.1 ≠ id := by
    intro ev; simp [p', p1]
  refine ⟨p', hp', ?_, rfl, rfl, rfl, hinfo, hevs, hq⟩
  constructor
  · simp only [p', List.map_map]
    have : (fun q : Key × Info => q.1) ∘ (fun q => if q.1 = k then (k, { q.2 with qtype := QType.stale }) else q)
        = (fun q => q.1) := by
      funext q; simp only [Function.comp]; split <;> simp_all
    rw [this]; exact h.infoNodup
  · intro k'
    rw [← h.infoKeys]
    constructor
    · rintro ⟨j, hj⟩
      rcases (hinfo _ _).1 hj with ⟨h1, _⟩ | ⟨rfl, _⟩
      · exact ⟨j, h1⟩
      · exact ⟨_, hi⟩
    · rintro ⟨j, hj⟩
      by_cases hk : k' = k
      · exact ⟨_, (hinfo _ _).2 (Or.inr ⟨hk, rfl⟩)⟩
      · exact ⟨j, (hinfo _ _).2 (Or.inl ⟨hj, hk⟩)⟩
  · intro q
    cases q
    · exact h.qNodup .unsolicited
    · refine List.nodup_append.2 ⟨h.qNodup .stale, by simp, ?_⟩
      rintro a ha b hb rfl
      simp at hb; subst hb; exact hns ha
    · exact (h.qNodup .fifo).erase _
  · intro q k'
    cases q
    · show k' ∈ p.qUnsolicited ↔ _
      have := h.qInfo .unsolicited k'
      simp only [PFifo.queue] at this
      rw [this]
      constructor
      · rintro ⟨id', h1⟩
        refine ⟨id', (hinfo _ _).2 (Or.inl ⟨h1, ?_⟩)⟩
        rintro rfl
        exact hnu (this.2 ⟨id', h1⟩)
      · rintro ⟨id', h1⟩
        rcases (hinfo _ _).1 h1 with ⟨h1, _⟩ | ⟨_, h1⟩
        · exact ⟨id', h1⟩
        · cases h1
    · show k' ∈ p.qStale ++ [k] ↔ _
      have := h.qInfo .stale k'
      simp only [PFifo.queue] at this
      rw [List.mem_append, this, List.mem_singleton]
      constructor
      · rintro (⟨id', h1⟩ | rfl)
        · refine ⟨id', (hinfo _ _).2 (Or.inl ⟨h1, ?_⟩)⟩
          rintro rfl
          exact hns (this.2 ⟨id', h1⟩)
        · exact ⟨id, (hinfo _ _).2 (Or.inr ⟨rfl, rfl⟩)⟩
      · rintro ⟨id', h1⟩
        rcases (hinfo _ _).1 h1 with ⟨h1, _⟩ | ⟨h1, _⟩
        · exact Or.inl ⟨id', h1⟩
        · exact Or.inr h1
    · show k' ∈ p.qFifo.erase k ↔ _
      have := h.qInfo .fifo k'
      simp only [PFifo.queue] at this
      have hn : p.qFifo.Nodup := h.qNodup .fifo
      rw [hn.mem_erase_iff, this]
      constructor
      · rintro ⟨h0, id', h1⟩
        exact ⟨id', (hinfo _ _).2 (Or.inl ⟨h1, h0⟩)⟩
      · rintro ⟨id', h1⟩
        rcases (hinfo _ _).1 h1 with ⟨h1, h2⟩ | ⟨_, h1⟩
        · exact ⟨h2, id', h1⟩
        · cases h1
  · exact h.evNodup.sublist (List.Sublist.map _ List.filter_sublist)
  · intro ev hm; exact h.evLt ev ((hevs ev).1 hm).1
  · intro id' k' due' hm
    obtain ⟨h1, h2⟩ := (hevs _).1 hm
    refine (hinfo _ _).2 (Or.inl ⟨h.evInfo _ _ _ h1, ?_⟩)
    rintro rfl
    have := info_unique h.infoNodup hi (h.evInfo _ _ _ h1)
    simp at this; exact h2 this.symm
  · intro k' id' hm
    rcases (hinfo _ _).1 hm with ⟨h1, h2⟩ | ⟨_, h1⟩
    · obtain ⟨due', hd⟩ := h.infoEv _ _ h1
      refine ⟨due', (hevs _).2 ⟨hd, ?_⟩⟩
      rintro rfl
      -- same event id, different key: impossible
      have key : ∀ (l : List (Nat × Key × Nat)), (l.map (·.1)).Nodup → ∀ a ∈ l, ∀ b ∈ l, a.1 = b.1 → a = b := by
        intro l
        induction l with
        | nil => intro _ a ha; cases ha
        | cons x xs ih =>
          intro hn a ha b hb hab
          obtain ⟨n1, n2⟩ := List.nodup_cons.1 (by simpa using hn : (x.1 :: xs.map (·.1)).Nodup)
          rcases List.mem_cons.1 ha with rfl | ha' <;> rcases List.mem_cons.1 hb with rfl | hb'
          · rfl
          · exact absurd (List.mem_map.2 ⟨b, hb', hab.symm⟩) n1
          · exact absurd (List.mem_map.2 ⟨a, ha', hab⟩) n1
          · exact ih n2 a ha' b hb' hab
      have := key _ h.evNodup _ hd _ hev rfl
      simp at this; exact h2 this.1
    · cases h1

/-- Eviction order of the three queues. -/
def PFifo.order (p : PFifo) : List Key := p.qUnsolicited ++ p.qStale ++ p.qFifo

theorem mem_order {p : PFifo} {K : Key → Prop} (h : PStr p K) (k : Key) : k ∈ p.order ↔ K k := by
  rw [← h.infoKeys]
  simp only [PFifo.order, List.mem_append]
  have h1 := h.qInfo .unsolicited k
  have h2 := h.qInfo .stale k
  have h3 := h.qInfo .fifo k
  simp only [PFifo.queue] at h1 h2 h3
  rw [h1, h2, h3]
  constructor
  · rintro ((⟨id, h⟩ | ⟨id, h⟩) | ⟨id, h⟩) <;> exact ⟨_, h⟩
  · rintro ⟨⟨q, id⟩, h⟩
    cases q
    · exact Or.inl (Or.inl ⟨id, h⟩)
    · exact Or.inl (Or.inr ⟨id, h⟩)
    · exact Or.inr ⟨id, h⟩

theorem queue_disjoint {p : PFifo} {K : Key → Prop} (h : PStr p K) {q q' : QType} {k : Key}
    (h1 : k ∈ p.queue q) (h2 : k ∈ p.queue q') : q = q' := by
  obtain ⟨id, h1⟩ := (h.qInfo _ _).1 h1
  obtain ⟨id', h2⟩ := (h.qInfo _ _).1 h2
  have := info_unique h.infoNodup h1 h2
  simp at this; exact this.1

theorem order_erase_victim {p p' : PFifo} {K : Key → Prop} (h : PStr p K) {k : Key} (hv : p.victim = some k)
    (hq : ∀ q, p'.queue q = (p.queue q).erase k) :
    p.order = k :: p'.order ∧ ∀ q, p'.queue q <:+ p.queue q := by
  obtain ⟨q0, tl, h0⟩ : ∃ q0 tl, p.queue q0 = k :: tl := by
    unfold PFifo.victim at hv
    split at hv
    · rename_i h1; cases hv; exact ⟨.unsolicited, _, h1⟩
    · rename_i h1 h2; cases hv; exact ⟨.stale, _, h2⟩
    · rename_i h1 h2 h3; cases hv; exact ⟨.fifo, _, h3⟩
    · cases hv
  have hother : ∀ q, q ≠ q0 → p'.queue q = p.queue q := by
    intro q hne
    rw [hq, List.erase_of_not_mem]
    intro hm
    exact hne (queue_disjoint h hm (by rw [h0]; simp))
  have hsame : p'.queue q0 = tl := by rw [hq, h0]; simp
  refine ⟨?_, ?_⟩
  · unfold PFifo.victim at hv
    split at hv
    · rename_i h1; cases hv
      have : q0 = .unsolicited := queue_disjoint h (k := k) (by rw [h0]; simp) (by
        show k ∈ p.qUnsolicited; rw [h1]; simp)
      subst this
      have e1 := hother .stale (by simp)
      have e2 := hother .fifo (by simp)
      simp only [PFifo.queue] at *
      simp [PFifo.order, h0, hsame, e1, e2]
    · rename_i h1 h2; cases hv
      have : q0 = .stale := queue_disjoint h (k := k) (by rw [h0]; simp) (by
        show k ∈ p.qStale; rw [h2]; simp)
      subst this
      have e1 := hother .unsolicited (by simp)
      have e2 := hother .fifo (by simp)
      simp only [PFifo.queue] at *
      simp [PFifo.order, h0, hsame, e1, e2, h1]
    · rename_i h1 h2 h3; cases hv
      have : q0 = .fifo := queue_disjoint h (k := k) (by rw [h0]; simp) (by
        show k ∈ p.qFifo; rw [h3]; simp)
      subst this
      have e1 := hother .unsolicited (by simp)
      have e2 := hother .stale (by simp)
      simp only [PFifo.queue] at *
      simp [PFifo.order, h0, hsame, e1, e2, h1, h2]
    · cases hv
  · intro q
    by_cases he : q = q0
    · subst he; rw [hsame, h0]; exact List.suffix_cons _ _
    · rw [hother q he]; exact List.suffix_refl _

/-- Eviction never faults; it removes an initial segment of the eviction order. -/
theorem pfifoEvict_spec (limit : Nat) : ∀ (fuel : Nat) {p : PFifo} {t : Table}, Sorted t →
    PStr p (· ∈ keys t) → t.length ≤ fuel →
    ∃ t' p' ev, PFifo.evict limit fuel p t = some (t', p') ∧ p.order = ev ++ p'.order ∧ Sorted t' ∧
      PStr p' (· ∈ keys t') ∧ t'.length ≤ limit ∧ (∀ e, e ∈ t' ↔ e ∈ t ∧ e.key ∉ ev) ∧
      (∀ q, p'.queue q <:+ p.queue q) ∧
      (∀ k i, (k, i) ∈ p'.info ↔ (k, i) ∈ p.info ∧ k ∉ ev) ∧
      (∀ v, v ∈ p'.events ↔ v ∈ p.events ∧ v.2.1 ∉ ev) ∧ (ev = [] ∨ t'.length = limit) := by
  intro fuel
  induction fuel with
  | zero =>
    intro p t hs hp hl
    have ht : t = [] := List.length_eq_zero_iff.1 (by omega)
    subst ht
    refine ⟨[], p, [], ?_, rfl, hs, hp, by simp, by simp, fun q => List.suffix_refl _, by simp, by simp, Or.inl rfl⟩
    simp [PFifo.evict]
  | succ fuel ih =>
    intro p t hs hp hl
    by_cases hgt : t.length > limit
    · -- there is a victim
      have hne : t ≠ [] := by rintro rfl; simp at hgt
      obtain ⟨x, hx⟩ := List.exists_mem_of_ne_nil t hne
      have hxo : x.key ∈ p.order := (mem_order hp _).2 (mem_keys_of_mem hx)
      obtain ⟨k, hv⟩ : ∃ k, p.victim = some k := by
        unfold PFifo.victim
        split
        · exact ⟨_, rfl⟩
        · exact ⟨_, rfl⟩
        · exact ⟨_, rfl⟩
        · rename_i h1 h2 h3
          simp [PFifo.order, h1, h2, h3] at hxo
      have hko : k ∈ p.order := by
        unfold PFifo.victim at hv
        split at hv <;> simp_all [PFifo.order]
      have hk : k ∈ keys t := (mem_order hp _).1 hko
      obtain ⟨p1, d1, d2, d3, d4, d5, d6⟩ := detach_spec hp hk
      obtain ⟨t1, e1, e2, e3, e4⟩ := tableErase_some hs hk
      obtain ⟨o1, o2⟩ := order_erase_victim hp hv d3
      have hp1 : PStr p1 (· ∈ keys t1) := d2.congr (fun k' => (keys_erase e4 k').symm)
      obtain ⟨t', p', ev, g1, g2, g3, g4, g5, g6, g7, g8, g9, g10⟩ := ih e2 hp1 (by omega)
      refine ⟨t', p', k :: ev, ?_, by rw [o1, g2]; rfl, g3, g4, g5, ?_, ?_, ?_, ?_, ?_⟩
      · unfold PFifo.evict
        simp [hgt, PFifo.evictOne, hv, d1, e1, g1]
      · intro e; rw [g6, e4]; simp [and_assoc]
      · intro q; exact (g7 q).trans (o2 q)
      · intro k' i; rw [g8, d4]; simp [and_assoc]
      · intro v; rw [g9, d5]; simp [and_assoc]
      · right
        rcases g10 with rfl | g10
        · by_cases hgt1 : t1.length > limit
          · exfalso
            have : t'.length = t1.length := by
              have : ∀ e, e ∈ t' ↔ e ∈ t1 := by intro e; rw [g6]; simp
              have n1 := keys_nodup g3
              have n2 := keys_nodup e2
              have l1 : (keys t').length ≤ (keys t1).length := by
                apply List.Nodup.length_le_of_subset n1
                intro k hk; obtain ⟨e, he, rfl⟩ := List.mem_map.1 hk
                exact mem_keys_of_mem ((this e).1 he)
              have l2 : (keys t1).length ≤ (keys t').length := by
                apply List.Nodup.length_le_of_subset n2
                intro k hk; obtain ⟨e, he, rfl⟩ := List.mem_map.1 hk
                exact mem_keys_of_mem ((this e).2 he)
              simp [keys] at l1 l2; omega
            omega
          · have : t'.length = t1.length := by
              unfold PFifo.evict at g1
              simp [hgt1] at g1
              rw [g1.1]
            omega
        · exact g10
    · refine ⟨t, p, [], ?_, rfl, hs, hp, by omega, by simp, fun q => List.suffix_refl _, by simp, by simp, Or.inl rfl⟩
      unfold PFifo.evict; simp [hgt]

end Verif.Cs
