import Verif.Cs.PFifoLemmas
import Verif.Cs.Spec

namespace Verif.Cs
open Std

/-! ### Touch log -/

theorem TouchedAfter.append {log : List Key} {a b c : Key} (h : TouchedAfter log a b) (hne : a ≠ c) :
    TouchedAfter (log ++ [c]) a b := by
  obtain ⟨pre, post, rfl, h1, h2⟩ := h
  exact ⟨pre, post ++ [c], by simp, by simp [h1, hne], by simp [h2]⟩

theorem exists_last {log : List Key} {a : Key} (h : a ∈ log) : ∃ pre post, log = pre ++ a :: post ∧ a ∉ post := by
  induction log with
  | nil => cases h
  | cons x xs ih =>
    by_cases hx : a ∈ xs
    · obtain ⟨pre, post, rfl, h⟩ := ih hx
      exact ⟨x :: pre, post, rfl, by assumption⟩
    · rcases List.mem_cons.1 h with rfl | h
      · exact ⟨[], xs, rfl, hx⟩
      · exact absurd h hx

theorem touchedAfter_last {log : List Key} {a c : Key} (h : a ∈ log) (hne : a ≠ c) :
    TouchedAfter (log ++ [c]) a c := by
  obtain ⟨pre, post, rfl, h1⟩ := exists_last h
  exact ⟨pre, post ++ [c], by simp, by simp [h1, hne], by simp⟩

/-- A queue ordered by the last event of its members. -/
structure QOrd (q : List Key) (log : List Key) : Prop where
  pw : q.Pairwise (TouchedAfter log)
  mem : ∀ k ∈ q, k ∈ log

theorem QOrd.nil (log) : QOrd [] log := ⟨List.Pairwise.nil, by simp⟩

theorem QOrd.sublist {q q' log} (h : QOrd q log) (hs : q'.Sublist q) : QOrd q' log :=
  ⟨h.pw.sublist hs, fun k hk => h.mem k (hs.subset hk)⟩

theorem QOrd.log {q log} {c : Key} (h : QOrd q log) (hc : c ∉ q) : QOrd q (log ++ [c]) := by
  refine ⟨?_, fun k hk => List.mem_append_left _ (h.mem k hk)⟩
  refine h.pw.imp_of_mem ?_
  intro a b ha _ hab
  exact hab.append (fun he => hc (he ▸ ha))

theorem QOrd.push {q log} {c : Key} (h : QOrd q log) (hc : c ∉ q) : QOrd (q ++ [c]) (log ++ [c]) := by
  have h' := h.log hc
  refine ⟨?_, ?_⟩
  · refine List.pairwise_append.2 ⟨h'.pw, by simp, ?_⟩
    intro a ha b hb
    simp at hb; subst hb
    exact touchedAfter_last (h.mem a ha) (fun he => hc (he ▸ ha))
  · intro k hk
    rcases List.mem_append.1 hk with hk | hk
    · exact h'.mem k hk
    · simp at hk; simp [hk]

/-! ### Invariant -/

/-- Class facts of priority_fifo. -/
def PCls (p : PFifo) (t : Table) (now : Nat) : Prop :=
  ∀ k i, (k, i) ∈ p.info → ∀ e ∈ t, e.key = k →
    match i.qtype with
    | .unsolicited => e.unsolicited = true
    | .stale => e.unsolicited = false ∧ e.freshUntil ≤ now
    | .fifo => e.unsolicited = false ∧ (i.event, k, e.freshUntil) ∈ p.events

def PolInv (pol : Policy) (t : Table) (now : Nat) (log : List Key) : Prop :=
  match pol with
  | .lru q => LruInv q t ∧ QOrd q log
  | .pfifo p => PStr p (· ∈ keys t) ∧ PCls p t now ∧ ∀ q, QOrd (p.queue q) log

/-- Invariant of reachable Content Stores (relative to the event log). -/
structure Inv (s : Cs) (log : List Key) : Prop where
  sorted : Sorted s.table
  cap : s.table.length ≤ s.limit
  pol : PolInv s.policy s.table s.now log

/-- Outcome of `evictEntries`. -/
theorem evict_spec {s : Cs} {log : List Key} (hs : Sorted s.table) (hp : PolInv s.policy s.table s.now log) :
    ∃ s' ev, s.evictEntries = some s' ∧ Inv s' log ∧ s'.limit = s.limit ∧ s'.now = s.now ∧ s'.admit = s.admit ∧
      s'.serve = s.serve ∧ s'.kind = s.kind ∧ (∀ e, e ∈ s'.table ↔ e ∈ s.table ∧ e.key ∉ ev) ∧
      (ev = [] ∨ s'.table.length = s.limit) ∧
      (match s.policy, s'.policy with
       | .lru q, .lru q' => q = ev ++ q'
       | .pfifo p, .pfifo p' => p.order = ev ++ p'.order ∧ (∀ q, p'.queue q <:+ p.queue q) ∧
          (∀ v, v ∈ p'.events ↔ v ∈ p.events ∧ v.2.1 ∉ ev)
       | _, _ => False) := by
  unfold Cs.evictEntries
  cases hpol : s.policy with
  | lru q =>
    rw [hpol] at hp
    obtain ⟨h1, h2⟩ := hp
    obtain ⟨t', ev, q', g1, g2, g3, g4, g5, g6, g7⟩ := lruEvict_spec s.limit hs h1
    refine ⟨{ s with table := t', policy := .lru q' }, ev, by simp only [g1], ⟨g3, g5, g4, ?_⟩, rfl, rfl, rfl, rfl, by simp [Cs.kind, hpol], g6, g7, g2⟩
    rw [g2] at h2
    exact h2.sublist (List.sublist_append_right _ _)
  | pfifo p =>
    rw [hpol] at hp
    obtain ⟨h1, h2, h3⟩ := hp
    obtain ⟨t', p', ev, g1, g2, g3, g4, g5, g6, g7, g8, g9, g10⟩ := pfifoEvict_spec s.limit s.table.length hs h1 (Nat.le_refl _)
    refine ⟨{ s with table := t', policy := .pfifo p' }, ev, by simp only [g1], ⟨g3, g5, g4, ?_, ?_⟩, rfl, rfl, rfl, rfl, by simp [Cs.kind, hpol], g6, g10, g2, g7, g9⟩
    · intro k i hi e he hek
      have hi' := (g8 _ _).1 hi
      have := h2 k i hi'.1 e ((g6 e).1 he).1 hek
      cases hq : i.qtype <;> simp only [hq] at this ⊢
      · exact this
      · exact this
      · exact ⟨this.1, (g9 _).2 ⟨this.2, hi'.2⟩⟩
    · intro q
      exact (h3 q).sublist (g7 q).sublist

/-- The table the code has after the two in-place updates of `Cs::insert`, before the policy runs. -/
def preInsert (s : Cs) (d : Data) (u : Bool) : Table × Bool :=
  let k := keyOf d
  let r := emplace ⟨d, u, s.now + d.freshness⟩ s.table
  let t := modify k (Entry.updateFreshUntil s.now) r.1
  if !r.2 then
    (modify k (fun e => if e.unsolicited && !u then { e with unsolicited := false } else e) t, false)
  else (t, true)

theorem upd_data (now : Nat) (e : Entry) : (e.updateFreshUntil now).data = e.data := rfl
theorem clr_data (u : Bool) (e : Entry) :
    (if e.unsolicited && !u then { e with unsolicited := false } else e : Entry).data = e.data := by
  split <;> rfl

theorem preInsert_spec {s : Cs} {d : Data} {u : Bool} (hs : Sorted s.table) :
    Sorted (preInsert s d u).1 ∧
    (∀ e, e ∈ (preInsert s d u).1 ↔ (e ∈ s.table ∧ e.key ≠ keyOf d) ∨ e = inserted s d u) ∧
    (inserted s d u).key = keyOf d ∧
    ((preInsert s d u).2 = true ↔ keyOf d ∉ keys s.table) := by
  by_cases hk : keyOf d ∈ keys s.table
  · have he : emplace ⟨d, u, s.now + d.freshness⟩ s.table = (s.table, false) := emplace_mem hs hk
    obtain ⟨old, hl, ho, hok⟩ := lookup_isSome hk
    have hins : inserted s d u =
        { old with unsolicited := old.unsolicited && u, freshUntil := s.now + old.data.freshness } := by
      unfold inserted
      have : s.table.find? (fun e => e.key == keyOf d) = some old := hl
      rw [this]
    have hpre : preInsert s d u = (modify (keyOf d) (fun e => if e.unsolicited && !u then { e with unsolicited := false } else e)
        (modify (keyOf d) (Entry.updateFreshUntil s.now) s.table), false) := by
      unfold preInsert
      simp [he]
    rw [hpre]
    refine ⟨modify_sorted (clr_data u) (modify_sorted (upd_data _) hs), ?_, ?_, ?_⟩
    · intro e
      rw [mem_modify]
      constructor
      · rintro ⟨e1, h1, rfl⟩
        obtain ⟨e2, h2, rfl⟩ := mem_modify.1 h1
        by_cases h2k : e2.key = keyOf d
        · right
          have : e2 = old := eq_of_key hs h2 ho (by rw [h2k, hok])
          subst this
          rw [hins]
          have hk2 : (e2.updateFreshUntil s.now).key = keyOf d := h2k
          simp only [h2k, if_true, hk2]
          cases hu : u <;> cases ho2 : e2.unsolicited <;> simp [Entry.updateFreshUntil, ho2]
        · left
          simp [h2k, h2]
      · rintro (⟨h1, h2⟩ | rfl)
        · exact ⟨e, mem_modify.2 ⟨e, h1, by simp [h2]⟩, by simp [h2]⟩
        · refine ⟨old.updateFreshUntil s.now, mem_modify.2 ⟨old, ho, by simp [hok]⟩, ?_⟩
          have hk2 : (old.updateFreshUntil s.now).key = keyOf d := hok
          simp only [hk2, if_true]
          rw [hins]
          cases hu : u <;> cases ho2 : old.unsolicited <;> simp [Entry.updateFreshUntil, ho2]
    · rw [hins]; exact hok
    · simp [hk]
  · have hl : s.table.find? (fun e => e.key == keyOf d) = none := by
      rw [List.find?_eq_none]
      intro e he
      simp only [beq_iff_eq]
      intro hek; exact hk (hek ▸ mem_keys_of_mem he)
    have hins : inserted s d u = ⟨d, u, s.now + d.freshness⟩ := by
      unfold inserted; rw [hl]
    obtain ⟨n1, n2⟩ := emplace_new (e := ⟨d, u, s.now + d.freshness⟩) (t := s.table) hk
    have hpre : preInsert s d u = (modify (keyOf d) (Entry.updateFreshUntil s.now)
        (emplace ⟨d, u, s.now + d.freshness⟩ s.table).1, true) := by
      unfold preInsert
      simp [n1]
    rw [hpre]
    refine ⟨modify_sorted (upd_data _) (emplace_sorted hs), ?_, ?_, ?_⟩
    · intro e
      rw [mem_modify]
      constructor
      · rintro ⟨e1, h1, rfl⟩
        rcases List.mem_cons.1 (n2.mem_iff.1 h1) with rfl | h1
        · right; rw [hins]
          have : (⟨d, u, s.now + d.freshness⟩ : Entry).key = keyOf d := rfl
          simp [this, Entry.updateFreshUntil]
        · left
          have : e1.key ≠ keyOf d := fun he => hk (he ▸ mem_keys_of_mem h1)
          simp [this, h1]
      · rintro (⟨h1, h2⟩ | rfl)
        · exact ⟨e, n2.mem_iff.2 (List.mem_cons_of_mem _ h1), by simp [h2]⟩
        · refine ⟨⟨d, u, s.now + d.freshness⟩, n2.mem_iff.2 (by simp), ?_⟩
          rw [hins]
          have : (⟨d, u, s.now + d.freshness⟩ : Entry).key = keyOf d := rfl
          simp [this, Entry.updateFreshUntil]
    · rw [hins]; rfl
    · simp [hk]

theorem insert_eq (s : Cs) (d : Data) (u : Bool) :
    s.insert d u = if Admitted s d then
      (if (preInsert s d u).2 then Cs.afterInsert { s with table := (preInsert s d u).1 } (keyOf d)
       else Cs.afterRefresh { s with table := (preInsert s d u).1 } (keyOf d))
    else some s := by
  by_cases ha : Admitted s d
  · rw [if_pos ha]
    obtain ⟨h1, h2, h3⟩ := ha
    have hc : (!s.admit || s.limit == 0) = false := by simp [h1, h2]
    unfold Cs.insert preInsert
    simp only [hc, h3, Bool.false_eq_true, if_false]
    cases (emplace ⟨d, u, s.now + d.freshness⟩ s.table).2 <;> simp
  · rw [if_neg ha]
    unfold Cs.insert
    by_cases hc : (!s.admit || s.limit == 0) = true
    · simp [hc]
    · by_cases hn : d.noCache = true
      · simp only [hc, hn, if_true]; simp
      · exfalso; apply ha
        simp only [Bool.or_eq_true, Bool.not_eq_true', beq_iff_eq, not_or] at hc
        exact ⟨by simpa using hc.1, hc.2, by simpa using hn⟩

theorem inserted_fresh (s : Cs) (d : Data) (u : Bool) :
    (inserted s d u).freshUntil = s.now + (inserted s d u).data.freshness := by
  unfold inserted; split <;> rfl

/-- keys of the pre-eviction table -/
theorem preInsert_keys {s : Cs} {d : Data} {u : Bool} (hs : Sorted s.table) (k : Key) :
    k ∈ keys (preInsert s d u).1 ↔ k ∈ keys s.table ∨ k = keyOf d := by
  obtain ⟨-, h2, h3, -⟩ := preInsert_spec (d := d) (u := u) hs
  simp only [keys, List.mem_map]
  constructor
  · rintro ⟨e, he, rfl⟩
    rcases (h2 e).1 he with ⟨h, _⟩ | rfl
    · exact Or.inl ⟨e, h, rfl⟩
    · exact Or.inr h3
  · intro h
    by_cases hk : k = keyOf d
    · exact ⟨_, (h2 _).2 (Or.inr rfl), by rw [h3, hk]⟩
    · rcases h with ⟨e, he, rfl⟩ | h
      · exact ⟨e, (h2 e).2 (Or.inl ⟨he, hk⟩), rfl⟩
      · exact absurd h hk

theorem attachQ_inserted (s : Cs) (d : Data) (u : Bool) :
    attachQ s.now (inserted s d u) = if (inserted s d u).unsolicited then .unsolicited else .fifo := by
  unfold attachQ
  have := inserted_fresh s d u
  have hf : (inserted s d u).isFresh s.now = true := by
    simp only [Entry.isFresh, decide_eq_true_eq]; omega
  simp [hf]

/-- The policy state after an accepted insertion, before eviction. -/
theorem pfifo_attach_inv {s : Cs} {d : Data} {u : Bool} {p : PFifo} {log : List Key} {K : Key → Prop}
    (hs : Sorted s.table)
    (h1 : PStr p K) (hK : ∀ k, (K k ∨ k = keyOf d) ↔ (k ∈ keys s.table ∨ k = keyOf d)) (hn : ¬ K (keyOf d))
    (h2 : ∀ k i, (k, i) ∈ p.info → ∀ e ∈ s.table, e.key = k → k ≠ keyOf d →
      match i.qtype with
      | .unsolicited => e.unsolicited = true
      | .stale => e.unsolicited = false ∧ e.freshUntil ≤ s.now
      | .fifo => e.unsolicited = false ∧ (i.event, k, e.freshUntil) ∈ p.events)
    (h3 : ∀ q, QOrd (p.queue q) log) :
    ∃ p', p.attach s.now (inserted s d u) = some p' ∧
      PolInv (.pfifo p') (preInsert s d u).1 s.now (log ++ [keyOf d]) := by
  obtain ⟨q1, q2, q3, q4⟩ := preInsert_spec (d := d) (u := u) hs
  obtain ⟨p', i, a1, a2, a3, a4, a5, a6⟩ := attach_spec h1 s.now (inserted s d u) (by rw [q3]; exact hn)
  rw [q3] at a2 a4 a5 a6
  refine ⟨p', a1, a2.congr ?_, ?_, ?_⟩
  · intro k; rw [preInsert_keys hs]; exact hK k
  · intro k j hj e he hek
    rw [a5] at hj
    rcases List.mem_cons.1 hj with hj | hj
    · simp only [Prod.mk.injEq] at hj
      obtain ⟨rfl, rfl⟩ := hj
      have hee : e = inserted s d u := by
        rcases (q2 e).1 he with ⟨_, h⟩ | h
        · exact absurd hek h
        · exact h
      subst hee
      rw [attachQ_inserted] at a3
      cases hu : (inserted s d u).unsolicited
      · simp only [hu, Bool.false_eq_true, if_false] at a3
        simp only [a3]
        refine ⟨trivial, ?_⟩
        rw [a6, if_pos a3, inserted_fresh]
        simp
      · simp only [hu, if_true] at a3
        simp only [a3]
    · have hne : k ≠ keyOf d := by
        rintro rfl
        exact hn ((h1.infoKeys _).1 ⟨j, hj⟩)
      have hes : e ∈ s.table := by
        rcases (q2 e).1 he with ⟨h, _⟩ | h
        · exact h
        · subst h; rw [q3] at hek; exact absurd hek.symm hne
      have := h2 k j hj e hes hek hne
      cases hq : j.qtype <;> simp only [hq] at this ⊢
      · exact this
      · exact this
      · refine ⟨this.1, ?_⟩
        rw [a6]; split
        · exact List.mem_append_left _ this.2
        · exact this.2
  · intro q
    have hnq : keyOf d ∉ p.queue q := by
      intro hm
      obtain ⟨id, hid⟩ := (h1.qInfo _ _).1 hm
      exact hn ((h1.infoKeys _).1 ⟨_, hid⟩)
    rw [a4]
    split
    · exact (h3 q).push hnq
    · exact (h3 q).log hnq

/-- An accepted insertion: no fault, invariant kept; the result is the unlimited result minus evicted keys. -/
theorem insert_spec {s : Cs} {log : List Key} (hi : Inv s log) (d : Data) (u : Bool) (ha : Admitted s d) :
    ∃ s' ev, s.insert d u = some s' ∧ Inv s' (log ++ [keyOf d]) ∧ s'.limit = s.limit ∧ s'.now = s.now ∧
      s'.admit = s.admit ∧ s'.serve = s.serve ∧ s'.kind = s.kind ∧
      (∀ e, e ∈ s'.table ↔ ((e ∈ s.table ∧ e.key ≠ keyOf d) ∨ e = inserted s d u) ∧ e.key ∉ ev) ∧
      (ev = [] ∨ s'.table.length = s.limit) ∧ (keyOf d ∈ keys s.table → ev = []) ∧
      (match s'.policy with
       | .lru q' => ∃ q, PolInv (.lru q) (preInsert s d u).1 s.now (log ++ [keyOf d]) ∧ q = ev ++ q'
       | .pfifo p' => ∃ p, PolInv (.pfifo p) (preInsert s d u).1 s.now (log ++ [keyOf d]) ∧
          p.order = ev ++ p'.order ∧ (∀ q, p'.queue q <:+ p.queue q) ∧
          (∀ v, v ∈ p'.events ↔ v ∈ p.events ∧ v.2.1 ∉ ev) ∧
          (∀ v, v ∈ p.events → v.2.1 ≠ keyOf d → ∃ p0, s.policy = .pfifo p0 ∧ v ∈ p0.events) ∧
          (∀ v, v ∈ p.events → v.2.1 = keyOf d → s.now ≤ v.2.2)) := by
  obtain ⟨q1, q2, q3, q4⟩ := preInsert_spec (d := d) (u := u) hi.sorted
  rw [insert_eq, if_pos ha]
  by_cases hk : keyOf d ∈ keys s.table
  · -- refresh
    have hnew : (preInsert s d u).2 = false := by
      cases h : (preInsert s d u).2
      · rfl
      · exact absurd hk (q4.1 h)
    rw [hnew]
    simp only [Bool.false_eq_true, if_false]
    have hpol := hi.pol
    have hlen : (preInsert s d u).1.length ≤ s.limit := by
      have n1 := keys_nodup q1
      have := n1.length_le_of_subset (l₂ := keys s.table) (by
        intro k hkk
        rcases (preInsert_keys hi.sorted k).1 hkk with h | rfl
        · exact h
        · exact hk)
      have hc := hi.cap
      simp [keys] at this; omega
    unfold Cs.afterRefresh
    cases hp : s.policy with
    | lru q =>
      rw [hp] at hpol
      obtain ⟨⟨a1, a2⟩, a3⟩ := hpol
      have hkq : keyOf d ∈ q := (a2 _).2 hk
      simp only [lruInsert_old hkq]
      have hne : keyOf d ∉ q.erase (keyOf d) := fun hm => (a1.mem_erase_iff.1 hm).1 rfl
      have hmem : ∀ k, k ∈ q.erase (keyOf d) ++ [keyOf d] ↔ k ∈ keys (preInsert s d u).1 := by
        intro k
        rw [preInsert_keys hi.sorted, List.mem_append, List.mem_singleton, a1.mem_erase_iff, a2]
        constructor
        · rintro (⟨_, h⟩ | h)
          · exact Or.inl h
          · exact Or.inr h
        · rintro (h | h)
          · by_cases hk' : k = keyOf d
            · exact Or.inr hk'
            · exact Or.inl ⟨hk', h⟩
          · exact Or.inr h
      have hnd : (q.erase (keyOf d) ++ [keyOf d]).Nodup := by
        refine List.nodup_append.2 ⟨a1.erase _, by simp, ?_⟩
        rintro a ha' b hb rfl
        simp at hb; subst hb; exact hne ha'
      have hP : PolInv (.lru (q.erase (keyOf d) ++ [keyOf d])) (preInsert s d u).1 s.now (log ++ [keyOf d]) :=
        ⟨⟨hnd, hmem⟩, (a3.sublist (List.erase_sublist ..)).push hne⟩
      refine ⟨_, [], rfl, ⟨q1, hlen, hP⟩, rfl, rfl, rfl, rfl, by simp [Cs.kind, hp], by simpa using q2, Or.inl rfl,
        fun _ => rfl, _, hP, by simp⟩
    | pfifo p =>
      rw [hp] at hpol
      obtain ⟨a1, a2, a3⟩ := hpol
      obtain ⟨p1, d1, d2, d3, d4, d5, d6⟩ := detach_spec a1 hk
      have hl : lookup (keyOf d) (preInsert s d u).1 = some (inserted s d u) :=
        (lookup_some q1).2 ⟨(q2 _).2 (Or.inr rfl), q3⟩
      simp only [d1, hl]
      obtain ⟨p2, e1, e2⟩ := pfifo_attach_inv (d := d) (u := u) (log := log) hi.sorted d2
        (by
          intro k
          constructor
          · rintro (⟨h, _⟩ | h)
            · exact Or.inl h
            · exact Or.inr h
          · rintro (h | h)
            · by_cases hk' : k = keyOf d
              · exact Or.inr hk'
              · exact Or.inl ⟨h, hk'⟩
            · exact Or.inr h)
        (by simp)
        (by
          intro k i hik e he hek hne
          have hik' := (d4 _ _).1 hik
          have := a2 k i hik'.1 e he hek
          cases hq : i.qtype <;> simp only [hq] at this ⊢
          · exact this
          · exact this
          · exact ⟨this.1, (d5 _).2 ⟨this.2, hne⟩⟩)
        (by intro q; rw [d3]; exact (a3 q).sublist (List.erase_sublist ..))
      obtain ⟨p2', i, b1, b2, b3, b4, b5, b6⟩ := attach_spec d2 s.now (inserted s d u) (by rw [q3]; simp)
      have : p2' = p2 := by rw [b1] at e1; simpa using e1
      subst this
      simp only [e1]
      refine ⟨_, [], rfl, ⟨q1, hlen, e2⟩, rfl, rfl, rfl, rfl, by simp [Cs.kind, hp], by simpa using q2, Or.inl rfl,
        fun _ => rfl, _, e2, by simp, fun q => List.suffix_refl _, by simp, ?_, ?_⟩
      · intro v hv hne
        rw [b6] at hv
        refine ⟨p, rfl, ?_⟩
        split at hv
        · rcases List.mem_append.1 hv with hv | hv
          · exact ((d5 v).1 hv).1
          · simp at hv; subst hv; rw [q3] at hne; exact absurd rfl hne
        · exact ((d5 v).1 hv).1
      · intro v hv he
        rw [b6] at hv
        split at hv
        · rcases List.mem_append.1 hv with hv | hv
          · exact absurd he ((d5 v).1 hv).2
          · simp at hv; subst hv; simp
        · exact absurd he ((d5 v).1 hv).2
  · -- new entry
    have hnew : (preInsert s d u).2 = true := q4.2 hk
    rw [hnew]
    simp only [if_true]
    have hpol := hi.pol
    unfold Cs.afterInsert
    cases hp : s.policy with
    | lru q =>
      rw [hp] at hpol
      obtain ⟨⟨a1, a2⟩, a3⟩ := hpol
      have hkq : keyOf d ∉ q := fun h => hk ((a2 _).1 h)
      simp only [lruInsert_new hkq]
      have hP : PolInv (.lru (q ++ [keyOf d])) (preInsert s d u).1 s.now (log ++ [keyOf d]) := by
        refine ⟨⟨?_, ?_⟩, a3.push hkq⟩
        · refine List.nodup_append.2 ⟨a1, by simp, ?_⟩
          rintro a ha' b hb rfl
          simp at hb; subst hb; exact hkq ha'
        · intro k
          rw [preInsert_keys hi.sorted, List.mem_append, List.mem_singleton, a2]
      obtain ⟨s', ev, g1, g2, g3, g4, g5, g6, g7, g8, g9, g10⟩ :=
        evict_spec (s := { s with table := (preInsert s d u).1, policy := .lru (q ++ [keyOf d]) }) q1 hP
      refine ⟨s', ev, g1, g2, g3, g4, g5, g6, by rw [g7]; simp [Cs.kind, hp], ?_, g9, fun h => absurd h hk, ?_⟩
      · intro e; rw [g8]; simp only [q2]
      · cases hs' : s'.policy with
        | lru q' => rw [hs'] at g10; exact ⟨_, hP, g10⟩
        | pfifo p' => rw [hs'] at g10; exact g10.elim
    | pfifo p =>
      rw [hp] at hpol
      obtain ⟨a1, a2, a3⟩ := hpol
      have hl : lookup (keyOf d) (preInsert s d u).1 = some (inserted s d u) :=
        (lookup_some q1).2 ⟨(q2 _).2 (Or.inr rfl), q3⟩
      simp only [hl]
      obtain ⟨p2, e1, e2⟩ := pfifo_attach_inv (d := d) (u := u) (log := log) hi.sorted a1
        (by intro k; exact Iff.rfl) hk
        (by intro k i hik e he hek _; exact a2 k i hik e he hek) a3
      obtain ⟨p2', i, b1, b2, b3, b4, b5, b6⟩ := attach_spec a1 s.now (inserted s d u) (by rw [q3]; exact hk)
      have : p2' = p2 := by rw [b1] at e1; simpa using e1
      subst this
      simp only [e1]
      obtain ⟨s', ev, g1, g2, g3, g4, g5, g6, g7, g8, g9, g10⟩ :=
        evict_spec (s := { s with table := (preInsert s d u).1, policy := .pfifo p2' }) q1 e2
      refine ⟨s', ev, g1, g2, g3, g4, g5, g6, by rw [g7]; simp [Cs.kind, hp], ?_, g9, fun h => absurd h hk, ?_⟩
      · intro e; rw [g8]; simp only [q2]
      · cases hs' : s'.policy with
        | lru q' => rw [hs'] at g10; exact g10.elim
        | pfifo p' =>
          rw [hs'] at g10
          refine ⟨_, e2, g10.1, g10.2.1, g10.2.2, ?_, ?_⟩
          · intro v hv hne
            rw [b6] at hv
            refine ⟨p, rfl, ?_⟩
            split at hv
            · rcases List.mem_append.1 hv with hv | hv
              · exact hv
              · simp at hv; subst hv; rw [q3] at hne; exact absurd rfl hne
            · exact hv
          · intro v hv he
            have hold : v ∉ p.events := by
              intro hm
              have := a1.evInfo v.1 v.2.1 v.2.2 hm
              rw [he] at this
              exact hk ((a1.infoKeys _).1 ⟨_, this⟩)
            rw [b6] at hv
            split at hv
            · rcases List.mem_append.1 hv with hv | hv
              · exact absurd hv hold
              · simp at hv; subst hv; simp
            · exact absurd hv hold

end Verif.Cs
