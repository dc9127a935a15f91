import Verif.Cs.Model
import Verif.Name.Lemmas

namespace Verif.Cs
open Std

/-! ### Order on entries -/

theorem cmpData_eq_then (a b : Data) :
    cmpData a b = (Name.cmp a.name b.name).then (Component.cmp a.digestComp b.digestComp) := by
  unfold cmpData; cases Name.cmp a.name b.name <;> rfl

theorem cmpData_fun : cmpData = compareLex (fun a b : Data => Name.cmp a.name b.name)
    (fun a b => Component.cmp a.digestComp b.digestComp) := by
  funext a b; rw [cmpData_eq_then]; rfl

instance {α β} (f : α → β) (cmp : β → β → Ordering) [h : TransCmp cmp] :
    TransCmp (fun a b => cmp (f a) (f b)) where
  eq_swap := OrientedCmp.eq_swap (cmp := cmp)
  isLE_trans := TransCmp.isLE_trans (cmp := cmp)

instance : TransCmp cmpData := by rw [cmpData_fun]; infer_instance

theorem cmpData_eq {a b : Data} : cmpData a b = .eq ↔ keyOf a = keyOf b := by
  rw [cmpData_eq_then, Ordering.then_eq_eq, Name.cmp_eq, Component.cmp_eq]
  simp [keyOf, Data.digestComp]

theorem cmpData_self (a : Data) : cmpData a a = .eq := by rw [cmpData_eq]

theorem cmpData_congr {a b a' b' : Data} (h1 : keyOf a = keyOf a') (h2 : keyOf b = keyOf b') :
    cmpData a b = cmpData a' b' := by
  simp only [keyOf, Prod.mk.injEq] at h1 h2
  simp only [cmpData, Data.digestComp, h1.1, h1.2, h2.1, h2.2]

def Sorted (t : Table) : Prop := t.Pairwise (fun a b => cmpData a.data b.data = .lt)

def keys (t : Table) : List Key := t.map Entry.key

theorem keys_nodup {t : Table} (h : Sorted t) : (keys t).Nodup := by
  unfold keys List.Nodup
  rw [List.pairwise_map]
  refine h.imp ?_
  intro a b hab heq
  have : cmpData a.data b.data = .eq := cmpData_eq.2 heq
  rw [this] at hab; cases hab

theorem eq_of_key {t : Table} (h : Sorted t) {a b : Entry} (ha : a ∈ t) (hb : b ∈ t)
    (hk : a.key = b.key) : a = b := by
  induction t with
  | nil => cases ha
  | cons x xs ih =>
    have hs := List.pairwise_cons.1 h
    have key : ∀ y ∈ xs, x.key ≠ y.key := by
      intro y hy he
      have h1 := hs.1 y hy
      rw [cmpData_eq.2 he] at h1; cases h1
    rcases List.mem_cons.1 ha with rfl | ha' <;> rcases List.mem_cons.1 hb with rfl | hb'
    · rfl
    · exact absurd hk (key _ hb')
    · exact absurd hk.symm (key _ ha')
    · exact ih hs.2 ha' hb'

theorem hasKey_iff {k : Key} {t : Table} : hasKey k t = true ↔ k ∈ keys t := by
  simp [hasKey, keys]

theorem lookup_some {k : Key} {t : Table} {e : Entry} (hs : Sorted t) :
    lookup k t = some e ↔ e ∈ t ∧ e.key = k := by
  constructor
  · intro h
    exact ⟨List.mem_of_find?_eq_some h, by simpa using List.find?_some h⟩
  · rintro ⟨hm, hk⟩
    cases hl : lookup k t with
    | none =>
      have := List.find?_eq_none.1 hl e hm
      simp [hk] at this
    | some e' =>
      have h1 := List.mem_of_find?_eq_some hl
      have h2 : e'.key = k := by simpa using List.find?_some hl
      rw [eq_of_key hs h1 hm (by rw [h2, hk])]

theorem lookup_isSome {k : Key} {t : Table} (h : k ∈ keys t) : ∃ e, lookup k t = some e ∧ e ∈ t ∧ e.key = k := by
  cases hl : lookup k t with
  | none =>
    have := List.find?_eq_none.1 hl
    simp only [keys, List.mem_map] at h
    obtain ⟨e, he, rfl⟩ := h
    exact absurd (this e he) (by simp)
  | some e =>
    exact ⟨e, rfl, List.mem_of_find?_eq_some hl, by simpa using List.find?_some hl⟩

/-! ### emplace -/

theorem emplace_mem {e : Entry} {t : Table} (hs : Sorted t) (hk : e.key ∈ keys t) :
    emplace e t = (t, false) := by
  induction t with
  | nil => simp [keys] at hk
  | cons x xs ih =>
    have hs' := List.pairwise_cons.1 hs
    unfold emplace
    split
    · rename_i hlt
      simp only [keys, List.map_cons, List.mem_cons] at hk
      rcases hk with hk | hk
      · rw [cmpData_eq.2 hk] at hlt; cases hlt
      · obtain ⟨y, hy, hyk⟩ := List.mem_map.1 hk
        have h1 := hs'.1 y hy
        have h2 : cmpData e.data y.data = .lt := TransCmp.lt_trans hlt h1
        rw [cmpData_eq.2 hyk.symm] at h2; cases h2
    · rfl
    · rename_i hgt
      simp only [keys, List.map_cons, List.mem_cons] at hk
      rcases hk with hk | hk
      · rw [cmpData_eq.2 hk] at hgt; cases hgt
      · rw [ih hs'.2 hk]

theorem emplace_new {e : Entry} {t : Table} (hk : e.key ∉ keys t) :
    (emplace e t).2 = true ∧ (emplace e t).1.Perm (e :: t) := by
  induction t with
  | nil => simp [emplace]
  | cons x xs ih =>
    simp only [keys, List.map_cons, List.mem_cons, not_or] at hk
    unfold emplace
    split
    · exact ⟨rfl, List.Perm.refl _⟩
    · rename_i h; exact absurd (cmpData_eq.1 h) hk.1
    · obtain ⟨h1, h2⟩ := ih hk.2
      exact ⟨h1, (h2.cons x).trans (List.Perm.swap _ _ _)⟩

theorem emplace_sorted {e : Entry} {t : Table} (hs : Sorted t) : Sorted (emplace e t).1 := by
  induction t with
  | nil => simp [emplace, Sorted]
  | cons x xs ih =>
    have hs' := List.pairwise_cons.1 hs
    unfold emplace
    split
    · rename_i hlt
      refine List.pairwise_cons.2 ⟨?_, hs⟩
      intro y hy
      rcases List.mem_cons.1 hy with rfl | hy
      · exact hlt
      · exact TransCmp.lt_trans hlt (hs'.1 y hy)
    · exact hs
    · rename_i hgt
      refine List.pairwise_cons.2 ⟨?_, ih hs'.2⟩
      intro y hy
      by_cases hk : e.key ∈ keys xs
      · rw [emplace_mem hs'.2 hk] at hy; exact hs'.1 y hy
      · have := (emplace_new hk).2.mem_iff.1 hy
        rcases List.mem_cons.1 this with rfl | hy
        · exact OrientedCmp.lt_of_gt hgt
        · exact hs'.1 y hy

/-! ### modify, tableErase -/

theorem modify_keys {k : Key} {f : Entry → Entry} (hf : ∀ e, (f e).data = e.data) (t : Table) :
    keys (modify k f t) = keys t := by
  simp only [keys, modify, List.map_map]
  apply List.map_congr_left
  intro a _
  simp only [Function.comp, Entry.key]
  by_cases h : keyOf a.data = k <;> simp [h, hf]

theorem modify_sorted {k : Key} {f : Entry → Entry} (hf : ∀ e, (f e).data = e.data) {t : Table}
    (hs : Sorted t) : Sorted (modify k f t) := by
  unfold Sorted modify
  rw [List.pairwise_map]
  refine hs.imp ?_
  intro a b hab
  have h : ∀ e : Entry, (if e.key = k then f e else e).data = e.data := by
    intro e; split <;> simp [hf]
  simp only [h]; exact hab

@[simp] theorem modify_length {k : Key} {f : Entry → Entry} (t : Table) :
    (modify k f t).length = t.length := by simp [modify]

theorem mem_modify {k : Key} {f : Entry → Entry} {t : Table} {e : Entry} :
    e ∈ modify k f t ↔ ∃ e' ∈ t, e = if e'.key = k then f e' else e' := by
  simp only [modify, List.mem_map]
  constructor
  · rintro ⟨a, h, rfl⟩; exact ⟨a, h, rfl⟩
  · rintro ⟨a, h, rfl⟩; exact ⟨a, h, rfl⟩

theorem tableErase_some {k : Key} {t : Table} (hs : Sorted t) (hk : k ∈ keys t) :
    ∃ t', tableErase k t = some t' ∧ Sorted t' ∧ t'.length + 1 = t.length ∧
      (∀ e, e ∈ t' ↔ e ∈ t ∧ e.key ≠ k) := by
  refine ⟨t.eraseP (fun e => e.key == k), ?_, ?_, ?_, ?_⟩
  · simp [tableErase, hasKey_iff.2 hk]
  · exact List.Pairwise.sublist List.eraseP_sublist hs
  · obtain ⟨e, he, hek⟩ := List.mem_map.1 hk
    rw [List.length_eraseP_of_mem he (by simp [hek])]
    have := List.length_pos_of_mem he
    omega
  · induction t with
    | nil => simp [keys] at hk
    | cons x xs ih =>
      have hs' := List.pairwise_cons.1 hs
      intro e
      by_cases hx : x.key = k
      · rw [List.eraseP_cons_of_pos (by simp [hx])]
        constructor
        · intro he
          refine ⟨by simp [he], ?_⟩
          intro hek
          have h1 := hs'.1 e he
          rw [cmpData_eq.2 (by show x.key = e.key; rw [hx, hek])] at h1; cases h1
        · rintro ⟨he, hek⟩
          rcases List.mem_cons.1 he with rfl | he
          · exact absurd hx hek
          · exact he
      · rw [List.eraseP_cons_of_neg (by simp [hx])]
        have hk' : k ∈ keys xs := by
          simp only [keys, List.map_cons, List.mem_cons] at hk
          rcases hk with rfl | hk
          · exact absurd rfl hx
          · exact hk
        simp only [List.mem_cons, ih hs'.2 hk' e]
        constructor
        · rintro (rfl | ⟨h1, h2⟩)
          · exact ⟨Or.inl rfl, hx⟩
          · exact ⟨Or.inr h1, h2⟩
        · rintro ⟨rfl | h1, h2⟩
          · exact Or.inl rfl
          · exact Or.inr ⟨h1, h2⟩

theorem tableErase_sub {k : Key} {t t' : Table} (h : tableErase k t = some t') : t'.Sublist t := by
  unfold tableErase at h
  split at h
  · cases h; exact List.eraseP_sublist
  · cases h

theorem mem_keys_of_mem {e : Entry} {t : Table} (h : e ∈ t) : e.key ∈ keys t := List.mem_map.2 ⟨e, h, rfl⟩

theorem keys_erase {k : Key} {t t' : Table} (h : ∀ e, e ∈ t' ↔ e ∈ t ∧ e.key ≠ k) (k' : Key) :
    k' ∈ keys t' ↔ k' ∈ keys t ∧ k' ≠ k := by
  simp only [keys, List.mem_map]
  constructor
  · rintro ⟨e, he, rfl⟩
    have := (h e).1 he
    exact ⟨⟨e, this.1, rfl⟩, this.2⟩
  · rintro ⟨⟨e, he, rfl⟩, hne⟩
    exact ⟨e, (h e).2 ⟨he, hne⟩, rfl⟩

/-! ### LRU -/

structure LruInv (q : List Key) (t : Table) : Prop where
  nodup : q.Nodup
  mem : ∀ k, k ∈ q ↔ k ∈ keys t

theorem lruInsert_new {q : List Key} {k : Key} (h : k ∉ q) : lruInsertToQueue q k true = some (q ++ [k]) := by
  simp [lruInsertToQueue, h]

theorem lruInsert_old {q : List Key} {k : Key} (h : k ∈ q) :
    lruInsertToQueue q k false = some (q.erase k ++ [k]) := by
  simp [lruInsertToQueue, h]

/-- Eviction never faults; it removes a prefix of the queue and exactly these entries from the table. -/
theorem lruEvict_spec (limit : Nat) {q : List Key} {t : Table} (hs : Sorted t) (hi : LruInv q t) :
    ∃ t' ev q', lruEvict limit q t = some (t', q') ∧ q = ev ++ q' ∧ Sorted t' ∧ LruInv q' t' ∧
      t'.length ≤ limit ∧ (∀ e, e ∈ t' ↔ e ∈ t ∧ e.key ∉ ev) ∧ (ev = [] ∨ t'.length = limit) := by
  induction q generalizing t with
  | nil =>
    have ht : t = [] := by
      cases t with
      | nil => rfl
      | cons x xs => have := (hi.mem x.key).2 (mem_keys_of_mem (by simp)); cases this
    subst ht
    refine ⟨[], [], [], by simp [lruEvict], rfl, hs, hi, by simp, by simp, Or.inl rfl⟩
  | cons k q ih =>
    by_cases hl : t.length > limit
    · have hk : k ∈ keys t := (hi.mem k).1 (by simp)
      obtain ⟨t1, h1, h2, h3, h4⟩ := tableErase_some hs hk
      have hi1 : LruInv q t1 := by
        have hn := List.nodup_cons.1 hi.nodup
        refine ⟨hn.2, fun k' => ?_⟩
        rw [keys_erase h4, ← hi.mem]
        constructor
        · intro hk'
          exact ⟨by simp [hk'], fun he => hn.1 (he ▸ hk')⟩
        · rintro ⟨hk', hne⟩
          rcases List.mem_cons.1 hk' with rfl | hk'
          · exact absurd rfl hne
          · exact hk'
      obtain ⟨t', ev, q', g1, g2, g3, g4, g5, g6, g7⟩ := ih h2 hi1
      refine ⟨t', k :: ev, q', ?_, by simp [g2], g3, g4, g5, ?_, ?_⟩
      · unfold lruEvict; simp [hl, h1, g1]
      · intro e; rw [g6, h4]; simp [and_assoc]
      · right
        rcases g7 with g7 | g7
        · -- nothing more was evicted: one was just enough
          subst g7
          have hlen : t'.length = t1.length := by
            unfold lruEvict at g1
            split at g1
            · split at g1
              · cases g1
              · split at g1
                · cases g1
                · rename_i _ k2 q2 _ _ _
                  -- queue would have become shorter
                  exfalso
                  rename_i t2 hte
                  obtain ⟨_, ev2, _, e1, e2, -⟩ : ∃ t' ev q', lruEvict limit q2 t2 = some (t', q') ∧
                      q2 = ev ++ q' ∧ True := by
                    clear ih
                    have hk2 : k2 ∈ keys t1 := (hi1.mem k2).1 (by simp)
                    have sub : ∀ (q : List Key) (t t' : Table) (q' : List Key),
                        lruEvict limit q t = some (t', q') → ∃ ev, q = ev ++ q' := by
                      intro q
                      induction q with
                      | nil =>
                        intro t t' q' h
                        unfold lruEvict at h
                        split at h
                        · cases h
                        · cases h; exact ⟨[], rfl⟩
                      | cons a q ih =>
                        intro t t' q' h
                        unfold lruEvict at h
                        split at h
                        · simp only at h
                          split at h
                          · cases h
                          · obtain ⟨ev, rfl⟩ := ih _ _ _ h
                            exact ⟨a :: ev, rfl⟩
                        · cases h; exact ⟨[], rfl⟩
                    obtain ⟨ev, hev⟩ := sub _ _ _ _ g1
                    exact ⟨_, ev, _, g1, hev, trivial⟩
                  rw [e1] at g1
                  cases g1
                  have := congrArg List.length g2
                  have := congrArg List.length e2
                  simp at *
                  omega
            · cases g1; rfl
          omega
        · exact g7
    · refine ⟨t, [], k :: q, ?_, rfl, hs, hi, by omega, by simp, Or.inl rfl⟩
      unfold lruEvict; simp [hl]

end Verif.Cs
