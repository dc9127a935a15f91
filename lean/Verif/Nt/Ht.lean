import Verif.Nt.Model

namespace Verif.Nt

open List

variable {α : Type}

/-- Structural invariant of the hash table. -/
structure HtInv (ch : Component → Nat) (t : Hashtable α) : Prop where
  pos : 0 < t.buckets.length
  place : ∀ (i : Nat) (b : List (Node α)), t.buckets[i]? = some b → ∀ n ∈ b, n.hash = computeHash ch n.name ∧ n.hash % t.buckets.length = i
  nodup : (t.buckets.flatten.map (·.name)).Nodup
  size : t.size = t.buckets.flatten.length

theorem perm_attach {bs : List (List (Node α))} {i : Nat} (n : Node α) (h : i < bs.length) :
    (attach bs i n).flatten ~ n :: bs.flatten := by
  induction bs generalizing i with
  | nil => simp at h
  | cons b bs ih =>
    cases i with
    | zero => simp [attach]
    | succ i =>
      have := ih (i := i) (by simpa using h)
      simp only [attach, List.modify_succ_cons, List.flatten_cons] at *
      exact (this.append_left b).trans perm_middle

theorem length_attach (bs : List (List (Node α))) (i : Nat) (n : Node α) : (attach bs i n).length = bs.length := by
  simp [attach]

theorem getElem?_attach (bs : List (List (Node α))) (i j : Nat) (n : Node α) :
    (attach bs i n)[j]? = if i = j then bs[j]?.map (n :: ·) else bs[j]? := by
  simp [attach, List.getElem?_modify]
  split <;> simp

theorem foldl_attach {newN : Nat} (hpos : 0 < newN) (l : List (Node α)) (bs : List (List (Node α))) (hb : bs.length = newN) :
    (l.foldl (fun bs n => attach bs (n.hash % newN) n) bs).length = newN ∧
    (l.foldl (fun bs n => attach bs (n.hash % newN) n) bs).flatten ~ l ++ bs.flatten ∧
    ((∀ (i : Nat) (b : List (Node α)), bs[i]? = some b → ∀ n ∈ b, n.hash % newN = i) →
      ∀ (i : Nat) (b : List (Node α)), (l.foldl (fun bs n => attach bs (n.hash % newN) n) bs)[i]? = some b → ∀ n ∈ b, n.hash % newN = i) := by
  induction l generalizing bs with
  | nil => exact ⟨hb, by simp, fun h => h⟩
  | cons x xs ih =>
    have hx : x.hash % newN < bs.length := by rw [hb]; exact Nat.mod_lt _ hpos
    obtain ⟨h1, h2, h3⟩ := ih (attach bs (x.hash % newN) x) (by rw [length_attach, hb])
    refine ⟨h1, ?_, ?_⟩
    · simp only [List.foldl_cons]
      refine h2.trans ?_
      refine ((perm_attach x hx).append_left xs).trans ?_
      simp
    · intro hp
      simp only [List.foldl_cons]
      apply h3
      intro i b hib n hn
      rw [getElem?_attach] at hib
      split at hib
      · rename_i hi
        cases hbi : bs[i]? with
        | none => simp [hbi] at hib
        | some b' =>
          rw [hbi] at hib
          simp only [Option.map_some, Option.some.injEq] at hib
          subst hib
          rcases List.mem_cons.1 hn with rfl | hn
          · exact hi
          · exact hp i b' hbi n hn
      · exact hp i b hib n hn

theorem mem_flatten_iff {bs : List (List (Node α))} {n : Node α} :
    n ∈ bs.flatten ↔ ∃ (i : Nat) (b : List (Node α)), bs[i]? = some b ∧ n ∈ b := by
  rw [List.mem_flatten]
  constructor
  · rintro ⟨b, hb, hn⟩
    obtain ⟨i, hi⟩ := List.mem_iff_getElem?.1 hb
    exact ⟨i, b, hi, hn⟩
  · rintro ⟨i, b, hi, hn⟩
    exact ⟨b, List.mem_of_getElem? hi, hn⟩

/-- Only the order of nodes changes. -/
theorem resize_spec {ch : Component → Nat} {t : Hashtable α} (h : HtInv ch t) {n : Nat} (hn : 0 < n) :
    HtInv ch (t.resize n) ∧ (t.resize n).buckets.flatten ~ t.buckets.flatten ∧ (t.resize n).buckets.length = n := by
  unfold Hashtable.resize
  split
  · rename_i he
    exact ⟨h, .rfl, he⟩
  · have := foldl_attach hn t.buckets.flatten (List.replicate n []) (by simp)
    obtain ⟨h1, h2, h3⟩ := this
    have e : (List.replicate n ([] : List (Node α))).flatten = [] := by simp
    rw [e, List.append_nil] at h2
    refine ⟨⟨by simpa [h1] using hn, ?_, ?_, ?_⟩, h2, h1⟩
    · intro i b hib m hm
      have hm' : m ∈ t.buckets.flatten := h2.mem_iff.1 (mem_flatten_iff.2 ⟨i, b, hib, hm⟩)
      obtain ⟨j, b', hj, hm'⟩ := mem_flatten_iff.1 hm'
      refine ⟨(h.place j b' hj m hm').1, ?_⟩
      rw [h1]
      refine h3 ?_ i b hib m hm
      intro i b hib
      rw [List.getElem?_replicate] at hib
      split at hib <;> simp_all
    · exact (h2.map _).nodup_iff.2 h.nodup
    · rw [h2.length_eq]; exact h.size

theorem eq_of_name {bs : List (List (Node α))} (hnd : (bs.flatten.map (·.name)).Nodup) {m n : Node α}
    (hm : m ∈ bs.flatten) (hn : n ∈ bs.flatten) (e : m.name = n.name) : m = n := by
  generalize bs.flatten = l at *
  induction l with
  | nil => simp at hm
  | cons x xs ih =>
    simp only [List.map_cons, List.nodup_cons, List.mem_map] at hnd
    rcases List.mem_cons.1 hm with rfl | hm'
    · rcases List.mem_cons.1 hn with rfl | hn
      · rfl
      · exact absurd ⟨n, hn, e.symm⟩ hnd.1
    · rcases List.mem_cons.1 hn with rfl | hn
      · exact absurd ⟨m, hm', e⟩ hnd.1
      · exact ih hnd.2 hm' hn

/-- `findNode` finds exactly the stored node of that name. -/
theorem findNode_iff {ch : Component → Nat} {t : Hashtable α} (h : HtInv ch t) (name : Name) (n : Node α) :
    t.findNode name (computeHash ch name) = some n ↔ n ∈ t.buckets.flatten ∧ n.name = name := by
  unfold Hashtable.findNode
  constructor
  · intro hf
    have hm := List.mem_of_find?_eq_some hf
    have hp := List.find?_some hf
    simp only [Bool.and_eq_true, beq_iff_eq] at hp
    refine ⟨?_, hp.2⟩
    rw [List.getD_eq_getElem?_getD] at hm
    cases hb : t.buckets[t.bucketIndex (computeHash ch name)]? with
    | none => simp [hb] at hm
    | some b => rw [hb] at hm; exact mem_flatten_iff.2 ⟨_, _, hb, hm⟩
  · rintro ⟨hm, hn⟩
    obtain ⟨i, b, hib, hmb⟩ := mem_flatten_iff.1 hm
    obtain ⟨h1, h2⟩ := h.place i b hib n hmb
    have hi : t.bucketIndex (computeHash ch name) = i := by
      rw [← hn, ← h1]; exact h2
    rw [List.getD_eq_getElem?_getD, hi, hib, Option.getD_some]
    cases hf : b.find? (fun n => n.hash == computeHash ch name && n.name == name) with
    | none =>
      have := List.find?_eq_none.1 hf n hmb
      simp [h1, hn] at this
    | some m =>
      have hm' := List.mem_of_find?_eq_some hf
      have hp := List.find?_some hf
      simp only [Bool.and_eq_true, beq_iff_eq] at hp
      rw [eq_of_name h.nodup (mem_flatten_iff.2 ⟨i, b, hib, hm'⟩) hm (by rw [hp.2, hn])]

theorem find_iff {ch : Component → Nat} {t : Hashtable α} (h : HtInv ch t) (name : Name) (e : α) :
    t.find ch name = some e ↔ ∃ n ∈ t.buckets.flatten, n.name = name ∧ n.entry = e := by
  unfold Hashtable.find
  rw [Option.map_eq_some_iff]
  constructor
  · rintro ⟨n, hf, rfl⟩
    obtain ⟨h1, h2⟩ := (findNode_iff h name n).1 hf
    exact ⟨n, h1, h2, rfl⟩
  · rintro ⟨n, h1, h2, rfl⟩
    exact ⟨n, (findNode_iff h name n).2 ⟨h1, h2⟩, rfl⟩

theorem find_none {ch : Component → Nat} {t : Hashtable α} (h : HtInv ch t) (name : Name) :
    t.find ch name = none ↔ ∀ n ∈ t.buckets.flatten, n.name ≠ name := by
  rw [Option.eq_none_iff_forall_ne_some]
  constructor
  · intro hf n hn e
    exact hf n.entry ((find_iff h name _).2 ⟨n, hn, e, rfl⟩)
  · intro hf e he
    obtain ⟨n, h1, h2, -⟩ := (find_iff h name e).1 he
    exact hf n h1 h2

theorem findNode_none {ch : Component → Nat} {t : Hashtable α} (name : Name) :
    t.findNode name (computeHash ch name) = none ↔ t.find ch name = none := by
  simp [Hashtable.find]

theorem find_congr {ch : Component → Nat} {t t' : Hashtable α} (h : HtInv ch t) (h' : HtInv ch t')
    (hp : t'.buckets.flatten ~ t.buckets.flatten) (name : Name) : t'.find ch name = t.find ch name := by
  apply Option.ext
  intro e
  rw [find_iff h, find_iff h']
  constructor <;> rintro ⟨n, h1, h2⟩
  · exact ⟨n, hp.mem_iff.1 h1, h2⟩
  · exact ⟨n, hp.mem_iff.2 h1, h2⟩

theorem init_inv (ch : Component → Nat) (o : Options) : HtInv ch (Hashtable.init o : Hashtable α) := by
  have e : (List.replicate o.initialSize ([] : List (Node α))).flatten = [] := by simp
  refine ⟨by simpa [Hashtable.init] using o.initial_pos, ?_, by simp [Hashtable.init], by simp [Hashtable.init]⟩
  intro i b hib
  simp only [Hashtable.init, List.getElem?_replicate] at hib
  split at hib <;> simp_all

theorem init_find (ch : Component → Nat) (o : Options) (n : Name) : (Hashtable.init o : Hashtable α).find ch n = none := by
  rw [find_none (init_inv ch o)]; simp [Hashtable.init]

theorem insert_perm {ch : Component → Nat} {o : Options} {t : Hashtable α} (h : HtInv ch t) {name : Name} {fresh : α}
    (hn : t.find ch name = none) :
    HtInv ch (t.insert ch o name fresh).1 ∧ (t.insert ch o name fresh).2 = true ∧
    (t.insert ch o name fresh).1.buckets.flatten ~ ⟨computeHash ch name, name, fresh⟩ :: t.buckets.flatten := by
  have hi : t.bucketIndex (computeHash ch name) < t.buckets.length := Nat.mod_lt _ h.pos
  have hp := perm_attach (⟨computeHash ch name, name, fresh⟩ : Node α) hi
  have hinv : HtInv ch { t with
      buckets := attach t.buckets (t.bucketIndex (computeHash ch name)) ⟨computeHash ch name, name, fresh⟩, size := t.size + 1 } := by
    refine ⟨by simpa [length_attach] using h.pos, ?_, ?_, ?_⟩
    · intro i b hib m hm
      simp only [length_attach]
      simp only [getElem?_attach] at hib
      split at hib
      · rename_i he
        cases hbi : t.buckets[i]? with
        | none => simp [hbi] at hib
        | some b' =>
          rw [hbi] at hib
          simp only [Option.map_some, Option.some.injEq] at hib
          subst hib
          rcases List.mem_cons.1 hm with rfl | hm
          · exact ⟨rfl, he⟩
          · exact h.place i b' hbi m hm
      · exact h.place i b hib m hm
    · refine (hp.map _).nodup_iff.2 ?_
      simp only [List.map_cons, List.nodup_cons]
      refine ⟨?_, h.nodup⟩
      rw [List.mem_map]
      rintro ⟨n, h1, h2⟩
      exact (find_none h name).1 hn n h1 h2
    · simp only
      rw [hp.length_eq, List.length_cons, h.size]
  unfold Hashtable.insert
  simp only [(findNode_none name).2 hn]
  split
  · obtain ⟨h1, h2, -⟩ := resize_spec hinv (n := o.expandTo (attach t.buckets (t.bucketIndex (computeHash ch name)) ⟨computeHash ch name, name, fresh⟩).length)
      (o.expand_pos _ (by rw [length_attach]; exact h.pos))
    exact ⟨h1, trivial, h2.trans hp⟩
  · exact ⟨hinv, trivial, hp⟩

theorem insert_old {ch : Component → Nat} {o : Options} {t : Hashtable α} {name : Name} {fresh e : α}
    (hn : t.find ch name = some e) : t.insert ch o name fresh = (t, false) := by
  unfold Hashtable.insert
  unfold Hashtable.find at hn
  rw [Option.map_eq_some_iff] at hn
  obtain ⟨n, hn, -⟩ := hn
  simp only [hn]

theorem insert_find {ch : Component → Nat} {o : Options} {t : Hashtable α} (h : HtInv ch t) (name : Name) (fresh : α)
    (m : Name) : (t.insert ch o name fresh).1.find ch m =
      if m = name then some ((t.find ch name).getD fresh) else t.find ch m := by
  cases hf : t.find ch name with
  | some e =>
    rw [insert_old hf]
    split
    · rename_i hm; subst hm; simp [hf]
    · rfl
  | none =>
    obtain ⟨h1, -, h2⟩ := insert_perm (o := o) (fresh := fresh) h hf
    apply Option.ext
    intro e
    rw [find_iff h1]
    split
    · rename_i hm
      subst hm
      simp only [Option.getD_none, Option.some.injEq]
      constructor
      · rintro ⟨n, hn, hnm, rfl⟩
        rcases List.mem_cons.1 (h2.mem_iff.1 hn) with rfl | hn
        · rfl
        · exact absurd hnm ((find_none h m).1 hf n hn)
      · rintro rfl
        exact ⟨_, h2.mem_iff.2 List.mem_cons_self, rfl, rfl⟩
    · rename_i hm
      rw [find_iff h]
      constructor
      · rintro ⟨n, hn, hnm, rfl⟩
        rcases List.mem_cons.1 (h2.mem_iff.1 hn) with rfl | hn
        · exact absurd hnm.symm hm
        · exact ⟨n, hn, hnm, rfl⟩
      · rintro ⟨n, hn, hnm, rfl⟩
        exact ⟨n, h2.mem_iff.2 (List.mem_cons_of_mem _ hn), hnm, rfl⟩

theorem insert_inv {ch : Component → Nat} {o : Options} {t : Hashtable α} (h : HtInv ch t) (name : Name) (fresh : α) :
    HtInv ch (t.insert ch o name fresh).1 := by
  cases hf : t.find ch name with
  | some e => rw [insert_old hf]; exact h
  | none => exact (insert_perm h hf).1

theorem insert_isNew {ch : Component → Nat} {o : Options} {t : Hashtable α} (h : HtInv ch t) (name : Name) (fresh : α) :
    (t.insert ch o name fresh).2 = (t.find ch name).isNone := by
  cases hf : t.find ch name with
  | some e => rw [insert_old hf]; rfl
  | none => exact (insert_perm h hf).2.1

theorem perm_eraseP {bs : List (List (Node α))} {i : Nat} {b : List (Node α)} {n : Node α} {p : Node α → Bool}
    (hi : bs[i]? = some b) (hn : n ∈ b) (hp : p n = true) (hu : ∀ m ∈ b, p m = true → m = n) :
    bs.flatten ~ n :: (bs.modify i (fun b => b.eraseP p)).flatten := by
  induction bs generalizing i with
  | nil => simp at hi
  | cons c bs ih =>
    cases i with
    | zero =>
      simp only [List.getElem?_cons_zero, Option.some.injEq] at hi
      subst hi
      obtain ⟨a, l1, l2, -, ha, hc, he⟩ := List.exists_of_eraseP hn hp
      have : a = n := hu a (by rw [hc]; simp) ha
      subst this
      simp only [List.modify_zero_cons, List.flatten_cons, he]
      rw [hc]
      simp
    | succ i =>
      have := ih (i := i) (by simpa using hi)
      simp only [List.modify_succ_cons, List.flatten_cons]
      exact (this.append_left c).trans perm_middle

theorem erase_spec {ch : Component → Nat} {o : Options} {t : Hashtable α} (h : HtInv ch t) (name : Name) {e : α}
    (hf : t.find ch name = some e) :
    ∃ t', t.erase ch o name = some t' ∧ HtInv ch t' ∧ ∃ n : Node α, n.name = name ∧ t.buckets.flatten ~ n :: t'.buckets.flatten := by
  obtain ⟨n, hn, hnm, rfl⟩ := (find_iff h name e).1 hf
  have hfn := (findNode_iff h name n).2 ⟨hn, hnm⟩
  obtain ⟨i, b, hib, hnb⟩ := mem_flatten_iff.1 hn
  obtain ⟨hh, hmod⟩ := h.place i b hib n hnb
  have hp := perm_eraseP (p := fun m : Node α => m.hash == computeHash ch name && m.name == name) hib hnb
    (by simp [hh, hnm]) (by
      intro m hm hpm
      simp only [Bool.and_eq_true, beq_iff_eq] at hpm
      exact eq_of_name h.nodup (mem_flatten_iff.2 ⟨i, b, hib, hm⟩) hn (by rw [hpm.2, hnm]))
  have hinv : HtInv ch { t with
      buckets := t.buckets.modify (t.bucketIndex n.hash) (fun b => b.eraseP (fun n => n.hash == computeHash ch name && n.name == name))
      size := t.size - 1 } := by
    have hidx : t.bucketIndex n.hash = i := hmod
    rw [hidx]
    refine ⟨by simpa using h.pos, ?_, ?_, ?_⟩
    · intro j c hjc m hm
      simp only [List.length_modify]
      simp only [List.getElem?_modify] at hjc
      cases hbj : t.buckets[j]? with
      | none => simp [hbj] at hjc
      | some c' =>
        rw [hbj] at hjc
        simp only [Option.map_eq_map, Option.map_some, Option.some.injEq] at hjc
        have : m ∈ c' := by
          split at hjc
          · rw [← hjc] at hm; exact List.mem_of_mem_eraseP hm
          · rw [← hjc] at hm; exact hm
        exact h.place j c' hbj m this
    · have := (hp.map (·.name)).nodup_iff.1 h.nodup
      simp only [List.map_cons, List.nodup_cons] at this
      exact this.2
    · have := hp.length_eq
      simp only [List.length_cons] at this
      simp only
      rw [h.size, this]; omega
  have hidx : t.bucketIndex n.hash = i := hmod
  unfold Hashtable.erase
  simp only [hfn]
  split
  · obtain ⟨h1, h2, -⟩ := resize_spec hinv (n := o.shrinkTo (t.buckets.modify (t.bucketIndex n.hash) (fun b => b.eraseP (fun n => n.hash == computeHash ch name && n.name == name))).length)
      (o.shrink_pos _ (by simpa using h.pos))
    refine ⟨_, rfl, h1, n, hnm, ?_⟩
    rw [hidx] at h2 ⊢
    exact hp.trans (h2.symm.cons n)
  · refine ⟨_, rfl, hinv, n, hnm, ?_⟩
    simp only [hidx]
    exact hp

theorem erase_find {ch : Component → Nat} {o : Options} {t t' : Hashtable α} (h : HtInv ch t) {name : Name}
    (he : t.erase ch o name = some t') (m : Name) : t'.find ch m = if m = name then none else t.find ch m := by
  cases hf : t.find ch name with
  | none =>
    unfold Hashtable.erase at he
    simp [(findNode_none name).2 hf] at he
  | some e =>
    obtain ⟨t'', h1, h2, n, hnm, hp⟩ := erase_spec (o := o) h name hf
    rw [he] at h1
    cases h1
    have hnd := (hp.map (·.name)).nodup_iff.1 h.nodup
    simp only [List.map_cons, List.nodup_cons, List.mem_map] at hnd
    split
    · rename_i hm
      rw [find_none h2]
      intro k hk hkn
      exact hnd.1 ⟨k, hk, by rw [hkn, hm, hnm]⟩
    · rename_i hm
      apply Option.ext
      intro e
      rw [find_iff h2, find_iff h]
      constructor
      · rintro ⟨k, hk, hkn⟩
        exact ⟨k, hp.mem_iff.2 (List.mem_cons_of_mem _ hk), hkn⟩
      · rintro ⟨k, hk, hkn, hke⟩
        rcases List.mem_cons.1 (hp.mem_iff.1 hk) with rfl | hk
        · exact absurd (hkn.symm.trans hnm) hm
        · exact ⟨k, hk, hkn, hke⟩

theorem erase_inv {ch : Component → Nat} {o : Options} {t t' : Hashtable α} (h : HtInv ch t) {name : Name}
    (he : t.erase ch o name = some t') : HtInv ch t' := by
  cases hf : t.find ch name with
  | none =>
    unfold Hashtable.erase at he
    simp [(findNode_none name).2 hf] at he
  | some e =>
    obtain ⟨t'', h1, h2, -⟩ := erase_spec (o := o) h name hf
    rw [he] at h1
    cases h1
    exact h2

/-- What `update` does to a node. -/
def upd (name : Name) (f : α → α) (n : Node α) : Node α := if n.name = name then { n with entry := f n.entry } else n

theorem update_flatten (t : Hashtable α) (name : Name) (f : α → α) :
    (t.update name f).buckets.flatten = t.buckets.flatten.map (upd name f) := by
  simp only [Hashtable.update, List.map_flatten]
  rfl

theorem upd_name (name : Name) (f : α → α) (n : Node α) : (upd name f n).name = n.name := by
  unfold upd; split <;> rfl

theorem update_inv {ch : Component → Nat} {t : Hashtable α} (h : HtInv ch t) (name : Name) (f : α → α) : HtInv ch (t.update name f) := by
  refine ⟨by simpa [Hashtable.update] using h.pos, ?_, ?_, ?_⟩
  · intro i b hib m hm
    simp only [Hashtable.update, List.getElem?_map, Option.map_eq_some_iff] at hib
    obtain ⟨b', hb', rfl⟩ := hib
    obtain ⟨k, hk, rfl⟩ := List.mem_map.1 hm
    have := h.place i b' hb' k hk
    simp only [Hashtable.update, List.length_map]
    split <;> exact this
  · rw [update_flatten, List.map_map]
    have : ((fun n : Node α => n.name) ∘ upd name f) = (fun n => n.name) := by
      funext n; exact upd_name name f n
    rw [this]; exact h.nodup
  · rw [update_flatten, List.length_map]; exact h.size

theorem update_find {ch : Component → Nat} {t : Hashtable α} (h : HtInv ch t) (name : Name) (f : α → α) (m : Name) :
    (t.update name f).find ch m = if m = name then (t.find ch m).map f else t.find ch m := by
  apply Option.ext
  intro e
  rw [find_iff (update_inv h name f), update_flatten]
  split
  · rename_i hm
    rw [Option.map_eq_some_iff]
    constructor
    · rintro ⟨n, hn, hnm, rfl⟩
      obtain ⟨k, hk, rfl⟩ := List.mem_map.1 hn
      rw [upd_name] at hnm
      refine ⟨k.entry, (find_iff h m _).2 ⟨k, hk, hnm, rfl⟩, ?_⟩
      simp [upd, hnm, hm]
    · rintro ⟨e', he', rfl⟩
      obtain ⟨k, hk, hkn, rfl⟩ := (find_iff h m _).1 he'
      refine ⟨_, List.mem_map.2 ⟨k, hk, rfl⟩, by rw [upd_name]; exact hkn, ?_⟩
      simp [upd, hkn, hm]
  · rename_i hm
    rw [find_iff h]
    constructor
    · rintro ⟨n, hn, hnm, rfl⟩
      obtain ⟨k, hk, rfl⟩ := List.mem_map.1 hn
      rw [upd_name] at hnm
      refine ⟨k, hk, hnm, ?_⟩
      have : k.name ≠ name := by rw [hnm]; exact hm
      simp [upd, this]
    · rintro ⟨k, hk, hkn, rfl⟩
      refine ⟨_, List.mem_map.2 ⟨k, hk, rfl⟩, by rw [upd_name]; exact hkn, ?_⟩
      have : k.name ≠ name := by rw [hkn]; exact hm
      simp [upd, this]

end Verif.Nt
