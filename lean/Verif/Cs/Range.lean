import Verif.Cs.Inv

namespace Verif.Cs
open Std

/-! ### The query order is monotone on the table -/

theorem cmpQuery_digest {q : Name} {c : Component} (hc : c.isImplicitDigest = true) (d : Data) :
    cmpQuery (q ++ [c]) d = (Name.cmp q d.name).then (Component.cmp c d.digestComp) := by
  simp only [cmpQuery, List.getLast?_concat, hc, if_true, List.dropLast_concat]
  cases Name.cmp q d.name <;> rfl

theorem cmpQuery_plain {q : Name} (hq : ∀ c, q.getLast? = some c → c.isImplicitDigest = false) (d : Data) :
    cmpQuery q d = .gt ↔ Name.cmp q d.name = .gt := by
  unfold cmpQuery
  cases h : q.getLast? with
  | none => simp only; cases Name.cmp q d.name <;> simp
  | some c => simp only [hq c h, Bool.false_eq_true, if_false]; cases Name.cmp q d.name <;> simp

theorem cmpQuery_cases (q : Name) :
    (∀ c, q.getLast? = some c → c.isImplicitDigest = false) ∨
    ∃ q' c, q = q' ++ [c] ∧ c.isImplicitDigest = true := by
  cases h : q.getLast? with
  | none => left; intro c hc; cases hc
  | some c =>
    cases hd : c.isImplicitDigest
    · left; intro c' hc'; cases hc'; exact hd
    · right
      obtain ⟨ys, hy⟩ := List.getLast?_eq_some_iff.1 h
      exact ⟨ys, c, hy, hd⟩

theorem cmpQuery_mono {q : Name} {a b : Data} (hab : cmpData a b = .lt) (hb : cmpQuery q b = .gt) :
    cmpQuery q a = .gt := by
  rw [cmpData_eq_then] at hab
  rcases cmpQuery_cases q with h | ⟨q', c, rfl, hc⟩
  · rw [cmpQuery_plain h] at hb ⊢
    rcases (Ordering.then_eq_lt).1 hab with hab | ⟨hab, _⟩
    · exact TransCmp.gt_trans hb (OrientedCmp.gt_of_lt hab)
    · rw [Name.cmp_eq.1 hab]; exact hb
  · rw [cmpQuery_digest hc] at hb ⊢
    rcases (Ordering.then_eq_gt).1 hb with hb | ⟨hb, hb2⟩
    · rcases (Ordering.then_eq_lt).1 hab with hab | ⟨hab, _⟩
      · have : Name.cmp q' a.name = .gt := TransCmp.gt_trans hb (OrientedCmp.gt_of_lt hab)
        simp [this, Ordering.then]
      · rw [Name.cmp_eq.1 hab]; simp [hb, Ordering.then]
    · have hb := Name.cmp_eq.1 hb
      subst hb
      rcases (Ordering.then_eq_lt).1 hab with hab | ⟨hab, hab2⟩
      · have : Name.cmp b.name a.name = .gt := OrientedCmp.gt_of_lt hab
        simp [this, Ordering.then]
      · rw [Name.cmp_eq.1 hab, Name.cmp_self]
        simp only [Ordering.then]
        exact TransCmp.gt_trans hb2 (OrientedCmp.gt_of_lt hab2)

/-! ### findIdx on a partitioned list -/

theorem findIdx_partition {α} (P : α → Bool) (l : List α) (h : l.Pairwise (fun a b => P b = true → P a = true)) :
    l.take (l.findIdx (fun e => !P e)) = l.filter P ∧ l.drop (l.findIdx (fun e => !P e)) = l.filter (fun e => !P e) := by
  induction l with
  | nil => simp
  | cons x xs ih =>
    obtain ⟨h1, h2⟩ := List.pairwise_cons.1 h
    cases hx : P x
    · have hall : ∀ y ∈ xs, P y = false := by
        intro y hy
        cases hp : P y
        · rfl
        · have := h1 y hy hp; rw [hx] at this; cases this
      have e1 : (x::xs).findIdx (fun e => !P e) = 0 := by simp [List.findIdx_cons, hx]
      rw [e1]
      constructor
      · rw [List.take_zero, eq_comm, List.filter_eq_nil_iff]
        intro a ha
        rcases List.mem_cons.1 ha with rfl | ha
        · simp [hx]
        · simp [hall a ha]
      · rw [List.drop_zero, eq_comm, List.filter_eq_self]
        intro a ha
        rcases List.mem_cons.1 ha with rfl | ha
        · simp [hx]
        · simp [hall a ha]
    · have e1 : (x::xs).findIdx (fun e => !P e) = xs.findIdx (fun e => !P e) + 1 := by
        simp [List.findIdx_cons, hx]
      rw [e1]
      obtain ⟨i1, i2⟩ := ih h2
      simp [hx, i1, i2]

theorem sorted_mono {t : Table} (hs : Sorted t) (q : Name) :
    t.Pairwise (fun a b => entryLtQuery q b = true → entryLtQuery q a = true) := by
  refine hs.imp ?_
  intro a b hab hb
  simp only [entryLtQuery, beq_iff_eq] at *
  exact cmpQuery_mono hab hb

/-- Position of an entry relative to the range of `p`. -/
def inRange (p : Name) (e : Entry) : Bool :=
  !entryLtQuery p e && (p == [] || entryLtQuery p.succ e)

theorem findIdx_le_findIdx {α} (P Q : α → Bool) (l : List α) (h : ∀ a ∈ l, Q a = true → P a = true) :
    l.findIdx P ≤ l.findIdx Q := by
  induction l with
  | nil => simp
  | cons x xs ih =>
    have := ih (fun a ha => h a (by simp [ha]))
    have hx := h x (by simp)
    simp only [List.findIdx_cons]
    cases hp : P x <;> cases hq : Q x <;> simp_all

theorem iterRange_eq {t : Table} (hs : Sorted t) (p : Name)
    (hsub : p ≠ [] → ∀ e ∈ t, entryLtQuery p e = true → entryLtQuery p.succ e = true) :
    iterRange (findPrefixRange p t) t = some (t.filter (inRange p)) := by
  unfold iterRange findPrefixRange
  have hp1 := findIdx_partition _ t (sorted_mono hs p)
  by_cases hp : p = []
  · subst hp
    simp only [ne_eq, not_true_eq_false, if_false]
    have hle : lowerBound [] t ≤ t.length := List.findIdx_le_length
    rw [if_pos hle]
    rw [List.take_of_length_le (Nat.le_refl _)]
    simp only [lowerBound, hp1.2]
    congr 1
    apply List.filter_congr
    intro e _; simp [inRange]
  · simp only [ne_eq, hp, not_false_eq_true, if_true]
    have hp2 := findIdx_partition _ t (sorted_mono hs p.succ)
    have hle : lowerBound p t ≤ lowerBound p.succ t := by
      apply findIdx_le_findIdx
      intro e he h
      simp only [Bool.not_eq_true'] at *
      cases hc : entryLtQuery p e
      · rfl
      · rw [hsub hp e he hc] at h; cases h
    rw [if_pos hle]
    congr 1
    have : (t.take (lowerBound p.succ t)).drop (lowerBound p t) =
        (t.filter (entryLtQuery p.succ)).drop (lowerBound p t) := by
      rw [show lowerBound p.succ t = t.findIdx (fun e => !entryLtQuery p.succ e) from rfl, hp2.1]
    rw [this]
    have hlb : lowerBound p t = (t.filter (entryLtQuery p.succ)).findIdx (fun e => !entryLtQuery p e) := by
      rw [← hp2.1]
      unfold lowerBound at *
      rw [List.findIdx_take]
      omega
    rw [hlb]
    have hpw := (sorted_mono hs p).sublist (List.filter_sublist (p := entryLtQuery p.succ))
    rw [(findIdx_partition _ _ hpw).2, List.filter_filter]
    apply List.filter_congr
    intro e _
    have : (p == []) = false := by cases p <;> simp_all
    simp only [inRange, this, Bool.false_or]

/-! ### Meaning of the range -/

theorem succ_type_ge (c : Component) : c.typ ≤ c.succ.typ := by
  unfold Component.succ
  split
  · exact Nat.le_refl _
  · split <;> simp

theorem name_succ_concat (p : Name) (c : Component) : Name.succ (p ++ [c]) = p ++ [c.succ] := Name.succ_append p c

theorem isImplicitDigest_iff {c : Component} : c.isImplicitDigest = true ↔ c.typ = 1 ∧ c.val.length = 32 := by
  simp [Component.isImplicitDigest, ttImplicitDigest]

theorem incBytes_length {a b : List Byte} (h : Component.incBytes a = some b) : b.length = a.length :=
  (Component.incBytes_some h).1

/-- A digest-free name above `q` is above `q` extended by the least component above all digests. -/
theorem name_cmp_ext {q : Name} {c : Component} {n : Name} (hn : NoDigest n) (hw : Name.WF n) (hc : c.typ = 2)
    (hcl : c.val = []) :
    Name.cmp q n = .lt → Name.cmp (q ++ [c]) n = .lt := by
  induction q generalizing n with
  | nil =>
    intro h
    cases n with
    | nil => simp at h
    | cons y ys =>
      simp only [List.nil_append, Name.cmp_cons_cons]
      have hy := hn y (by simp)
      have hyw := (hw y (by simp))
      have h2y : 2 ≤ y.typ := by
        have := hyw.1; simp only [ttImplicitDigest] at hy; omega
      have : Component.cmp c y = .lt := by
        unfold Component.cmp
        rw [hc, hcl]
        rcases Nat.lt_or_ge 2 y.typ with h | h
        · have : compare 2 y.typ = .lt := by rw [Nat.compare_eq_lt]; omega
          simp [this, Ordering.then]
        · have h2e : y.typ = 2 := by omega
          have hylen := hyw.2.2 (Or.inr h2e)
          have a1 : compare 2 y.typ = .eq := by rw [h2e]; rfl
          have a2 : compare (List.length ([] : List Byte)) y.val.length = .lt := by
            rw [hylen]; rfl
          rw [a1, a2]; simp [Ordering.then]
      simp [this, Ordering.then]
  | cons x xs ih =>
    intro h
    cases n with
    | nil => simp at h
    | cons y ys =>
      rw [Name.cmp_cons_cons] at h
      simp only [List.cons_append, Name.cmp_cons_cons]
      rcases (Ordering.then_eq_lt).1 h with h | ⟨h1, h2⟩
      · simp [h, Ordering.then]
      · simp only [h1, Ordering.then]
        exact ih (fun c hc => hn c (by simp [hc])) hw.tail h2

theorem inRange_iff {p : Name} {e : Entry} (hp : Name.WF p) (hd : DataWF e.data) (hn : NoDigest e.data.name) :
    inRange p e = true ↔ p <+: e.data.fullName := by
  obtain ⟨hnw, hdl⟩ := hd
  rcases List.eq_nil_or_concat p with rfl | ⟨q, c, rfl⟩
  · -- empty prefix: everything
    simp only [inRange, entryLtQuery, beq_self_eq_true, Bool.true_or, Bool.and_true, Bool.not_eq_true',
      List.nil_prefix, iff_true]
    have : cmpQuery [] e.data ≠ .gt := by
      rw [Ne, cmpQuery_plain (by intro c hc; cases hc)]
      cases e.data.name <;> simp
    cases h : cmpQuery [] e.data <;> simp_all
  · have hne : (q ++ [c] == ([] : Name)) = false := by
      cases q <;> rfl
    simp only [List.concat_eq_append] at *
    simp only [inRange, entryLtQuery, hne, Bool.false_or, name_succ_concat, Bool.and_eq_true, Bool.not_eq_true',
      beq_eq_false_iff_ne, beq_iff_eq]
    have hcw : c.WF := hp c (by simp)
    have hdcw : e.data.digestComp.WF := by
      refine ⟨by simp [Data.digestComp, ttImplicitDigest], by simp [Data.digestComp, ttImplicitDigest], ?_⟩
      intro _; exact hdl
    cases hdig : c.isImplicitDigest
    · -- last component is not a digest
      have hct : 2 ≤ c.typ := by
        have h1 := hcw.1
        by_cases h2 : c.typ = 1
        · have := hcw.2.2 (Or.inl h2)
          rw [isImplicitDigest_iff.2 ⟨h2, this⟩] at hdig; cases hdig
        · omega
      have hsd : c.succ.isImplicitDigest = false := by
        have := succ_type_ge c
        cases h : c.succ.isImplicitDigest
        · rfl
        · have := (isImplicitDigest_iff.1 h).1; omega
      rw [Ne, cmpQuery_plain (by intro c' hc'; simp at hc'; subst hc'; exact hdig),
        cmpQuery_plain (by intro c' hc'; simp at hc'; subst hc'; exact hsd)]
      have hr := Name.range_iff_prefix (p := q ++ [c]) (n := e.data.name) (by simp) hp hnw
      rw [name_succ_concat] at hr
      have : Name.cmp (q ++ [c.succ]) e.data.name = .gt ↔ Name.cmp e.data.name (q ++ [c.succ]) = .lt :=
        OrientedCmp.gt_iff_lt
      rw [this]
      constructor
      · intro h
        have := hr.1 h
        exact this.trans (List.prefix_append _ _)
      · intro h
        apply hr.2
        -- prefix of the full name, not ending in a digest
        unfold Data.fullName at h
        rcases List.prefix_concat_iff.1 h with h | h
        · exfalso
          have h' := congrArg List.getLast? h
          simp only [List.getLast?_concat] at h'
          cases h'
          rw [isImplicitDigest_iff.2 ⟨rfl, hdl⟩] at hdig; cases hdig
        · exact h
    · -- last component is a digest
      obtain ⟨ht, hl⟩ := isImplicitDigest_iff.1 hdig
      have hfull : (q ++ [c] <+: e.data.fullName) ↔ (q = e.data.name ∧ c = e.data.digestComp) := by
        unfold Data.fullName
        constructor
        · intro h
          rcases List.prefix_concat_iff.1 h with h | h
          · have := List.append_inj' h rfl
            simp at this; exact this
          · exfalso
            have : c ∈ e.data.name := h.subset (by simp)
            exact hn c this ht
        · rintro ⟨rfl, rfl⟩; exact List.prefix_refl _
      rw [hfull, cmpQuery_digest hdig]
      have hsucc := Component.lt_succ_iff hcw hdcw
      cases hsd : c.succ.isImplicitDigest
      · -- the digest was all 0xFF
        rw [cmpQuery_plain (by intro c' hc'; simp at hc'; subst hc'; exact hsd)]
        have hst : c.succ.typ = 2 ∧ c.succ.val = [] := by
          unfold Component.succ at hsd ⊢
          split at hsd
          · rename_i v hv
            have : (⟨c.typ, v⟩ : Component).isImplicitDigest = true :=
              isImplicitDigest_iff.2 ⟨ht, by show v.length = 32; rw [incBytes_length hv]; exact hl⟩
            rw [this] at hsd; cases hsd
          · simp [ht, ttImplicitDigest]
        constructor
        · rintro ⟨h1, h2⟩
          have hle : Name.cmp q e.data.name = .eq := by
            rcases hc : Name.cmp q e.data.name with _ | _ | _
            · exfalso
              -- then the data name is above every digest extension, hence also above the successor
              have h3 := name_cmp_ext hn hnw hst.1 hst.2 hc
              rw [h2] at h3; cases h3
            · rfl
            · simp [hc, Ordering.then] at h1
          refine ⟨Name.cmp_eq.1 hle, ?_⟩
          simp only [hle, Ordering.then] at h1
          -- digest ≤ c because c is the greatest digest
          have hlt : Component.cmp e.data.digestComp c.succ = .lt := by
            unfold Component.cmp
            have : compare e.data.digestComp.typ c.succ.typ = .lt := by
              rw [hst.1]; rfl
            simp [this, Ordering.then]
          have hle2 := hsucc.1 hlt
          have : Component.cmp c e.data.digestComp = .eq := by
            rcases hc : Component.cmp c e.data.digestComp with _ | _ | _
            · exact absurd (OrientedCmp.gt_of_lt hc) hle2
            · rfl
            · exact absurd hc h1
          exact Component.cmp_eq.1 this
        · rintro ⟨rfl, rfl⟩
          refine ⟨by simp [Name.cmp_self, Component.cmp_self, Ordering.then], ?_⟩
          have : Name.cmp (e.data.name ++ [e.data.digestComp.succ]) (e.data.name ++ []) = .gt := by
            rw [Name.cmp_append_left]; simp
          simpa using this
      · rw [cmpQuery_digest hsd]
        constructor
        · rintro ⟨h1, h2⟩
          have hle : Name.cmp q e.data.name = .eq := by
            rcases hc : Name.cmp q e.data.name with _ | _ | _
            · simp [hc, Ordering.then] at h2
            · rfl
            · simp [hc, Ordering.then] at h1
          simp only [hle, Ordering.then] at h1 h2
          refine ⟨Name.cmp_eq.1 hle, ?_⟩
          have hle2 := hsucc.1 (OrientedCmp.lt_of_gt h2)
          have : Component.cmp c e.data.digestComp = .eq := by
            rcases hc : Component.cmp c e.data.digestComp with _ | _ | _
            · exact absurd (OrientedCmp.gt_of_lt hc) hle2
            · rfl
            · exact absurd hc h1
          exact Component.cmp_eq.1 this
        · rintro ⟨rfl, rfl⟩
          have : Component.cmp e.data.digestComp.succ e.data.digestComp = .gt := by
            apply OrientedCmp.gt_of_lt
            rw [hsucc, Component.cmp_self]; simp
          simp [Name.cmp_self, Component.cmp_self, this, Ordering.then]

/-- The lower bound of the successor is never before the lower bound of the prefix. -/
theorem lt_succ_of_lt {p : Name} {e : Entry} (hpne : p ≠ []) (hp : Name.WF p)
    (h : entryLtQuery p e = true) : entryLtQuery p.succ e = true := by
  rcases List.eq_nil_or_concat p with rfl | ⟨q, c, rfl⟩
  · exact absurd rfl hpne
  · simp only [List.concat_eq_append] at *
    rw [name_succ_concat]
    simp only [entryLtQuery, beq_iff_eq] at *
    have hcw : c.WF := hp c (by simp)
    have hlt : Component.cmp c c.succ = .lt := by
      rw [Component.lt_succ_iff hcw hcw, Component.cmp_self]; simp
    have hnlt : Name.cmp (q ++ [c.succ]) (q ++ [c]) = .gt := by
      rw [Name.cmp_append_left, Name.cmp_cons_cons]
      simp [OrientedCmp.gt_of_lt hlt, Ordering.then]
    have hqlt : Name.cmp (q ++ [c.succ]) q = .gt := by
      have : Name.cmp (q ++ [c.succ]) (q ++ []) = .gt := by rw [Name.cmp_append_left]; simp
      simpa using this
    cases hdig : c.isImplicitDigest
    · have hct : 2 ≤ c.typ := by
        have h1 := hcw.1
        by_cases h2 : c.typ = 1
        · have := hcw.2.2 (Or.inl h2)
          rw [isImplicitDigest_iff.2 ⟨h2, this⟩] at hdig; cases hdig
        · omega
      have hsd : c.succ.isImplicitDigest = false := by
        have := succ_type_ge c
        cases h : c.succ.isImplicitDigest
        · rfl
        · have := (isImplicitDigest_iff.1 h).1; omega
      rw [cmpQuery_plain (by intro c' hc'; simp at hc'; subst hc'; exact hdig)] at h
      rw [cmpQuery_plain (by intro c' hc'; simp at hc'; subst hc'; exact hsd)]
      exact TransCmp.gt_trans hnlt h
    · rw [cmpQuery_digest hdig] at h
      cases hsd : c.succ.isImplicitDigest
      · rw [cmpQuery_plain (by intro c' hc'; simp at hc'; subst hc'; exact hsd)]
        rcases (Ordering.then_eq_gt).1 h with h | ⟨h, _⟩
        · exact TransCmp.gt_trans hqlt h
        · rw [← Name.cmp_eq.1 h]; exact hqlt
      · rw [cmpQuery_digest hsd]
        rcases (Ordering.then_eq_gt).1 h with h | ⟨h, h2⟩
        · simp [h, Ordering.then]
        · simp only [h, Ordering.then]
          exact TransCmp.gt_trans (OrientedCmp.gt_of_lt hlt) h2

end Verif.Cs
