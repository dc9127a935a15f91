import Verif.Nt.Ht
import Verif.Nt.Spec

namespace Verif.Nt

open List

variable {T : Type}

/-- Structural invariant of the name tree. -/
structure TreeInv (c : Cfg T) (t : Tree T) : Prop where
  ht : HtInv c.ch t
  depth : ∀ n e, t.find c.ch n = some e → n.length ≤ maxDepth
  root : ∀ e, t.find c.ch [] = some e → e.parent = none
  par : ∀ n e, t.find c.ch n = some e → n ≠ [] →
    e.parent = some n.dropLast ∧ ∃ p, t.find c.ch n.dropLast = some p ∧ n ∈ p.children
  kids : ∀ n e, t.find c.ch n = some e → e.children.Nodup ∧
    ∀ k ∈ e.children, k ≠ [] ∧ k.dropLast = n ∧ ∃ ke, t.find c.ch k = some ke

theorem tblOf_isSome {c : Cfg T} {t : Tree T} {m : Name} : (tblOf c t m).isSome = (t.find c.ch m).isSome := by
  simp [tblOf]

theorem init_treeInv (c : Cfg T) : TreeInv c (Hashtable.init c.opts) where
  ht := init_inv _ _
  depth := by intro n e h; simp [init_find] at h
  root := by intro e h; simp [init_find] at h
  par := by intro n e h; simp [init_find] at h
  kids := by intro n e h; simp [init_find] at h

theorem stored_prefix {c : Cfg T} {t : Tree T} (h : TreeInv c t) {n m : Name} (hp : m <+: n)
    (hn : (t.find c.ch n).isSome) : (t.find c.ch m).isSome := by
  obtain ⟨k, rfl⟩ := hp
  induction hk : k.length generalizing k with
  | zero => simp_all
  | succ l ih =>
    rcases List.eq_nil_or_concat k with rfl | ⟨k', a, rfl⟩
    · simp at hk
    · apply ih k'
      · obtain ⟨e, he⟩ := Option.isSome_iff_exists.1 hn
        obtain ⟨-, p, hp, -⟩ := h.par _ e he (by simp)
        have e : (m ++ (k'.concat a)).dropLast = m ++ k' := by
          rw [List.concat_eq_append, ← List.append_assoc, List.dropLast_concat]
        rw [e] at hp
        simp [hp]
      · simpa using hk

theorem dropLast_prefix_iff {m n : Name} (hn : n ≠ []) : m <+: n ↔ m = n ∨ m <+: n.dropLast := by
  obtain ⟨k, a, rfl⟩ := (List.eq_nil_or_concat n).resolve_left hn
  rw [List.concat_eq_append, List.prefix_concat_iff, List.dropLast_concat]

/-- Whoever has a stored strict extension has a child. -/
theorem child_of_ext {c : Cfg T} {t : Tree T} (h : TreeInv c t) {n m : Name} {e : Nte T}
    (hn : t.find c.ch n = some e) (hm : (t.find c.ch m).isSome) (hp : n <+: m) (hne : m ≠ n) :
    ∃ k ∈ e.children, k <+: m := by
  obtain ⟨s, rfl⟩ := hp
  cases s with
  | nil => simp at hne
  | cons a s =>
    have hk : (t.find c.ch (n ++ [a])).isSome := stored_prefix h ⟨s, by simp⟩ hm
    obtain ⟨ke, hke⟩ := Option.isSome_iff_exists.1 hk
    obtain ⟨-, p, hp, hmem⟩ := h.par _ ke hke (by simp)
    simp only [List.dropLast_concat] at hp
    rw [hn] at hp
    cases hp
    exact ⟨_, hmem, ⟨s, by simp⟩⟩

/-- Adding one node below a stored parent. -/
theorem lookupStep_child {c : Cfg T} {t : Tree T} (h : TreeInv c t) {name : Name} {i : Nat} (hi : i + 1 ≤ name.length)
    (hd : i + 1 ≤ maxDepth) (hp : (t.find c.ch (name.take i)).isSome) :
    ∃ t', lookupStep c t name (i + 1) (some (name.take i)) = some t' ∧ TreeInv c t' ∧
      ∀ m, tblOf c t' m = if m = name.take (i + 1) then some ((tblOf c t m).getD c.empty) else tblOf c t m := by
  unfold lookupStep
  have hlen : (name.take (i + 1)).length = i + 1 := by simp; omega
  have hne : name.take (i + 1) ≠ [] := by intro h; rw [h] at hlen; simp at hlen
  have hdl : (name.take (i + 1)).dropLast = name.take i := by
    rw [List.dropLast_eq_take, hlen, List.take_take]; congr 1; omega
  have hnp : name.take i ≠ name.take (i + 1) := by
    intro h
    have := congrArg List.length h
    simp at this; omega
  generalize hn : name.take (i + 1) = n at *
  generalize hpp : name.take i = p at *
  cases hf : t.find c.ch n with
  | some e =>
    simp only [insert_old hf]
    refine ⟨t, rfl, h, ?_⟩
    intro m
    split
    · rename_i hm; subst hm; simp [tblOf, hf]
    · rfl
  | none =>
    have hnew : (t.insert c.ch c.opts n { tbl := c.empty }).2 = true := by rw [insert_isNew h.ht, hf]; rfl
    have hif := fun m => insert_find (o := c.opts) h.ht n ({ tbl := c.empty } : Nte T) m
    have hii := insert_inv (o := c.opts) h.ht n ({ tbl := c.empty } : Nte T)
    rw [hf] at hif
    simp only [Option.getD_none] at hif
    simp only [hnew]
    generalize (t.insert c.ch c.opts n { tbl := c.empty }).1 = t1 at *
    obtain ⟨pe, hpe⟩ := Option.isSome_iff_exists.1 hp
    have hn1 := hif n
    rw [if_pos rfl] at hn1
    have hp1 := hif p
    rw [if_neg hnp, hpe] at hp1
    unfold setParent
    rw [hn1, hp1]
    simp only [Option.isSome_none, Bool.false_or, hdl, bne_self_eq_false, Bool.or_false]
    rw [if_neg (by simpa using hne)]
    have hu1 := update_inv hii n (fun e : Nte T => { e with parent := some p })
    have hu2 := update_inv hu1 p (fun e : Nte T => { e with children := e.children ++ [n] })
    have hF : ∀ m, ((t1.update n (fun e => { e with parent := some p })).update p
        (fun e => { e with children := e.children ++ [n] })).find c.ch m =
        if m = n then some ⟨some p, [], c.empty⟩ else if m = p then some { pe with children := pe.children ++ [n] }
        else t.find c.ch m := by
      intro m
      rw [update_find hu1, update_find hii, hif m]
      by_cases h1 : m = n
      · subst h1; simp [hnp.symm]
      · by_cases h2 : m = p
        · subst h2; simp [h1, hpe]
        · simp [h1, h2]
    refine ⟨_, rfl, ⟨hu2, ?_, ?_, ?_, ?_⟩, ?_⟩
    · intro m e he
      rw [hF] at he
      split at he
      · rename_i hm; subst hm; rw [hlen]; exact hd
      · split at he
        · rename_i hm; subst hm; exact h.depth _ _ hpe
        · exact h.depth _ _ he
    · intro e he
      rw [hF, if_neg (Ne.symm hne)] at he
      split at he
      · rename_i hm
        cases he
        exact h.root pe (by rw [hm]; exact hpe)
      · exact h.root _ he
    · intro m e he hm
      simp only [hF] at he ⊢
      split at he
      · rename_i hmn
        cases he
        subst hmn
        refine ⟨by rw [hdl], ?_⟩
        rw [hdl, if_neg hnp, if_pos rfl]
        exact ⟨_, rfl, by simp⟩
      · rename_i hmn
        have old : ∃ e', t.find c.ch m = some e' ∧ e'.parent = e.parent := by
          split at he
          · rename_i hmp; subst hmp; cases he; exact ⟨pe, hpe, rfl⟩
          · exact ⟨e, he, rfl⟩
        obtain ⟨e', he', hpar⟩ := old
        obtain ⟨h1, q, hq, hmem⟩ := h.par m e' he' hm
        refine ⟨by rw [← hpar]; exact h1, ?_⟩
        have hdn : m.dropLast ≠ n := by
          intro hh; rw [hh, hf] at hq; simp at hq
        rw [if_neg hdn]
        split
        · rename_i hdp
          rw [hdp, hpe] at hq; cases hq
          exact ⟨_, rfl, by simp [hmem]⟩
        · exact ⟨q, hq, hmem⟩
    · intro m e he
      simp only [hF] at he ⊢
      have ext : ∀ k, (∃ ke, t.find c.ch k = some ke) →
          ∃ ke, (if k = n then some ⟨some p, [], c.empty⟩ else if k = p then some { pe with children := pe.children ++ [n] }
            else t.find c.ch k) = some ke := by
        rintro k ⟨ke, hk⟩
        split
        · exact ⟨_, rfl⟩
        · split
          · exact ⟨_, rfl⟩
          · exact ⟨ke, hk⟩
      split at he
      · cases he; simp
      · split at he
        · rename_i hmp
          cases he
          subst hmp
          obtain ⟨h1, h2⟩ := h.kids _ _ hpe
          constructor
          · simp only
            rw [List.nodup_append]
            refine ⟨h1, by simp, ?_⟩
            intro a ha b hb
            simp only [List.mem_singleton] at hb
            subst hb
            rintro rfl
            obtain ⟨-, -, ke, hke⟩ := h2 _ ha
            rw [hf] at hke; simp at hke
          · intro k hk
            simp only [List.mem_append, List.mem_singleton] at hk
            rcases hk with hk | rfl
            · obtain ⟨h3, h4, h5⟩ := h2 k hk
              exact ⟨h3, h4, ext k h5⟩
            · exact ⟨hne, hdl, by simp⟩
        · obtain ⟨h1, h2⟩ := h.kids _ _ he
          refine ⟨h1, ?_⟩
          intro k hk
          obtain ⟨h3, h4, h5⟩ := h2 k hk
          exact ⟨h3, h4, ext k h5⟩
    · intro m
      simp only [tblOf, hF]
      by_cases h1 : m = n
      · subst h1; simp [hf]
      · by_cases h2 : m = p
        · subst h2; simp [h1, hpe]
        · simp [h1, h2]

theorem lookupStep_root {c : Cfg T} {t : Tree T} (h : TreeInv c t) (name : Name) :
    ∃ t', lookupStep c t name 0 none = some t' ∧ TreeInv c t' ∧
      ∀ m, tblOf c t' m = if m = [] then some ((tblOf c t m).getD c.empty) else tblOf c t m := by
  unfold lookupStep
  simp only [List.take_zero]
  have hif := fun m => insert_find (o := c.opts) h.ht [] ({ tbl := c.empty } : Nte T) m
  refine ⟨(t.insert c.ch c.opts [] { tbl := c.empty }).1, by split <;> simp_all, ?_, ?_⟩
  · have hii := insert_inv (o := c.opts) h.ht [] ({ tbl := c.empty } : Nte T)
    cases hf : t.find c.ch [] with
    | some e => rw [insert_old hf]; exact h
    | none =>
      rw [hf] at hif
      simp only [Option.getD_none] at hif
      -- the tree is empty
      have hall : ∀ m, t.find c.ch m = none := by
        intro m
        cases hm : t.find c.ch m with
        | none => rfl
        | some e =>
          have := stored_prefix h (List.nil_prefix (l := m)) (by simp [hm])
          simp [hf] at this
      refine ⟨hii, ?_, ?_, ?_, ?_⟩
      · intro n e he; rw [hif] at he; split at he <;> simp_all
      · intro e he; rw [hif] at he; simp at he; rw [← he]
      · intro n e he hn; rw [hif] at he; simp_all
      · intro n e he; rw [hif] at he; split at he
        · cases he; simp
        · simp_all
  · intro m
    simp only [tblOf, hif]
    split
    · rename_i hm; subst hm; cases t.find c.ch [] <;> simp
    · rfl

theorem take_prefix_take_succ {name m : Name} {i : Nat} (hi : i + 1 ≤ name.length) :
    m <+: name.take (i + 1) ↔ m = name.take (i + 1) ∨ m <+: name.take i := by
  have hlen : (name.take (i + 1)).length = i + 1 := by simp; omega
  have hne : name.take (i + 1) ≠ [] := by intro h; rw [h] at hlen; simp at hlen
  have hdl : (name.take (i + 1)).dropLast = name.take i := by
    rw [List.dropLast_eq_take, hlen, List.take_take]; congr 1; omega
  rw [dropLast_prefix_iff hne, hdl]

theorem lookupLoop_spec {c : Cfg T} {name : Name} (k : Nat) : ∀ {i : Nat} {t : Tree T}, TreeInv c t → i + k ≤ name.length →
    i + k ≤ maxDepth → (t.find c.ch (name.take i)).isSome →
    ∃ t', lookupLoop c name k (i + 1) (some (name.take i)) t = some t' ∧ TreeInv c t' ∧
      ∀ m, tblOf c t' m = if m <+: name.take (i + k) then some ((tblOf c t m).getD c.empty) else tblOf c t m := by
  induction k with
  | zero =>
    intro i t h h1 h2 h3
    refine ⟨t, rfl, h, ?_⟩
    intro m
    split
    · rename_i hm
      have := stored_prefix h hm h3
      rw [← tblOf_isSome] at this
      obtain ⟨e, he⟩ := Option.isSome_iff_exists.1 this
      simp [he]
    · rfl
  | succ k ih =>
    intro i t h h1 h2 h3
    obtain ⟨t1, e1, i1, f1⟩ := lookupStep_child h (by omega : i + 1 ≤ name.length) (by omega) h3
    obtain ⟨t2, e2, i2, f2⟩ := ih (i := i + 1) i1 (by omega) (by omega) (by rw [← tblOf_isSome, f1]; simp)
    refine ⟨t2, ?_, i2, ?_⟩
    · rw [lookupLoop, e1]; exact e2
    · intro m
      rw [f2, f1]
      have e : i + 1 + k = i + (k + 1) := by omega
      rw [e]
      split
      · split <;> simp
      · rename_i hm
        rw [if_neg]
        rintro rfl
        exact hm (List.take_prefix_take_left (by omega))

theorem lookup_spec {c : Cfg T} {t : Tree T} (h : TreeInv c t) {name : Name} {k : Nat} (h1 : k ≤ name.length) (h2 : k ≤ maxDepth) :
    ∃ t', lookup c t name k = some t' ∧ TreeInv c t' ∧
      ∀ m, tblOf c t' m = if m <+: name.take k then some ((tblOf c t m).getD c.empty) else tblOf c t m := by
  unfold lookup
  rw [if_pos ⟨h1, h2⟩]
  obtain ⟨t1, e1, i1, f1⟩ := lookupStep_root h name
  obtain ⟨t2, e2, i2, f2⟩ := lookupLoop_spec (name := name) k (i := 0) i1 (by omega) (by omega)
    (by rw [← tblOf_isSome, List.take_zero, f1]; simp)
  refine ⟨t2, ?_, i2, ?_⟩
  · rw [lookupLoop, e1]; exact e2
  · intro m
    rw [f2, f1, Nat.zero_add]
    split
    · split <;> simp
    · rename_i hm
      rw [if_neg]
      rintro rfl
      exact hm List.nil_prefix

/-- Writing table entries. -/
theorem setTbl_spec {c : Cfg T} {t : Tree T} (h : TreeInv c t) {n : Name} (hn : (t.find c.ch n).isSome) (f : T → T) :
    ∃ t', setTbl c t n f = some t' ∧ TreeInv c t' ∧
      ∀ m, tblOf c t' m = if m = n then (tblOf c t m).map f else tblOf c t m := by
  obtain ⟨e, he⟩ := Option.isSome_iff_exists.1 hn
  unfold setTbl
  rw [he]
  have hF := fun m => update_find h.ht n (fun e : Nte T => { e with tbl := f e.tbl }) m
  have same : ∀ m e', (t.update n (fun e : Nte T => { e with tbl := f e.tbl })).find c.ch m = some e' →
      ∃ e0, t.find c.ch m = some e0 ∧ e0.parent = e'.parent ∧ e0.children = e'.children := by
    intro m e' he'
    rw [hF] at he'
    split at he'
    · rw [Option.map_eq_some_iff] at he'
      obtain ⟨e0, h0, rfl⟩ := he'
      exact ⟨e0, h0, rfl, rfl⟩
    · exact ⟨e', he', rfl, rfl⟩
  have same' : ∀ m e0, t.find c.ch m = some e0 →
      ∃ e', (t.update n (fun e : Nte T => { e with tbl := f e.tbl })).find c.ch m = some e' ∧ e0.children = e'.children := by
    intro m e0 h0
    rw [hF]
    split
    · exact ⟨{ e0 with tbl := f e0.tbl }, by rw [h0]; rfl, rfl⟩
    · exact ⟨e0, h0, rfl⟩
  refine ⟨_, rfl, ⟨update_inv h.ht _ _, ?_, ?_, ?_, ?_⟩, ?_⟩
  · intro m e' he'
    obtain ⟨e0, h0, -⟩ := same m e' he'
    exact h.depth _ _ h0
  · intro e' he'
    obtain ⟨e0, h0, h1, -⟩ := same [] e' he'
    rw [← h1]; exact h.root _ h0
  · intro m e' he' hm
    obtain ⟨e0, h0, h1, -⟩ := same m e' he'
    obtain ⟨h2, p, h3, h4⟩ := h.par m e0 h0 hm
    obtain ⟨p', h5, h6⟩ := same' _ p h3
    exact ⟨by rw [← h1]; exact h2, p', h5, by rw [← h6]; exact h4⟩
  · intro m e' he'
    obtain ⟨e0, h0, -, h1⟩ := same m e' he'
    obtain ⟨h2, h3⟩ := h.kids m e0 h0
    rw [← h1]
    refine ⟨h2, ?_⟩
    intro k hk
    obtain ⟨a, b, ke, hke⟩ := h3 k hk
    obtain ⟨ke', hke', -⟩ := same' k ke hke
    exact ⟨a, b, ke', hke'⟩
  · intro m
    simp only [tblOf, hF]
    split
    · cases t.find c.ch m <;> simp
    · rfl

/-- Removing one empty node: unset its parent, erase it from the hash table. -/
theorem eraseOne {c : Cfg T} {t : Tree T} (h : TreeInv c t) {n : Name} {e : Nte T} (hn : t.find c.ch n = some e)
    (hc : e.children = []) :
    ∃ t1 t2, (if e.parent.isSome then unsetParent c t n else some t) = some t1 ∧ t1.erase c.ch c.opts n = some t2 ∧
      TreeInv c t2 ∧ ∀ m, tblOf c t2 m = if m = n then none else tblOf c t m := by
  -- state after unsetParent
  have key : ∃ t1, (if e.parent.isSome then unsetParent c t n else some t) = some t1 ∧ HtInv c.ch t1 ∧
      (t1.find c.ch n).isSome ∧
      ∀ m, m ≠ n → t1.find c.ch m = (t.find c.ch m).map (fun x => { x with children := x.children.erase n }) := by
    by_cases hne : n = []
    · subst hne
      rw [h.root e hn]
      refine ⟨t, rfl, h.ht, by simp [hn], ?_⟩
      intro m hm
      cases hf : t.find c.ch m with
      | none => rfl
      | some x =>
        have : [] ∉ x.children := by
          intro hk; exact ((h.kids m x hf).2 _ hk).1 rfl
        simp [List.erase_of_not_mem this]
    · obtain ⟨hp, p, hpf, hmem⟩ := h.par n e hn hne
      rw [hp]
      simp only [Option.isSome_some, if_true]
      unfold unsetParent
      simp only [hn, hp, hpf]
      rw [if_pos (by simpa using hmem)]
      have hu1 := update_inv h.ht n.dropLast (fun e : Nte T => { e with children := e.children.erase n })
      have hnd : n ≠ n.dropLast := by
        intro hh
        have := congrArg List.length hh
        have := List.length_pos_iff.2 hne
        simp at *; omega
      refine ⟨_, rfl, update_inv hu1 _ _, ?_, ?_⟩
      · rw [update_find hu1, if_pos rfl, update_find h.ht, if_neg hnd, hn]; rfl
      · intro m hm
        rw [update_find hu1, if_neg hm, update_find h.ht]
        split
        · rfl
        · rename_i hm'
          cases hf : t.find c.ch m with
          | none => rfl
          | some x =>
            have : n ∉ x.children := by
              intro hk; exact hm' ((h.kids m x hf).2 _ hk).2.1.symm
            simp [List.erase_of_not_mem this]
  obtain ⟨t1, e1, i1, s1, f1⟩ := key
  obtain ⟨e1', he1'⟩ := Option.isSome_iff_exists.1 s1
  obtain ⟨t2, e2, i2, -⟩ := erase_spec (o := c.opts) i1 n he1'
  have f2 : ∀ m, t2.find c.ch m = if m = n then none else (t.find c.ch m).map (fun x => { x with children := x.children.erase n }) := by
    intro m
    rw [erase_find i1 e2]
    split
    · rfl
    · rename_i hm; exact f1 m hm
  refine ⟨t1, t2, e1, e2, ⟨i2, ?_, ?_, ?_, ?_⟩, ?_⟩
  · intro m x hx
    rw [f2] at hx
    split at hx
    · simp at hx
    · obtain ⟨y, hy, -⟩ := Option.map_eq_some_iff.1 hx
      exact h.depth _ _ hy
  · intro x hx
    rw [f2] at hx
    split at hx
    · simp at hx
    · obtain ⟨y, hy, rfl⟩ := Option.map_eq_some_iff.1 hx
      exact h.root y hy
  · intro m x hx hm
    simp only [f2] at hx ⊢
    split at hx
    · simp at hx
    · rename_i hmn
      obtain ⟨y, hy, rfl⟩ := Option.map_eq_some_iff.1 hx
      obtain ⟨h1, p, h2, h3⟩ := h.par m y hy hm
      refine ⟨h1, ?_⟩
      have : m.dropLast ≠ n := by
        intro hh
        rw [hh, hn] at h2
        cases h2
        rw [hc] at h3
        simp at h3
      rw [if_neg this, h2]
      refine ⟨_, rfl, ?_⟩
      simp only
      exact (List.mem_erase_of_ne hmn).2 h3
  · intro m x hx
    simp only [f2] at hx ⊢
    split at hx
    · simp at hx
    · obtain ⟨y, hy, rfl⟩ := Option.map_eq_some_iff.1 hx
      obtain ⟨h1, h2⟩ := h.kids m y hy
      refine ⟨h1.erase _, ?_⟩
      intro k hk
      have hk' := (List.Nodup.mem_erase_iff h1).1 hk
      obtain ⟨a, b, ke, hke⟩ := h2 k hk'.2
      refine ⟨a, b, ?_⟩
      rw [if_neg hk'.1, hke]
      exact ⟨_, rfl⟩
  · intro m
    simp only [tblOf, f2]
    split
    · rfl
    · cases t.find c.ch m <;> rfl

theorem eraseLoop_spec {c : Cfg T} (fuel : Nat) : ∀ {t : Tree T} {n : Name} (k : Nat), TreeInv c t →
    (t.find c.ch n).isSome → n.length + 2 ≤ fuel →
    ∃ t' k', eraseLoop c true fuel t (some n) k = some (t', k') ∧ TreeInv c t' ∧
      ∀ m, (Removed c (tblOf c t) n m → tblOf c t' m = none) ∧ (¬ Removed c (tblOf c t) n m → tblOf c t' m = tblOf c t m) := by
  induction fuel with
  | zero => intro t n k _ _ hl; omega
  | succ fuel ih =>
    intro t n k h hs hl
    obtain ⟨e, he⟩ := Option.isSome_iff_exists.1 hs
    rw [eraseLoop]
    simp only [he]
    by_cases hemp : e.isEmpty c = true
    · rw [if_pos hemp]
      simp only [Nte.isEmpty, Bool.and_eq_true, List.isEmpty_iff, Bool.not_eq_true'] at hemp
      obtain ⟨t1, t2, e1, e2, i2, f2⟩ := eraseOne h he hemp.1
      rw [e1]
      simp only [e2, if_true]
      have only : ∀ m' x, tblOf c t m' = some x → n <+: m' → m' = n := by
        intro m' x hx hp
        by_cases hne : m' = n
        · exact hne
        · have : (t.find c.ch m').isSome := by rw [← tblOf_isSome, hx]; rfl
          obtain ⟨k, hk, -⟩ := child_of_ext h he this hp hne
          rw [hemp.1] at hk; simp at hk
      have htn : tblOf c t n = some e.tbl := by simp [tblOf, he]
      by_cases hnil : n = []
      · subst hnil
        rw [h.root e he]
        have hl' : ∃ f', fuel = f' + 1 := ⟨fuel - 1, by simp at hl; omega⟩
        obtain ⟨f', rfl⟩ := hl'
        refine ⟨t2, k + 1, rfl, i2, ?_⟩
        intro m
        have hrem : Removed c (tblOf c t) [] [] := by
          refine ⟨List.nil_prefix, ?_⟩
          intro m' x hx hp
          have := only m' x hx hp
          subst this
          rw [htn] at hx
          cases hx
          exact ⟨List.nil_prefix, hemp.2⟩
        rw [f2]
        constructor
        · intro hr
          rw [if_pos (List.prefix_nil.1 hr.1)]
        · intro hr
          rw [if_neg]
          rintro rfl
          exact hr hrem
      · obtain ⟨hp, p, hpf, -⟩ := h.par n e he hnil
        rw [hp]
        have hdl : n.dropLast ≠ n := by
          intro hh
          have := congrArg List.length hh
          have := List.length_pos_iff.2 hnil
          simp at *; omega
        have hs2 : (t2.find c.ch n.dropLast).isSome := by
          rw [← tblOf_isSome, f2, if_neg hdl, tblOf_isSome, hpf]; rfl
        obtain ⟨t', k', h1, h2, h3⟩ := ih (t := t2) (n := n.dropLast) (k + 1) i2 hs2 (by
          have := List.length_pos_iff.2 hnil
          simp; omega)
        refine ⟨t', k', h1, h2, ?_⟩
        intro m
        have heq : Removed c (tblOf c t) n m ↔ m = n ∨ Removed c (tblOf c t2) n.dropLast m := by
          constructor
          · intro hr
            rcases (dropLast_prefix_iff hnil).1 hr.1 with h4 | h4
            · exact .inl h4
            · refine .inr ⟨h4, ?_⟩
              intro m' x hx hp
              rw [f2] at hx
              split at hx
              · simp at hx
              · rename_i hmn
                obtain ⟨h5, h6⟩ := hr.2 m' x hx hp
                exact ⟨((dropLast_prefix_iff hnil).1 h5).resolve_left hmn, h6⟩
          · rintro (rfl | hr)
            · refine ⟨List.prefix_refl _, ?_⟩
              intro m' x hx hp
              have := only m' x hx hp
              subst this
              rw [htn] at hx
              cases hx
              exact ⟨List.prefix_refl _, hemp.2⟩
            · refine ⟨(dropLast_prefix_iff hnil).2 (.inr hr.1), ?_⟩
              intro m' x hx hp
              by_cases hmn : m' = n
              · subst hmn
                rw [htn] at hx
                cases hx
                exact ⟨List.prefix_refl _, hemp.2⟩
              · obtain ⟨h5, h6⟩ := hr.2 m' x (by rw [f2, if_neg hmn]; exact hx) hp
                exact ⟨(dropLast_prefix_iff hnil).2 (.inr h5), h6⟩
        rw [heq]
        constructor
        · rintro (rfl | hr)
          · by_cases hr : Removed c (tblOf c t2) m.dropLast m
            · exact (h3 m).1 hr
            · rw [(h3 m).2 hr, f2, if_pos rfl]
          · exact (h3 m).1 hr
        · intro hr
          rw [(h3 m).2 (fun h => hr (.inr h)), f2, if_neg (fun h => hr (.inl h))]
    · rw [if_neg hemp]
      refine ⟨t, k, rfl, h, ?_⟩
      intro m
      refine ⟨?_, fun _ => rfl⟩
      intro hr
      exfalso
      simp only [Nte.isEmpty, Bool.and_eq_true, List.isEmpty_iff, Bool.not_eq_true'] at hemp
      rcases Classical.not_and_iff_not_or_not.1 hemp with hemp | hemp
      · obtain ⟨k, ks, hk⟩ := List.exists_cons_of_ne_nil hemp
        obtain ⟨a, b, ke, hke⟩ := (h.kids n e he).2 k (by rw [hk]; simp)
        have hnk : n <+: k := (dropLast_prefix_iff a).2 (.inr (by rw [b]; exact List.prefix_refl _))
        obtain ⟨h5, -⟩ := hr.2 k ke.tbl (by simp [tblOf, hke]) (hr.1.trans hnk)
        have := h5.length_le
        have := congrArg List.length b
        have := List.length_pos_iff.2 a
        simp at *; omega
      · have := (hr.2 n e.tbl (by simp [tblOf, he]) hr.1).2
        exact hemp this

theorem eraseLoop_one {c : Cfg T} {t : Tree T} {n : Name} (h : TreeInv c t) {e : Nte T} (he : t.find c.ch n = some e) (fuel : Nat) :
    ∃ t' k', eraseLoop c false (fuel + 1) t (some n) 0 = some (t', k') ∧ TreeInv c t' ∧
      ∀ m, tblOf c t' m = if m = n ∧ e.isEmpty c then none else tblOf c t m := by
  rw [eraseLoop]
  simp only [he]
  by_cases hemp : e.isEmpty c = true
  · rw [if_pos hemp]
    have hemp' := hemp
    simp only [Nte.isEmpty, Bool.and_eq_true, List.isEmpty_iff, Bool.not_eq_true'] at hemp'
    obtain ⟨t1, t2, e1, e2, i2, f2⟩ := eraseOne h he hemp'.1
    rw [e1]
    simp only [e2]
    exact ⟨t2, 1, rfl, i2, by intro m; rw [f2]; simp [hemp]⟩
  · rw [if_neg hemp]
    exact ⟨t, 0, rfl, h, by intro m; simp [hemp]⟩

end Verif.Nt
