import Verif.Rib.Emit

/-
The effect of a computed batch on the FIB and on the inherited routes.
-/
namespace Verif.Rib

/-! ### Lists of FIB updates -/

def look (l : List FibUpd) (m : Name) (f : Nat) : Option (Option Nat) :=
  (l.find? (fun u => u.name == m && u.face == f)).map (fun u => if u.adding then some u.cost else none)

/-- No two updates for the same name and face. -/
abbrev Keyed (l : List FibUpd) : Prop := l.Pairwise (fun a c => ¬ (a.name = c.name ∧ a.face = c.face))

theorem look_cons {u : FibUpd} {l : List FibUpd} {m : Name} {f : Nat} :
    look (u :: l) m f = if u.name = m ∧ u.face = f then some (if u.adding then some u.cost else none) else look l m f := by
  unfold look
  rw [List.find?_cons]
  by_cases h : u.name = m ∧ u.face = f
  · simp [h]
  · have : (u.name == m && u.face == f) = false := by
      rw [Bool.eq_false_iff]
      simpa using h
    rw [this, if_neg h]

theorem look_addFibUpd {u : FibUpd} {l : List FibUpd} {m : Name} {f : Nat} :
    look (addFibUpd u l) m f = if u.name = m ∧ u.face = f then some (if u.adding then some u.cost else none) else look l m f := by
  induction l with
  | nil => unfold addFibUpd; rw [look_cons]
  | cons x l ih =>
    unfold addFibUpd
    split
    · rename_i h
      rw [look_cons, look_cons]
      dsimp only
      rw [h.1, h.2]
      split <;> rfl
    · rename_i h
      rw [look_cons, ih, look_cons]
      by_cases hx : x.name = m ∧ x.face = f
      · rw [if_pos hx, if_pos hx, if_neg (fun hc : u.name = m ∧ u.face = f => h ⟨hx.1.trans hc.1.symm, hx.2.trans hc.2.symm⟩)]
      · rw [if_neg hx, if_neg hx]

theorem mem_addFibUpd {u y : FibUpd} {l : List FibUpd} (h : y ∈ addFibUpd u l) : (y.name = u.name ∧ y.face = u.face) ∨ y ∈ l := by
  induction l with
  | nil =>
    rw [addFibUpd, List.mem_singleton] at h
    exact .inl ⟨by rw [h], by rw [h]⟩
  | cons x l ih =>
    unfold addFibUpd at h
    split at h
    · rename_i hx
      rcases List.mem_cons.1 h with rfl | h
      · exact .inl hx
      · exact .inr (List.mem_cons_of_mem _ h)
    · rcases List.mem_cons.1 h with rfl | h
      · exact .inr List.mem_cons_self
      · rcases ih h with h | h
        · exact .inl h
        · exact .inr (List.mem_cons_of_mem _ h)

theorem Keyed.addFibUpd {u : FibUpd} {l : List FibUpd} (h : Keyed l) : Keyed (addFibUpd u l) := by
  induction l with
  | nil => exact List.pairwise_singleton _ _
  | cons x l ih =>
    obtain ⟨h1, h2⟩ := List.pairwise_cons.1 h
    unfold Rib.addFibUpd
    split
    · exact List.pairwise_cons.2 ⟨h1, h2⟩
    · rename_i hx
      refine List.pairwise_cons.2 ⟨fun y hy hc => ?_, ih h2⟩
      rcases mem_addFibUpd hy with h3 | h3
      · exact hx ⟨hc.1.trans h3.1, hc.2.trans h3.2⟩
      · exact h1 y h3 hc

theorem foldl_applyFib {face : Nat → Status} {l : List FibUpd} (hk : Keyed l) (fib : Fib) (m : Name) (f : Nat) (hf : face f = .alive) :
    l.foldl (applyFib face) fib m f = (look l m f).getD (fib m f) := by
  induction l generalizing fib with
  | nil => rfl
  | cons u l ih =>
    obtain ⟨h1, h2⟩ := List.pairwise_cons.1 hk
    rw [List.foldl_cons, ih h2, look_cons]
    by_cases hu : u.name = m ∧ u.face = f
    · rw [if_pos hu]
      have hl : look l m f = none := by
        unfold look
        rw [Option.map_eq_none_iff, List.find?_eq_none]
        intro x hx hc
        simp only [Bool.and_eq_true, beq_iff_eq] at hc
        exact h1 x hx ⟨hu.1.trans hc.1.symm, hu.2.trans hc.2.symm⟩
      rw [hl]
      simp only [Option.getD_none, Option.getD_some]
      unfold applyFib setHop
      rw [hu.2, hf, hu.1]
      cases u.adding <;> simp
    · rw [if_neg hu]
      congr 1
      unfold applyFib setHop
      have : ¬ (m = u.name ∧ f = u.face) := fun hc => hu ⟨hc.1.symm, hc.2.symm⟩
      split
      · split
        · simp [this]
        · rfl
      · simp [this]

theorem foldl_applyFib_dead {face : Nat → Status} {l : List FibUpd} (fib : Fib) (m : Name) (f : Nat) (hf : face f ≠ .alive) (h : fib m f = none) :
    l.foldl (applyFib face) fib m f = none := by
  induction l generalizing fib with
  | nil => exact h
  | cons u l ih =>
    rw [List.foldl_cons]
    apply ih
    unfold applyFib setHop
    split
    · split
      · rename_i hu
        dsimp only
        rw [if_neg (fun hc => hf (by rw [hc.2]; exact hu))]
        exact h
      · exact h
    · dsimp only
      split
      · rfl
      · exact h

theorem look_none_of_faces {l : List FibUpd} {m : Name} {f : Nat} (h : ∀ u ∈ l, u.face ≠ f) : look l m f = none := by
  unfold look
  rw [Option.map_eq_none_iff, List.find?_eq_none]
  intro x hx hc
  simp only [Bool.and_eq_true, beq_iff_eq] at hc
  exact h x hx hc.2

/-! ### The plan made of emissions -/

def planOf (g : Nat) (E : List Emit) : Plan := E.foldl (emitOne g) ⟨[], [], []⟩

structure PlanInv (g : Nat) (p : Plan) : Prop where
  batchKeyed : Keyed p.batch
  otherKeyed : Keyed p.other
  batchFace : ∀ u ∈ p.batch, u.face = g
  otherFace : ∀ u ∈ p.other, u.face ≠ g

theorem PlanInv.emitOne {g : Nat} {p : Plan} (h : PlanInv g p) (x : Emit) : PlanInv g (emitOne g p x) := by
  unfold Rib.emitOne
  cases x with
  | inh n a r => exact ⟨h.batchKeyed, h.otherKeyed, h.batchFace, h.otherFace⟩
  | fib n f c =>
    dsimp only
    split
    · rename_i hf
      refine ⟨h.batchKeyed.addFibUpd, h.otherKeyed, fun u hu => ?_, h.otherFace⟩
      rcases mem_addFibUpd hu with h1 | h1
      · rw [h1.2]; exact hf
      · exact h.batchFace u h1
    · rename_i hf
      refine ⟨h.batchKeyed, h.otherKeyed.addFibUpd, h.batchFace, fun u hu => ?_⟩
      rcases mem_addFibUpd hu with h1 | h1
      · rw [h1.2]; exact hf
      · exact h.otherFace u h1

def inhOf : Emit → Option (Bool × Name × Route)
  | .fib _ _ _ => none
  | .inh n a r => some (a, n, r)

theorem foldl_emitOne {g : Nat} (E : List Emit) (p : Plan) (h : PlanInv g p) :
    PlanInv g (E.foldl (emitOne g) p) ∧
    (∀ m f, look (E.foldl (emitOne g) p).batch m f = if f = g then (lastFib E m f).or (look p.batch m f) else none) ∧
    (∀ m f, look (E.foldl (emitOne g) p).other m f = if f = g then none else (lastFib E m f).or (look p.other m f)) ∧
    (E.foldl (emitOne g) p).inherited = p.inherited ++ E.filterMap inhOf := by
  induction E generalizing p with
  | nil =>
    refine ⟨h, fun m f => ?_, fun m f => ?_, by simp⟩
    · split
      · simp [lastFib, last]
      · rename_i hf
        exact look_none_of_faces (fun u hu => by rw [h.batchFace u hu]; exact Ne.symm hf)
    · split
      · rename_i hf
        exact look_none_of_faces (fun u hu => by rw [hf]; exact h.otherFace u hu)
      · simp [lastFib, last]
  | cons x E ih =>
    obtain ⟨h1, h2, h3, h4⟩ := ih (emitOne g p x) (h.emitOne x)
    rw [List.foldl_cons]
    refine ⟨h1, fun m f => ?_, fun m f => ?_, ?_⟩
    · rw [h2]
      split
      · rename_i hf
        rw [lastFib, lastFib, last, Option.or_assoc]
        congr 1
        unfold emitOne hitFib
        cases x with
        | inh n a r => rfl
        | fib n f' c =>
          dsimp only
          by_cases hf' : f' = g
          · rw [if_pos hf', look_addFibUpd]
            dsimp only
            by_cases hc : n = m ∧ f' = f
            · rw [if_pos hc, if_pos hc]; cases c <;> rfl
            · rw [if_neg hc, if_neg hc]; rfl
          · rw [if_neg hf', if_neg (fun hc => hf' (hc.2.trans hf))]; rfl
      · rfl
    · rw [h3]
      split
      · rfl
      · rename_i hf
        rw [lastFib, lastFib, last, Option.or_assoc]
        congr 1
        unfold emitOne hitFib
        cases x with
        | inh n a r => rfl
        | fib n f' c =>
          dsimp only
          by_cases hf' : f' = g
          · rw [if_pos hf', if_neg (fun hc => hf (hc.2.symm.trans hf'))]; rfl
          · rw [if_neg hf', look_addFibUpd]
            dsimp only
            by_cases hc : n = m ∧ f' = f
            · rw [if_pos hc, if_pos hc]; cases c <;> rfl
            · rw [if_neg hc, if_neg hc]; rfl
    · rw [h4]
      unfold emitOne inhOf
      cases x with
      | fib n f c => dsimp only; split <;> simp
      | inh n a r => simp

theorem PlanInv.nil (g : Nat) : PlanInv g ⟨[], [], []⟩ :=
  ⟨List.Pairwise.nil, List.Pairwise.nil, (fun _ h => by cases h), (fun _ h => by cases h)⟩

theorem planOf_inv (g : Nat) (E : List Emit) : PlanInv g (planOf g E) := (foldl_emitOne E _ (PlanInv.nil g)).1

theorem planOf_batch (g : Nat) (E : List Emit) (m : Name) (f : Nat) : look (planOf g E).batch m f = if f = g then lastFib E m f else none := by
  have := (foldl_emitOne E _ (PlanInv.nil g)).2.1 m f
  unfold planOf
  rw [this]
  simp [look]

theorem planOf_other (g : Nat) (E : List Emit) (m : Name) (f : Nat) : look (planOf g E).other m f = if f = g then none else lastFib E m f := by
  have := (foldl_emitOne E _ (PlanInv.nil g)).2.2.1 m f
  unfold planOf
  rw [this]
  simp [look]

theorem planOf_inherited (g : Nat) (E : List Emit) : (planOf g E).inherited = E.filterMap inhOf := by
  have := (foldl_emitOne E _ (PlanInv.nil g)).2.2.2
  unfold planOf
  rw [this]
  rfl

/-- The FIB after all commands of a batch. -/
theorem planOf_fib {face : Nat → Status} (g : Nat) (E : List Emit) (fib : Fib) (m : Name) (f : Nat) (hf : face f = .alive) :
    (planOf g E).other.foldl (applyFib face) ((planOf g E).batch.foldl (applyFib face) fib) m f = (lastFib E m f).getD (fib m f) := by
  have hi := planOf_inv g E
  rw [foldl_applyFib hi.otherKeyed _ m f hf, foldl_applyFib hi.batchKeyed _ m f hf, planOf_batch, planOf_other]
  split <;> rfl

/-- The FIB after the commands for other faces. -/
theorem planOf_fib_other {face : Nat → Status} (g : Nat) (E : List Emit) (fib : Fib) (m : Name) (f : Nat) (hf : face f = .alive) (hg : f ≠ g) :
    (planOf g E).other.foldl (applyFib face) fib m f = (lastFib E m f).getD (fib m f) := by
  have hi := planOf_inv g E
  rw [foldl_applyFib hi.otherKeyed _ m f hf, planOf_other, if_neg hg]

/-- The FIB after the commands for the face of the batch, as seen for other faces. -/
theorem planOf_fib_batch {face : Nat → Status} (g : Nat) (E : List Emit) (fib : Fib) (m : Name) (f : Nat) (hf : face f = .alive) (hg : f ≠ g) :
    (planOf g E).batch.foldl (applyFib face) fib m f = fib m f := by
  have hi := planOf_inv g E
  rw [foldl_applyFib hi.batchKeyed _ m f hf, planOf_batch, if_neg hg]; rfl

theorem planOf_refused {face : Nat → Status} (g : Nat) (E : List Emit) :
    (planOf g E).batch.any (refused face) = true ↔ face g ≠ .alive ∧ ∃ m c, lastFib E m g = some (some c) := by
  have hi := planOf_inv g E
  rw [List.any_eq_true]
  constructor
  · rintro ⟨u, hu, hr⟩
    have hug := hi.batchFace u hu
    unfold refused at hr
    simp only [Bool.and_eq_true, bne_iff_ne, ne_eq] at hr
    rw [hug] at hr
    refine ⟨hr.2, u.name, u.cost, ?_⟩
    have h1 := planOf_batch g E u.name g
    rw [if_pos rfl] at h1
    rw [← h1]
    have hsome : ((planOf g E).batch.find? (fun x => x.name == u.name && x.face == g)).isSome = true := by
      rw [List.find?_isSome]
      exact ⟨u, hu, by simp [hug]⟩
    obtain ⟨v, hv⟩ := Option.isSome_iff_exists.1 hsome
    have hvp := List.find?_some hv
    simp only [Bool.and_eq_true, beq_iff_eq] at hvp
    have huv : v = u := by
      apply Decidable.byContradiction
      intro hne
      have hvm := List.mem_of_find?_eq_some hv
      obtain ⟨i, hi1, hi2⟩ := List.mem_iff_getElem.1 hu
      obtain ⟨j, hj1, hj2⟩ := List.mem_iff_getElem.1 hvm
      rcases Nat.lt_trichotomy i j with h | h | h
      · have := List.pairwise_iff_getElem.1 hi.batchKeyed i j hi1 hj1 h
        rw [hi2, hj2] at this
        exact this ⟨hvp.1.symm, hug.trans hvp.2.symm⟩
      · subst h; exact hne (hj2.symm.trans hi2)
      · have := List.pairwise_iff_getElem.1 hi.batchKeyed j i hj1 hi1 h
        rw [hi2, hj2] at this
        exact this ⟨hvp.1, hvp.2.trans hug.symm⟩
    unfold look
    rw [hv, huv]
    simp [hr.1]
  · rintro ⟨hf, m, c, hl⟩
    have h1 := planOf_batch g E m g
    rw [if_pos rfl, hl] at h1
    unfold look at h1
    rw [Option.map_eq_some_iff] at h1
    obtain ⟨u, hu, hc⟩ := h1
    refine ⟨u, List.mem_of_find?_eq_some hu, ?_⟩
    have hug := hi.batchFace u (List.mem_of_find?_eq_some hu)
    unfold refused
    rw [hug]
    split at hc
    · rename_i ha; rw [ha]; simpa using hf
    · cases hc

/-! ### Inherited routes -/

theorem RInv.putInherited {k : Nat} {b : Rib} (h : RInv k b) {n : Name} {e : Entry} (hg : get b.table n = some e) (l : List Route) :
    RInv k { b with table := put b.table { e with inherited := l } } := by
  have hn := get_name hg
  have hget : ∀ m, get (put b.table { e with inherited := l }) m = if m = n then some { e with inherited := l } else get b.table m := by
    intro m
    rw [get_put]
    show (if m = e.name then _ else _) = _
    rw [hn]
    split
    · rename_i hm; rw [hm, hg]; rfl
    · rfl
  have key : ∀ (m : Name) (x : Entry), get (put b.table { e with inherited := l }) m = some x → ∃ y, get b.table m = some y ∧ x.id = y.id ∧ x.routes = y.routes := by
    intro m x hx
    rw [hget] at hx
    split at hx
    · rename_i hm
      rw [← Option.some.inj hx]
      exact ⟨e, by rw [hm]; exact hg, rfl, rfl⟩
    · exact ⟨x, hx, rfl, rfl⟩
  refine ⟨h.tree.put hg hn rfl rfl, ?_, ?_, ?_, ?_, ?_, ?_, ?_⟩
  · intro m x hx
    obtain ⟨y, h1, _, h3⟩ := key m x hx
    rw [h3]; exact h.nonempty m y h1
  · intro m x hx
    obtain ⟨y, h1, _, h3⟩ := key m x hx
    rw [h3]; exact h.keys m y h1
  · intro m x hx
    obtain ⟨y, h1, _, h3⟩ := key m x hx
    rw [h3]; exact h.bound m y h1
  · intro m x hx
    obtain ⟨y, h1, h2, _⟩ := key m x hx
    rw [h2]; exact h.fresh m y h1
  · intro m m' x x' hx hx' hid
    obtain ⟨y, h1, h2, _⟩ := key m x hx
    obtain ⟨y', h1', h2', _⟩ := key m' x' hx'
    exact h.ids m m' y y' h1 h1' (by omega)
  · intro m x z hx hz
    obtain ⟨y, h1, h2, h3⟩ := key m x hx
    rw [h2]
    exact h.faces m y z h1 (by rw [← h3]; exact hz)
  · have := map_sum_put h.tree.sorted.nodup (e' := { e with inherited := l }) (e := e)
        (by show get b.table e.name = some e; rw [hn]; exact hg) (fun e => e.routes.length)
    have h2 : (List.map (fun e => e.routes.length) (put b.table { e with inherited := l })).sum + e.routes.length =
      (List.map (fun e => e.routes.length) b.table).sum + e.routes.length := this
    show b.nItems = _
    rw [h.items]
    show (List.map (fun e => e.routes.length) b.table).sum = (List.map (fun e => e.routes.length) (put b.table { e with inherited := l })).sum
    omega

/-- Tables that differ in inherited routes only. -/
def InhOnly (t t' : List Entry) : Prop :=
  (∀ m, get t m = none → get t' m = none) ∧
  ∀ (m : Name) (e : Entry), get t m = some e → ∃ l, get t' m = some { e with inherited := l }

theorem InhOnly.refl (t : List Entry) : InhOnly t t := ⟨fun _ h => h, fun _ e h => ⟨e.inherited, h⟩⟩

theorem InhOnly.trans {t t' t'' : List Entry} (h1 : InhOnly t t') (h2 : InhOnly t' t'') : InhOnly t t'' := by
  refine ⟨fun m h => h2.1 m (h1.1 m h), fun m e h => ?_⟩
  obtain ⟨l, hl⟩ := h1.2 m e h
  obtain ⟨l', hl'⟩ := h2.2 m _ hl
  exact ⟨l', hl'⟩

theorem hasInherited_filter (l : List Route) (g f : Nat) : (l.filter (·.face != g)).any (·.face == f) = (l.any (·.face == f) && f != g) := by
  induction l with
  | nil => rfl
  | cons x l ih =>
    by_cases hx : x.face = g
    · rw [List.filter_cons_of_neg (by simpa using hx), ih, List.any_cons, hx]
      by_cases hf : g = f
      · subst hf; simp
      · have : (g == f) = false := by simpa using hf
        rw [this, Bool.false_or]
    · rw [List.filter_cons_of_pos (by simpa using hx), List.any_cons, ih, List.any_cons]
      by_cases hf : f = g
      · subst hf
        have : (x.face == f) = false := by simpa using hx
        simp [this]
      · have : (f != g) = true := by simpa using hf
        rw [this, Bool.and_true, Bool.and_true]

theorem modifyInherited_ok {k : Nat} (E : List Emit) {b : Rib} (h : RInv k b) (hn : ∀ n a r, Emit.inh n a r ∈ E → (get b.table n).isSome = true) :
    ∃ t', modifyInherited b.table (E.filterMap inhOf) = .ok t' ∧ RInv k { b with table := t' } ∧ InhOnly b.table t' ∧
      ∀ (m : Name) (e e' : Entry) (f : Nat), get b.table m = some e → get t' m = some e' →
        e'.hasInherited f = (lastInh E m f).getD (e.hasInherited f) := by
  induction E generalizing b with
  | nil =>
    refine ⟨b.table, rfl, h, InhOnly.refl _, fun m e e' f h1 h2 => ?_⟩
    rw [h1] at h2
    rw [← Option.some.inj h2]; rfl
  | cons x E ih =>
    cases x with
    | fib n f c =>
      have : (Emit.fib n f c :: E).filterMap inhOf = E.filterMap inhOf := by rfl
      rw [this]
      obtain ⟨t', h1, h2, h3, h4⟩ := ih h (fun n a r hm => hn n a r (List.mem_cons_of_mem _ hm))
      refine ⟨t', h1, h2, h3, fun m e e' g he he' => ?_⟩
      rw [h4 m e e' g he he']
      show _ = ((lastInh E m g).or none).getD _
      rw [Option.or_none]
    | inh n a r =>
      have : (Emit.inh n a r :: E).filterMap inhOf = (a, n, r) :: E.filterMap inhOf := by simp [inhOf]
      rw [this]
      obtain ⟨e0, he0⟩ := Option.isSome_iff_exists.1 (hn n a r List.mem_cons_self)
      have hone : modifyInheritedOne b.table a n r =
          .ok (put b.table { e0 with inherited := if a then e0.inherited ++ [r] else e0.inherited.filter (·.face != r.face) }) := by
        unfold modifyInheritedOne; rw [he0]
      have hb := h.putInherited he0 (if a then e0.inherited ++ [r] else e0.inherited.filter (·.face != r.face))
      have hn0 := get_name he0
      have hget : ∀ m, get (put b.table { e0 with inherited := if a then e0.inherited ++ [r] else e0.inherited.filter (·.face != r.face) }) m =
          if m = n then some { e0 with inherited := if a then e0.inherited ++ [r] else e0.inherited.filter (·.face != r.face) } else get b.table m := by
        intro m
        rw [get_put]
        show (if m = e0.name then _ else _) = _
        rw [hn0]
        split
        · rename_i hm; rw [hm, he0]; rfl
        · rfl
      obtain ⟨t', h1, h2, h3, h4⟩ := ih hb (fun n' a' r' hm => by
        show (get (put b.table _) n').isSome = true
        rw [isSome_put]
        exact hn n' a' r' (List.mem_cons_of_mem _ hm))
      refine ⟨t', ?_, h2, ?_, ?_⟩
      · unfold modifyInherited
        simp only [bind, Except.bind, hone]
        exact h1
      · refine InhOnly.trans ⟨fun m hm => ?_, fun m e he => ?_⟩ h3
        · show get (put b.table _) m = none
          rw [hget, if_neg (fun hc => by rw [hc, he0] at hm; cases hm)]; exact hm
        · show ∃ l, get (put b.table _) m = _
          rw [hget]
          split
          · rename_i hm
            rw [hm, he0] at he
            rw [← Option.some.inj he]
            exact ⟨_, rfl⟩
          · exact ⟨e.inherited, he⟩
      · intro m e e' f he he'
        have hl : lastInh (Emit.inh n a r :: E) m f = (lastInh E m f).or (if n = m ∧ r.face = f then some a else none) := rfl
        rw [hl]
        by_cases hm : m = n
        · subst hm
          rw [he0] at he
          have he := Option.some.inj he
          subst he
          rw [h4 m _ e' f (by show get (put b.table _) m = _; rw [hget, if_pos rfl]) he']
          cases lastInh E m f with
          | some v => rfl
          | none =>
            simp only [Option.getD_none, Option.none_or, true_and]
            unfold Entry.hasInherited
            by_cases hf : r.face = f
            · rw [if_pos hf]
              cases a with
              | true => simp [hf]
              | false =>
                simp only [Bool.false_eq_true, if_false, Option.getD_some]
                rw [hasInherited_filter, hf]
                simp
            · rw [if_neg hf]
              have hrf : (r.face == f) = false := by simpa using hf
              cases a with
              | true => simp [hrf]
              | false =>
                simp only [Bool.false_eq_true, if_false, Option.getD_none]
                rw [hasInherited_filter]
                have : (f != r.face) = true := by simpa using fun hc : f = r.face => hf hc.symm
                rw [this, Bool.and_true]
        · rw [h4 m e e' f (by show get (put b.table _) m = _; rw [hget, if_neg hm]; exact he) he', if_neg (fun hc => hm hc.1.symm), Option.or_none]

end Verif.Rib
