import Verif.Rib.Step

/-
How the next hops that the routes call for change when the routes of one name change.
-/
namespace Verif.Rib

open Spec (minCost own ownInherit captures inheritedFrom view)

/-! ### Lowest costs -/

theorem foldl_min_le (l : List Nat) (c : Nat) : l.foldl min c ≤ c ∧ ∀ x ∈ l, l.foldl min c ≤ x := by
  induction l generalizing c with
  | nil => exact ⟨Nat.le_refl c, (fun _ h => by cases h)⟩
  | cons y l ih =>
    obtain ⟨h1, h2⟩ := ih (min c y)
    refine ⟨Nat.le_trans h1 (Nat.min_le_left _ _), fun x hx => ?_⟩
    rcases List.mem_cons.1 hx with rfl | hx
    · exact Nat.le_trans h1 (Nat.min_le_right _ _)
    · exact h2 x hx

theorem foldl_min_mem (l : List Nat) (c : Nat) : l.foldl min c = c ∨ l.foldl min c ∈ l := by
  induction l generalizing c with
  | nil => exact .inl rfl
  | cons y l ih =>
    rw [List.foldl_cons]
    rcases ih (min c y) with h | h
    · rw [h]
      rcases Nat.le_total c y with h1 | h1
      · rw [Nat.min_eq_left h1]; exact .inl rfl
      · rw [Nat.min_eq_right h1]; exact .inr List.mem_cons_self
    · exact .inr (List.mem_cons_of_mem _ h)

theorem minCost_some {l : List Nat} {c : Nat} : minCost l = some c ↔ c ∈ l ∧ ∀ x ∈ l, c ≤ x := by
  cases l with
  | nil => simp [minCost]
  | cons y l =>
    have h1 := foldl_min_le l y
    have h2 := foldl_min_mem l y
    constructor
    · intro h
      have h : l.foldl min y = c := Option.some.inj h
      rw [h] at h1 h2
      refine ⟨?_, fun x hx => ?_⟩
      · rcases h2 with h2 | h2
        · rw [h2]; exact List.mem_cons_self
        · exact List.mem_cons_of_mem _ h2
      · rcases List.mem_cons.1 hx with rfl | hx
        · exact h1.1
        · exact h1.2 x hx
    · rintro ⟨h3, h4⟩
      show some (l.foldl min y) = some c
      congr 1
      apply Nat.le_antisymm
      · rcases List.mem_cons.1 h3 with h3 | h3
        · rw [h3]; exact h1.1
        · exact h1.2 c h3
      · rcases h2 with h2 | h2
        · rw [h2]; exact h4 y List.mem_cons_self
        · exact h4 _ (List.mem_cons_of_mem _ h2)

theorem minCost_none {l : List Nat} : minCost l = none ↔ l = [] := by
  cases l <;> simp [minCost]

/-- The lowest cost of the routes with a property. -/
abbrev minBy (p : Route → Bool) (l : List Route) : Option Nat := minCost ((l.filter p).map (·.cost))

theorem minBy_some {p : Route → Bool} {l : List Route} {c : Nat} :
    minBy p l = some c ↔ (∃ r ∈ l, p r = true ∧ r.cost = c) ∧ ∀ r ∈ l, p r = true → c ≤ r.cost := by
  unfold minBy
  rw [minCost_some]
  constructor
  · rintro ⟨h1, h2⟩
    obtain ⟨r, hr, hc⟩ := List.mem_map.1 h1
    obtain ⟨hr1, hr2⟩ := List.mem_filter.1 hr
    exact ⟨⟨r, hr1, hr2, hc⟩, fun x hx hp => h2 _ (List.mem_map.2 ⟨x, List.mem_filter.2 ⟨hx, hp⟩, rfl⟩)⟩
  · rintro ⟨⟨r, hr, hp, hc⟩, h2⟩
    refine ⟨List.mem_map.2 ⟨r, List.mem_filter.2 ⟨hr, hp⟩, hc⟩, fun x hx => ?_⟩
    obtain ⟨y, hy, rfl⟩ := List.mem_map.1 hx
    obtain ⟨hy1, hy2⟩ := List.mem_filter.1 hy
    exact h2 y hy1 hy2

theorem minBy_none {p : Route → Bool} {l : List Route} : minBy p l = none ↔ ∀ r ∈ l, p r = false := by
  unfold minBy
  rw [minCost_none, List.map_eq_nil_iff, List.filter_eq_nil_iff]
  constructor
  · intro h r hr; exact Bool.eq_false_iff.2 (h r hr)
  · intro h r hr; rw [h r hr]; simp

/-- If all of them cost the same. -/
theorem minBy_const {p : Route → Bool} {l : List Route} {c : Nat} (h1 : ∃ r ∈ l, p r = true) (h2 : ∀ r ∈ l, p r = true → r.cost = c) : minBy p l = some c := by
  obtain ⟨r, hr, hp⟩ := h1
  exact minBy_some.2 ⟨⟨r, hr, hp, h2 r hr hp⟩, fun x hx hx' => Nat.le_of_eq (h2 x hx hx').symm⟩

theorem minBy_congr {p : Route → Bool} {l l' : List Route} (h : ∀ r, p r = true → (r ∈ l ↔ r ∈ l')) : minBy p l = minBy p l' := by
  cases h1 : minBy p l' with
  | none =>
    rw [minBy_none] at h1 ⊢
    intro r hr
    rw [Bool.eq_false_iff]
    intro hp
    rw [h1 r ((h r hp).1 hr)] at hp
    cases hp
  | some c =>
    rw [minBy_some] at h1 ⊢
    obtain ⟨⟨r, hr, hp, hc⟩, h2⟩ := h1
    exact ⟨⟨r, (h r hp).2 hr, hp, hc⟩, fun x hx hp => h2 x ((h x hp).1 hx) hp⟩

theorem own_eq (l : List Route) (f : Nat) : own l f = minBy (fun r => r.face == f) l := rfl
theorem ownInherit_eq (l : List Route) (f : Nat) : ownInherit l f = minBy (fun r => r.face == f && r.ci) l := rfl

theorem own_none {l : List Route} {f : Nat} : own l f = none ↔ ∀ r ∈ l, r.face ≠ f := by
  rw [own_eq, minBy_none]
  simp

theorem ownInherit_none {l : List Route} {f : Nat} : ownInherit l f = none ↔ ∀ r ∈ l, r.face = f → r.ci = false := by
  rw [ownInherit_eq, minBy_none]
  constructor
  · intro h r hr hf
    have := h r hr
    simpa [hf] using this
  · intro h r hr
    by_cases hf : r.face = f
    · simp [h r hr hf]
    · have : (r.face == f) = false := by simpa using hf
      rw [this]; rfl

theorem own_none_inherit {l : List Route} {f : Nat} (h : own l f = none) : ownInherit l f = none :=
  ownInherit_none.2 (fun r hr hf => absurd hf (own_none.1 h r hr))

theorem hasFace_iff {e : Entry} {f : Nat} : e.hasFace f = false ↔ own e.routes f = none := by
  unfold Entry.hasFace
  rw [own_none, List.any_eq_false]
  simp

theorem hasCI_iff {e : Entry} {f : Nat} : e.hasCI f = false ↔ ownInherit e.routes f = none := by
  unfold Entry.hasCI
  rw [ownInherit_none, List.any_eq_false]
  simp

theorem captures_false {l : List Route} : captures l = false ↔ ∀ r ∈ l, r.capture = false := by
  unfold captures
  rw [List.any_eq_false]
  simp

theorem lowest_go (l : List Route) (c : Route) :
    (l.foldl (fun c x => if x.cost < c.cost then x else c) c = c ∨ l.foldl (fun c x => if x.cost < c.cost then x else c) c ∈ l) ∧
    (l.foldl (fun c x => if x.cost < c.cost then x else c) c).cost ≤ c.cost ∧
    ∀ x ∈ l, (l.foldl (fun c x => if x.cost < c.cost then x else c) c).cost ≤ x.cost := by
  induction l generalizing c with
  | nil => exact ⟨.inl rfl, Nat.le_refl _, (fun _ h => by cases h)⟩
  | cons y l ih =>
    rw [List.foldl_cons]
    obtain ⟨h1, h2, h3⟩ := ih (if y.cost < c.cost then y else c)
    by_cases hy : y.cost < c.cost
    · rw [if_pos hy] at h1 h2 h3 ⊢
      refine ⟨.inr ?_, by omega, fun x hx => ?_⟩
      · rcases h1 with h1 | h1
        · rw [h1]; exact List.mem_cons_self
        · exact List.mem_cons_of_mem _ h1
      · rcases List.mem_cons.1 hx with rfl | hx
        · exact h2
        · exact h3 x hx
    · rw [if_neg hy] at h1 h2 h3 ⊢
      refine ⟨?_, h2, fun x hx => ?_⟩
      · rcases h1 with h1 | h1
        · exact .inl h1
        · exact .inr (List.mem_cons_of_mem _ h1)
      · rcases List.mem_cons.1 hx with rfl | hx
        · omega
        · exact h3 x hx

theorem lowest_some {l : List Route} {r : Route} (h : Entry.lowest l = some r) : r ∈ l ∧ ∀ x ∈ l, r.cost ≤ x.cost := by
  cases l with
  | nil => cases h
  | cons y l =>
    have h : l.foldl (fun c x => if x.cost < c.cost then x else c) y = r := Option.some.inj h
    obtain ⟨h1, h2, h3⟩ := lowest_go l y
    rw [h] at h1 h2 h3
    refine ⟨?_, fun x hx => ?_⟩
    · rcases h1 with h1 | h1
      · rw [h1]; exact List.mem_cons_self
      · exact List.mem_cons_of_mem _ h1
    · rcases List.mem_cons.1 hx with rfl | hx
      · exact h2
      · exact h3 x hx

theorem lowest_none {l : List Route} : Entry.lowest l = none ↔ l = [] := by
  cases l <;> simp [Entry.lowest]

theorem lowest_filter {p : Route → Bool} {l : List Route} : (Entry.lowest (l.filter p)).map (·.cost) = minBy p l := by
  cases h : Entry.lowest (l.filter p) with
  | none =>
    rw [lowest_none] at h
    unfold minBy
    rw [h]; rfl
  | some r =>
    obtain ⟨h1, h2⟩ := lowest_some h
    obtain ⟨h3, h4⟩ := List.mem_filter.1 h1
    symm
    exact minBy_some.2 ⟨⟨r, h3, h4, rfl⟩, fun x hx hp => h2 x (List.mem_filter.2 ⟨hx, hp⟩)⟩

theorem lowestCost_eq (e : Entry) (f : Nat) : (e.lowestCost f).map (·.cost) = own e.routes f := lowest_filter
theorem lowestCI_eq (e : Entry) (f : Nat) : (e.lowestCI f).map (·.cost) = ownInherit e.routes f := lowest_filter

/-! ### What is inherited -/

theorem inheritedFrom_congr {R R' : Name → List Route} {n n' : Name} {f k : Nat} (h : ∀ j, j < k → R (n.take j) = R' (n'.take j)) :
    inheritedFrom R n f k = inheritedFrom R' n' f k := by
  induction k with
  | zero => rfl
  | succ k ih =>
    unfold inheritedFrom
    rw [h k (Nat.lt_succ_self k), ih (fun j hj => h j (Nat.lt_succ_of_lt hj))]

/-- What is inherited by a name. -/
abbrev inh (R : Name → List Route) (n : Name) (f : Nat) : Option Nat := inheritedFrom R n f n.length

/-- What the names below inherit from a name and those above. -/
def pass (R : Name → List Route) (n : Name) (f : Nat) : Option Nat :=
  match ownInherit (R n) f with
  | some c => some c
  | none => if captures (R n) then none else inh R n f

theorem pass_eq (R : Name → List Route) (n : Name) (f : Nat) : pass R n f = inheritedFrom R n f (n.length + 1) := by
  unfold pass
  conv => rhs; unfold inheritedFrom
  rw [List.take_length]
  rfl

theorem take_prefix {n m : Name} (h : n <+: m) : m.take n.length = n := (List.prefix_iff_eq_take.1 h).symm

theorem pass_below {R : Name → List Route} {n m : Name} (h : n <+: m) (f : Nat) : inheritedFrom R m f (n.length + 1) = pass R n f := by
  rw [pass_eq]
  refine inheritedFrom_congr (fun j hj => ?_)
  have : m.take j = n.take j := by
    conv => rhs; rw [← take_prefix h]
    rw [List.take_take, Nat.min_eq_left (by omega)]
  rw [this]

/-- No capture and no inheritable route to the face from `n` (exclusive) to `m` (inclusive). -/
def Open (R : Name → List Route) (n m : Name) (f : Nat) : Prop :=
  ∀ x, n <+: x → x ≠ n → x <+: m → captures (R x) = false ∧ ownInherit (R x) f = none

theorem inh_open {R : Name → List Route} {n m : Name} {f k : Nat} (h : n <+: m) (hk : n.length < k) (hkm : k ≤ m.length)
    (ho : ∀ x, n <+: x → x ≠ n → x <+: m → x.length < k → captures (R x) = false ∧ ownInherit (R x) f = none) :
    inheritedFrom R m f k = pass R n f := by
  induction k with
  | zero => omega
  | succ k ih =>
    by_cases hk' : k = n.length
    · rw [hk']; exact pass_below h f
    · unfold inheritedFrom
      have hx : m.take k <+: m := List.take_prefix k m
      have hl : (m.take k).length = k := by rw [List.length_take]; omega
      obtain ⟨h1, h2⟩ := ho (m.take k) (prefix_comparable h hx (by omega)) (fun hc => by rw [hc] at hl; omega) hx (by omega)
      rw [h2, h1]
      exact ih (by omega) (by omega) (fun x a1 a2 a3 a4 => ho x a1 a2 a3 (by omega))

open Classical in
theorem inh_closed {R R' : Name → List Route} {n m : Name} {f k : Nat} (hR : ∀ x, x ≠ n → R' x = R x) (hk : n.length < k) (hkm : k ≤ m.length)
    (ho : ¬ ∀ x, n <+: x → x ≠ n → x <+: m → x.length < k → captures (R x) = false ∧ ownInherit (R x) f = none) :
    inheritedFrom R' m f k = inheritedFrom R m f k := by
  induction k with
  | zero => omega
  | succ k ih =>
    have hx : m.take k <+: m := List.take_prefix k m
    have hl : (m.take k).length = k := by rw [List.length_take]; omega
    by_cases hk' : k = n.length
    · exfalso
      apply ho
      intro x a1 a2 a3 a4
      have := length_lt_of_prefix a1 a2
      omega
    · have hne : m.take k ≠ n := fun hc => by rw [hc] at hl; omega
      unfold inheritedFrom
      rw [hR _ hne]
      cases h1 : ownInherit (R (m.take k)) f with
      | some c => rfl
      | none =>
        cases h2 : captures (R (m.take k)) with
        | true => rfl
        | false =>
          simp only [Bool.false_eq_true, if_false]
          refine ih (by omega) (by omega) (fun hc => ho (fun x a1 a2 a3 a4 => ?_))
          by_cases hxk : x.length = k
          · have : x = m.take k := by rw [← hxk]; exact (take_prefix a3).symm
            rw [this]
            exact ⟨h2, h1⟩
          · exact hc x a1 a2 a3 (by omega)

/-- A name below that is open gets what is passed on. -/
theorem view_open {R : Name → List Route} {n m : Name} {f : Nat} (h1 : n <+: m) (h2 : m ≠ n) (h3 : R m ≠ []) (h4 : own (R m) f = none) (h5 : Open R n m f) :
    view R m f = pass R n f := by
  unfold view
  rw [if_neg h3, h4]
  dsimp only
  rw [(h5 m h1 h2 (List.prefix_refl m)).1]
  simp only [Bool.false_eq_true, if_false]
  exact inh_open h1 (length_lt_of_prefix h1 h2) (Nat.le_refl _) (fun x a1 a2 a3 _ => h5 x a1 a2 a3)

/-- Other names below are not affected. -/
theorem view_closed {R R' : Name → List Route} {n m : Name} {f : Nat} (hR : ∀ x, x ≠ n → R' x = R x) (h1 : n <+: m) (h2 : m ≠ n)
    (h : ¬ (own (R m) f = none ∧ Open R n m f)) : view R' m f = view R m f := by
  unfold view
  rw [hR m h2]
  split
  · rfl
  · cases ho : own (R m) f with
    | some c => rfl
    | none =>
      dsimp only
      cases hc : captures (R m) with
      | true => rfl
      | false =>
        simp only [Bool.false_eq_true, if_false]
        refine inh_closed hR (length_lt_of_prefix h1 h2) (Nat.le_refl _) (fun hall => h ⟨ho, fun x a1 a2 a3 => ?_⟩)
        by_cases hxm : x = m
        · rw [hxm]
          exact ⟨hc, own_none_inherit ho⟩
        · exact hall x a1 a2 a3 (length_lt_of_prefix a3 (Ne.symm hxm))

theorem view_outside {R R' : Name → List Route} {n m : Name} {f : Nat} (hR : ∀ x, x ≠ n → R' x = R x) (h : ¬ n <+: m) : view R' m f = view R m f := by
  have hne : m ≠ n := fun hc => h (by rw [hc]; exact List.prefix_refl n)
  unfold view
  rw [hR m hne, inheritedFrom_congr (R := R') (R' := R) (n := m) (n' := m)]
  intro j _
  apply hR
  intro hc
  exact h (by rw [← hc]; exact List.take_prefix j m)

theorem inh_same {R R' : Name → List Route} {n : Name} {f : Nat} (hR : ∀ x, x ≠ n → R' x = R x) : inh R' n f = inh R n f := by
  refine inheritedFrom_congr (fun j hj => hR _ (fun hc => ?_))
  have : (n.take j).length = n.length := by rw [hc]
  rw [List.length_take] at this
  omega

/-! ### The routes that `getAncestorRoutes` finds -/

abbrev FSorted (s : List Route) : Prop := s.Pairwise (fun a c => a.face < c.face)

theorem FSorted.uniq {s : List Route} (h : FSorted s) : Uniq s := h.imp (fun h => Nat.ne_of_lt h)

theorem mem_rsInsert {r x : Route} {s : List Route} (h : x ∈ rsInsert r s) : x = r ∨ x ∈ s := by
  induction s with
  | nil => rw [rsInsert, List.mem_singleton] at h; exact .inl h
  | cons y s ih =>
    unfold rsInsert at h
    split at h
    · rcases List.mem_cons.1 h with h | h
      · exact .inl h
      · exact .inr h
    · split at h
      · exact .inr h
      · rcases List.mem_cons.1 h with h | h
        · exact .inr (by rw [h]; exact List.mem_cons_self)
        · rcases ih h with h | h
          · exact .inl h
          · exact .inr (List.mem_cons_of_mem _ h)

theorem FSorted.rsInsert {r : Route} {s : List Route} (h : FSorted s) : FSorted (rsInsert r s) := by
  induction s with
  | nil => exact List.pairwise_singleton _ _
  | cons y s ih =>
    obtain ⟨h1, h2⟩ := List.pairwise_cons.1 h
    unfold Rib.rsInsert
    split
    · rename_i hlt
      refine List.pairwise_cons.2 ⟨fun x hx => ?_, h⟩
      rcases List.mem_cons.1 hx with rfl | hx
      · exact hlt
      · exact Nat.lt_trans hlt (h1 x hx)
    · split
      · exact h
      · rename_i h3 h4
        refine List.pairwise_cons.2 ⟨fun x hx => ?_, ih h2⟩
        rcases mem_rsInsert hx with rfl | hx
        · omega
        · exact h1 x hx

theorem rsFind_rsInsert {r : Route} {s : List Route} (h : FSorted s) (f : Nat) :
    rsFind (rsInsert r s) f = (rsFind s f).or (if r.face = f then some r else none) := by
  induction s with
  | nil => rw [rsInsert, rsFind_cons]; rfl
  | cons y s ih =>
    obtain ⟨h1, h2⟩ := List.pairwise_cons.1 h
    unfold rsInsert
    split
    · rename_i hlt
      rw [rsFind_cons]
      by_cases hf : r.face = f
      · rw [if_pos hf, if_pos hf]
        have : rsFind (y :: s) f = none := by
          rw [rsFind_none]
          intro x hx
          rcases List.mem_cons.1 hx with rfl | hx
          · omega
          · have := h1 x hx; omega
        rw [this]; rfl
      · rw [if_neg hf, if_neg hf, Option.or_none]
    · split
      · rename_i h3 h4
        by_cases hf : r.face = f
        · rw [rsFind_cons, if_pos (by omega)]; rfl
        · rw [if_neg hf, Option.or_none]
      · rename_i h3 h4
        rw [rsFind_cons, rsFind_cons, ih h2]
        by_cases hy : y.face = f
        · rw [if_pos hy, if_pos hy]; rfl
        · rw [if_neg hy, if_neg hy]

theorem FSorted.foldl {l s : List Route} (h : FSorted s) : FSorted (l.foldl (fun s r => Rib.rsInsert r s) s) := by
  induction l generalizing s with
  | nil => exact h
  | cons x l ih => exact ih h.rsInsert

theorem rsFind_foldl {l s : List Route} (h : FSorted s) (f : Nat) :
    rsFind (l.foldl (fun s r => rsInsert r s) s) f = (rsFind s f).or (l.find? (fun r => r.face == f)) := by
  induction l generalizing s with
  | nil => simp
  | cons x l ih =>
    rw [List.foldl_cons, ih h.rsInsert, rsFind_rsInsert h, Option.or_assoc, List.find?_cons]
    congr 1
    by_cases hx : x.face = f
    · simp [hx]
    · have : (x.face == f) = false := by simpa using hx
      rw [this, if_neg hx]; rfl

theorem FSorted.ancestorsGo {t : List Entry} {k : Nat} {p : Option Name} {s : List Route} (h : FSorted s) : FSorted (ancestorsGo t k p s) := by
  induction k generalizing p s with
  | zero => unfold Rib.ancestorsGo; exact h
  | succ k ih =>
    cases p with
    | none => unfold Rib.ancestorsGo; exact h
    | some p =>
      unfold Rib.ancestorsGo
      cases get t p with
      | none => exact h
      | some e =>
        dsimp only
        split
        · exact FSorted.foldl h
        · exact ih (FSorted.foldl h)

theorem ancestors_sorted (t : List Entry) (p : Option Name) : FSorted (ancestors t p) := FSorted.ancestorsGo List.Pairwise.nil

/-- At one name, the inheritable routes to one face cost the same. -/
def CostRegular (R : Name → List Route) : Prop :=
  ∀ (n : Name) (r r' : Route), r ∈ R n → r' ∈ R n → r.face = r'.face → r.ci = true → r'.ci = true → r.cost = r'.cost

theorem first_ci {R : Name → List Route} (hR : CostRegular R) (n : Name) (f : Nat) :
    (((R n).filter (·.ci)).find? (fun r => r.face == f)).map (·.cost) = ownInherit (R n) f := by
  cases h : ((R n).filter (·.ci)).find? (fun r => r.face == f) with
  | none =>
    symm
    rw [Option.map_none, ownInherit_none]
    intro r hr hf
    have := List.find?_eq_none.1 h r
    rw [Bool.eq_false_iff]
    intro hc
    exact this (List.mem_filter.2 ⟨hr, hc⟩) (by simpa using hf)
  | some r =>
    have h1 := List.find?_some h
    simp only [beq_iff_eq] at h1
    obtain ⟨h2, h3⟩ := List.mem_filter.1 (List.mem_of_find?_eq_some h)
    symm
    rw [ownInherit_eq]
    refine minBy_const ⟨r, h2, by simp [h1, h3]⟩ (fun x hx hp => ?_)
    simp only [Bool.and_eq_true, beq_iff_eq] at hp
    exact hR n x r hx h2 (hp.1.trans h1.symm) hp.2 h3

/-- The capture counters are right. -/
def CapOk (b : Rib) : Prop := ∀ (n : Name) (e : Entry), get b.table n = some e → e.nCapture = e.routes.countP (·.capture)

theorem hasCapture_of_count {e : Entry} (h : e.nCapture = e.routes.countP (·.capture)) : e.hasCapture = captures e.routes := by
  unfold Entry.hasCapture captures
  rw [h, Bool.eq_iff_iff, decide_eq_true_iff, List.any_eq_true, gt_iff_lt, List.countP_pos_iff]

theorem inh_skip {R : Name → List Route} {n : Name} {f k k' : Nat} (hk : k ≤ k') (h : ∀ j : Nat, k ≤ j → j < k' → R (n.take j) = []) :
    inheritedFrom R n f k' = inheritedFrom R n f k := by
  induction k' with
  | zero => rw [Nat.le_zero.1 hk]
  | succ k' ih =>
    by_cases hkk : k = k' + 1
    · rw [hkk]
    · rw [← ih (by omega) (fun j h1 h2 => h j h1 (by omega))]
      conv => lhs; unfold inheritedFrom
      rw [h k' (by omega) (by omega)]
      rfl

theorem parent_inh {k : Nat} {b : Rib} (h : RInv k b) {n p : Name} (hp : parentOf b.table n = some p) (f : Nat) :
    inh b.routes n f = inheritedFrom b.routes n f (p.length + 1) := by
  obtain ⟨h1, h2, h3, h4⟩ := parentOf_some hp
  refine inh_skip (by omega) (fun j a1 a2 => routes_none (h4 _ (List.take_prefix j n) ?_ ?_))
  · rw [List.length_take]; omega
  · rw [List.length_take]; omega

theorem noparent_inh {k : Nat} {b : Rib} (_ : RInv k b) {n : Name} (hp : parentOf b.table n = none) (f : Nat) : inh b.routes n f = none := by
  have : inh b.routes n f = inheritedFrom b.routes n f 0 := by
    refine inh_skip (Nat.zero_le _) (fun j _ a2 => routes_none (parentOf_none hp _ (List.take_prefix j n) ?_))
    rw [List.length_take]; omega
  rw [this]; rfl

theorem ancestorsGo_find {k : Nat} {b : Rib} (h : RInv k b) (hcap : CapOk b) (hreg : CostRegular b.routes) (fuel : Nat) (n : Name) (s : List Route)
    (hs : FSorted s) (f : Nat) (hf : ∀ p, parentOf b.table n = some p → p.length < fuel) :
    (rsFind (ancestorsGo b.table fuel (parentOf b.table n) s) f).map (·.cost) = ((rsFind s f).map (·.cost)).or (inh b.routes n f) := by
  induction fuel generalizing n s with
  | zero =>
    cases hp : parentOf b.table n with
    | none =>
      unfold ancestorsGo
      rw [noparent_inh h hp, Option.or_none]
    | some p =>
      have := hf p hp
      omega
  | succ fuel ih =>
    cases hp : parentOf b.table n with
    | none =>
      unfold ancestorsGo
      rw [noparent_inh h hp, Option.or_none]
    | some p =>
      obtain ⟨h1, h2, h3, h4⟩ := parentOf_some hp
      obtain ⟨e, he⟩ := Option.isSome_iff_exists.1 h1
      unfold ancestorsGo
      rw [he]
      dsimp only
      have hR := routes_get he
      have hc := hasCapture_of_count (hcap p e he)
      rw [parent_inh h hp f, pass_below h2]
      unfold pass
      have hfc := first_ci hreg p f
      rw [hR] at hfc ⊢
      rw [hc]
      cases hcp : captures e.routes with
      | true =>
        simp only [if_true]
        rw [rsFind_foldl hs, ← hfc]
        cases rsFind s f with
        | some x => rfl
        | none =>
          cases List.find? (fun r => r.face == f) (List.filter (fun x => x.ci) e.routes) <;> rfl
      | false =>
        simp only [Bool.false_eq_true, if_false]
        have hpe := h.tree.parent p e he
        rw [hpe, ih p _ (FSorted.foldl hs) (fun q hq => by
          obtain ⟨_, _, q3, _⟩ := parentOf_some hq
          have := hf p hp
          omega), rsFind_foldl hs, ← hfc]
        cases rsFind s f with
        | some x => rfl
        | none =>
          cases List.find? (fun r => r.face == f) (List.filter (fun x => x.ci) e.routes) <;> rfl

/-- `getAncestorRoutes` finds what is inherited. -/
theorem ancestors_find {k : Nat} {b : Rib} (h : RInv k b) (hcap : CapOk b) (hreg : CostRegular b.routes) (n : Name) (f : Nat) :
    (rsFind (ancestors b.table (parentOf b.table n)) f).map (·.cost) = inh b.routes n f := by
  unfold ancestors
  rw [ancestorsGo_find h hcap hreg _ n [] List.Pairwise.nil f]
  · rfl
  · intro p hp
    rw [hp]
    exact Nat.lt_succ_self _

end Verif.Rib
