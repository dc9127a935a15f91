import Verif.Rib.Inv

/-
What a list of FIB updates and changes of inherited routes amounts to for one name and one face.
-/
namespace Verif.Rib

def hitFib (m : Name) (f : Nat) : Emit → Option (Option Nat)
  | .fib n g c => if n = m ∧ g = f then some c else none
  | .inh _ _ _ => none

def hitInh (m : Name) (f : Nat) : Emit → Option Bool
  | .fib _ _ _ => none
  | .inh n a r => if n = m ∧ r.face = f then some a else none

/-- The last hit. -/
def last {β : Type} (π : Emit → Option β) : List Emit → Option β
  | [] => none
  | x :: l => (last π l).or (π x)

abbrev lastFib (l : List Emit) (m : Name) (f : Nat) : Option (Option Nat) := last (hitFib m f) l
abbrev lastInh (l : List Emit) (m : Name) (f : Nat) : Option Bool := last (hitInh m f) l

theorem last_append {β : Type} (π : Emit → Option β) (a c : List Emit) : last π (a ++ c) = (last π c).or (last π a) := by
  induction a with
  | nil => simp [last]
  | cons x a ih => rw [List.cons_append, last, ih, last, Option.or_assoc]

theorem last_eq_none {β : Type} {π : Emit → Option β} {l : List Emit} (h : ∀ x ∈ l, π x = none) : last π l = none := by
  induction l with
  | nil => rfl
  | cons x l ih => rw [last, ih (fun y hy => h y (List.mem_cons_of_mem _ hy)), h x List.mem_cons_self]; rfl

theorem last_flatMap_none {α β : Type} {π : Emit → Option β} {l : List α} {g : α → List Emit} (h : ∀ x ∈ l, last π (g x) = none) :
    last π (l.flatMap g) = none := by
  induction l with
  | nil => rfl
  | cons x l ih =>
    rw [List.flatMap_cons, last_append, ih (fun y hy => h y (List.mem_cons_of_mem _ hy)), h x List.mem_cons_self]; rfl

theorem last_flatMap_one {α β : Type} {π : Emit → Option β} {l : List α} {g : α → List Emit} {v : Option β}
    (h : ∀ x ∈ l, last π (g x) = none ∨ last π (g x) = v) (hex : ∃ x ∈ l, last π (g x) = v) : last π (l.flatMap g) = v := by
  induction l with
  | nil => obtain ⟨x, hx, _⟩ := hex; cases hx
  | cons x l ih =>
    rw [List.flatMap_cons, last_append]
    by_cases hl : ∃ y ∈ l, last π (g y) = v
    · rw [ih (fun y hy => h y (List.mem_cons_of_mem _ hy)) hl]
      rcases h x List.mem_cons_self with h1 | h1 <;> rw [h1]
      · simp
      · simp
    · have hx : last π (g x) = v := by
        obtain ⟨y, hy, hv⟩ := hex
        rcases List.mem_cons.1 hy with rfl | hy
        · exact hv
        · exact absurd ⟨y, hy, hv⟩ hl
      rw [last_flatMap_none, hx]
      · simp
      · intro y hy
        rcases h y (List.mem_cons_of_mem _ hy) with h1 | h1
        · exact h1
        · exact absurd ⟨y, hy, h1⟩ hl

/-! ### Emissions that change the FIB and the inherited routes together -/

def Paired (l : List Emit) : Prop := ∀ m f, lastInh l m f = (lastFib l m f).map Option.isSome

theorem Paired.nil : Paired [] := fun _ _ => rfl

theorem Paired.append {a c : List Emit} (h1 : Paired a) (h2 : Paired c) : Paired (a ++ c) := by
  intro m f
  rw [lastInh, lastFib, last_append, last_append]
  have h1 := h1 m f
  have h2 := h2 m f
  unfold lastInh lastFib at h1 h2
  rw [h1, h2]
  cases last (hitFib m f) c <;> rfl

theorem Paired.flatMap {α : Type} {l : List α} {g : α → List Emit} (h : ∀ x ∈ l, Paired (g x)) : Paired (l.flatMap g) := by
  induction l with
  | nil => exact Paired.nil
  | cons x l ih =>
    rw [List.flatMap_cons]
    exact (h x List.mem_cons_self).append (ih (fun y hy => h y (List.mem_cons_of_mem _ hy)))

theorem lastFib_emitAdd (n : Name) (r : Route) (m : Name) (f : Nat) : lastFib (emitAdd n r) m f = if n = m ∧ r.face = f then some (some r.cost) else none := by
  simp [lastFib, emitAdd, last, hitFib]

theorem lastFib_emitRemove (n : Name) (r : Route) (m : Name) (f : Nat) : lastFib (emitRemove n r) m f = if n = m ∧ r.face = f then some none else none := by
  simp [lastFib, emitRemove, last, hitFib]

theorem lastInh_emitAdd (n : Name) (r : Route) (m : Name) (f : Nat) : lastInh (emitAdd n r) m f = if n = m ∧ r.face = f then some true else none := by
  simp [lastInh, emitAdd, last, hitInh]

theorem lastInh_emitRemove (n : Name) (r : Route) (m : Name) (f : Nat) : lastInh (emitRemove n r) m f = if n = m ∧ r.face = f then some false else none := by
  simp [lastInh, emitRemove, last, hitInh]

theorem Paired.emitAdd (n : Name) (r : Route) : Paired (emitAdd n r) := by
  intro m f
  rw [lastInh_emitAdd, lastFib_emitAdd]
  split <;> rfl

theorem Paired.emitRemove (n : Name) (r : Route) : Paired (emitRemove n r) := by
  intro m f
  rw [lastInh_emitRemove, lastFib_emitRemove]
  split <;> rfl

theorem Paired.ite {c : Prop} [Decidable c] {a d : List Emit} (h1 : Paired a) (h2 : Paired d) : Paired (if c then a else d) := by
  split
  · exact h1
  · exact h2

theorem trav_paired (t : List Entry) (k : Nat) (adds removes : List Route) (n : Name) : Paired (trav t k adds removes n) := by
  induction k generalizing adds removes n with
  | zero => exact Paired.nil
  | succ k ih =>
    unfold trav
    split
    · exact Paired.nil
    · refine Paired.ite Paired.nil ?_
      dsimp only
      refine Paired.append (Paired.append ?_ ?_) ?_
      · exact Paired.flatMap (fun r _ => Paired.ite (Paired.emitRemove _ _) Paired.nil)
      · exact Paired.flatMap (fun r _ => Paired.ite (Paired.emitAdd _ _) Paired.nil)
      · exact Paired.flatMap (fun c _ => ih _ _ c)

theorem modifyChildren_paired (t : List Entry) (C : List Name) (adds removes : List Route) : Paired (modifyChildren t C adds removes) :=
  Paired.flatMap (fun c _ => trav_paired t _ adds removes c)

theorem addInherited_paired (e : Entry) (s : List Route) : Paired (addInherited e s) :=
  Paired.flatMap (fun _ _ => Paired.ite (Paired.emitAdd _ _) Paired.nil)

theorem removeInherited_paired (e : Entry) (s : List Route) : Paired (removeInherited e s) :=
  Paired.flatMap (fun _ _ => Paired.ite (Paired.emitRemove _ _) Paired.nil)

theorem addInheritedName_paired (n : Name) (s : List Route) (r : Route) : Paired (addInheritedName n s r) :=
  Paired.flatMap (fun _ _ => Paired.ite (Paired.emitAdd _ _) Paired.nil)

/-! ### Sets of routes -/

/-- At most one route per face. -/
abbrev Uniq (s : List Route) : Prop := s.Pairwise (fun a c => a.face ≠ c.face)

theorem rsFind_cons {r : Route} {s : List Route} {f : Nat} : rsFind (r :: s) f = if r.face = f then some r else rsFind s f := by
  unfold rsFind
  rw [List.find?_cons]
  by_cases h : r.face = f
  · simp [h]
  · have : (r.face == f) = false := by simpa using h
    rw [this, if_neg h]

theorem rsFind_face {s : List Route} {f : Nat} {r : Route} (h : rsFind s f = some r) : r.face = f := by
  have := List.find?_some h
  simpa using this

theorem rsFind_none {s : List Route} {f : Nat} : rsFind s f = none ↔ ∀ x ∈ s, x.face ≠ f := by
  unfold rsFind
  rw [List.find?_eq_none]
  constructor
  · intro h x hx; simpa using h x hx
  · intro h x hx; simpa using h x hx

theorem rsFind_filter {s : List Route} {f : Nat} {p : Nat → Bool} : rsFind (s.filter (fun r => p r.face)) f = if p f then rsFind s f else none := by
  induction s with
  | nil => simp [rsFind]
  | cons x s ih =>
    by_cases hp : p x.face = true
    · rw [List.filter_cons_of_pos (p := fun r : Route => p r.face) hp, rsFind_cons, rsFind_cons, ih]
      by_cases hx : x.face = f
      · rw [if_pos hx, if_pos hx, ← hx, if_pos hp]
      · rw [if_neg hx, if_neg hx]
    · rw [List.filter_cons_of_neg (p := fun r : Route => p r.face) hp, ih, rsFind_cons]
      by_cases hx : x.face = f
      · rw [← hx, if_neg hp, if_neg hp]
      · rw [if_neg hx]

theorem lastFib_adds {s : List Route} (hu : Uniq s) (n m : Name) (f : Nat) (p : Nat → Bool) :
    lastFib (s.flatMap (fun r => if p r.face then emitAdd n r else [])) m f =
      if n = m ∧ p f = true then (rsFind s f).map (fun r => some r.cost) else none := by
  induction s with
  | nil => simp [lastFib, last, rsFind]
  | cons x s ih =>
    obtain ⟨h1, h2⟩ := List.pairwise_cons.1 hu
    rw [List.flatMap_cons, lastFib, last_append]
    have ih := ih h2
    unfold lastFib at ih
    rw [ih, rsFind_cons]
    by_cases hx : x.face = f
    · have hs : rsFind s f = none := rsFind_none.2 (fun y hy hc => h1 y hy (by rw [hx, hc]))
      rw [hs, if_pos hx]
      simp only [Option.map_none, ite_self, Option.none_or, Option.map_some]
      by_cases hp : p f = true
      · rw [hx, if_pos hp]
        have := lastFib_emitAdd n x m f
        unfold lastFib at this
        rw [this]
        simp [hx, hp]
      · rw [hx, if_neg hp, if_neg (fun hc => hp hc.2)]; rfl
    · rw [if_neg hx]
      have : last (hitFib m f) (if p x.face = true then emitAdd n x else []) = none := by
        split
        · have := lastFib_emitAdd n x m f
          unfold lastFib at this
          rw [this, if_neg (fun hc => hx hc.2)]
        · rfl
      rw [this, Option.or_none]

theorem lastFib_removes (s : List Route) (n m : Name) (f : Nat) (p : Nat → Bool) :
    lastFib (s.flatMap (fun r => if p r.face then emitRemove n r else [])) m f =
      if n = m ∧ p f = true ∧ (rsFind s f).isSome = true then some none else none := by
  induction s with
  | nil => simp [lastFib, last, rsFind]
  | cons x s ih =>
    rw [List.flatMap_cons, lastFib, last_append]
    unfold lastFib at ih
    rw [ih, rsFind_cons]
    have h1 : last (hitFib m f) (if p x.face = true then emitRemove n x else []) = if n = m ∧ p f = true ∧ x.face = f then some none else none := by
      have := lastFib_emitRemove n x m f
      unfold lastFib at this
      by_cases hx : x.face = f
      · by_cases hp : p f = true
        · rw [hx, if_pos hp, this]; simp [hx, hp]
        · rw [hx, if_neg hp, if_neg (fun hc => hp hc.2.1)]; rfl
      · rw [if_neg (fun hc : n = m ∧ p f = true ∧ x.face = f => hx hc.2.2)]
        split
        · rw [this, if_neg (fun hc => hx hc.2)]
        · rfl
    rw [h1]
    by_cases hx : x.face = f
    · rw [if_pos hx]
      by_cases hnm : n = m ∧ p f = true
      · simp only [hnm, hx, and_self, true_and, if_true, Option.isSome_some]
        split <;> rfl
      · rw [if_neg (fun hc => hnm ⟨hc.1, hc.2.1⟩), if_neg (fun hc => hnm ⟨hc.1, hc.2.1⟩), if_neg (fun hc => hnm ⟨hc.1, hc.2.1⟩)]; rfl
    · rw [if_neg (fun hc : n = m ∧ p f = true ∧ x.face = f => hx hc.2.2), if_neg hx, Option.or_none]

/-! ### Traversal of subtrees -/

/-- What a visit of an entry emits for a face, if it is not blocked. -/
def blk (t : List Entry) (adds removes : List Route) (m : Name) (f : Nat) : Option (Option Nat) :=
  match get t m with
  | none => none
  | some e =>
    (if !e.hasFace f then (rsFind adds f).map (fun r => some r.cost) else none).or
      (if e.hasInherited f ∧ (rsFind removes f).isSome = true then some none else none)

/-- No capture and no inheritable route to the face from `n` (inclusive) to `m`. -/
def OpenFrom (t : List Entry) (n m : Name) (f : Nat) : Prop :=
  ∀ (x : Name) (e : Entry), n <+: x → x <+: m → get t x = some e → e.hasCapture = false ∧ e.hasCI f = false

/-- The same from `n` (exclusive) to `m`. -/
def OpenBelow (t : List Entry) (n m : Name) (f : Nat) : Prop :=
  ∀ (x : Name) (e : Entry), n <+: x → x ≠ n → x <+: m → get t x = some e → e.hasCapture = false ∧ e.hasCI f = false

/-- The topmost entries strictly below a name. -/
def IsChildren (t : List Entry) (n : Name) (C : List Name) : Prop :=
  ∀ c, c ∈ C ↔ (get t c).isSome = true ∧ n <+: c ∧ c ≠ n ∧ ∀ x, (get t x).isSome = true → n <+: x → x ≠ n → x <+: c → x = c

theorem prefix_antisymm {p q : Name} (h1 : p <+: q) (h2 : q <+: p) : p = q := prefix_eq_of_length h1 h2.length_le

theorem prefix_total {p q n : Name} (h1 : p <+: n) (h2 : q <+: n) : p <+: q ∨ q <+: p := by
  rcases Nat.le_total p.length q.length with h | h
  · exact .inl (prefix_comparable h1 h2 h)
  · exact .inr (prefix_comparable h2 h1 h)

theorem length_lt_of_prefix {p q : Name} (h1 : p <+: q) (h2 : q ≠ p) : p.length < q.length := by
  rcases Nat.lt_or_ge p.length q.length with h | h
  · exact h
  · exact absurd (prefix_eq_of_length h1 h).symm h2

theorem Tree.isChildren {t : List Entry} (ht : Tree t) {n : Name} {e : Entry} (hg : get t n = some e) : IsChildren t n e.children := by
  intro c
  rw [ht.children n e hg c]
  constructor
  · rintro ⟨h1, h2⟩
    obtain ⟨_, k2, k3, k4⟩ := parentOf_some h2
    refine ⟨h1, k2, fun hc => by rw [hc] at k3; omega, fun x a1 a2 a3 a4 => ?_⟩
    apply Decidable.byContradiction
    intro hc
    rw [k4 x a4 (length_lt_of_prefix a4 (Ne.symm hc)) (length_lt_of_prefix a2 a3)] at a1
    cases a1
  · rintro ⟨h1, h2, h3, h4⟩
    refine ⟨h1, parentOf_eq_some (by rw [hg]; rfl) h2 (length_lt_of_prefix h2 h3) (fun q a1 a2 a3 => ?_)⟩
    cases hq : get t q with
    | none => rfl
    | some x =>
      have := h4 q (by rw [hq]; rfl) (prefix_comparable h2 a1 (by omega)) (fun hc => by rw [hc] at a3; omega) a1
      rw [this] at a2
      omega

theorem IsChildren.towards {t : List Entry} {n : Name} {C : List Name} (hC : IsChildren t n C) {m : Name} (h1 : n <+: m) (h2 : m ≠ n)
    (h3 : (get t m).isSome = true) : ∃ c ∈ C, c <+: m := by
  suffices H : ∀ (k : Nat) (m : Name), m.length = k → n <+: m → m ≠ n → (get t m).isSome = true → ∃ c ∈ C, c <+: m from H _ m rfl h1 h2 h3
  intro k
  induction k using Nat.strongRecOn with
  | ind k ih =>
    intro m hk h1 h2 h3
    by_cases hx : ∃ x, (get t x).isSome = true ∧ n <+: x ∧ x ≠ n ∧ x <+: m ∧ x ≠ m
    · obtain ⟨x, a1, a2, a3, a4, a5⟩ := hx
      have hlt := length_lt_of_prefix a4 (Ne.symm a5)
      obtain ⟨c, c1, c2⟩ := ih x.length (by omega) x rfl a2 a3 a1
      exact ⟨c, c1, c2.trans a4⟩
    · refine ⟨m, (hC m).2 ⟨h3, h1, h2, fun x a1 a2 a3 a4 => ?_⟩, List.prefix_refl m⟩
      apply Decidable.byContradiction
      intro hc
      exact hx ⟨x, a1, a2, a3, a4, hc⟩

theorem IsChildren.openFrom {t : List Entry} {n : Name} {C : List Name} (hC : IsChildren t n C) {c m : Name} {f : Nat} (hc : c ∈ C) (hcm : c <+: m) :
    OpenFrom t c m f ↔ OpenBelow t n m f := by
  obtain ⟨h1, h2, h3, h4⟩ := (hC c).1 hc
  constructor
  · intro h x e a1 a2 a3 a4
    rcases prefix_total hcm a3 with h5 | h5
    · exact h x e h5 a3 a4
    · have := h4 x (by rw [a4]; rfl) a1 a2 h5
      exact h x e (by rw [this]; exact List.prefix_refl c) a3 a4
  · intro h x e a1 a2 a3
    refine h x e (h2.trans a1) (fun hx => ?_) a2 a3
    rw [hx] at a1
    exact h3 (prefix_antisymm a1 h2)

theorem maxLen_ge_acc (t : List Entry) (a : Nat) : a ≤ t.foldl (fun m e => max m e.name.length) a := by
  induction t generalizing a with
  | nil => exact Nat.le_refl _
  | cons x t ih => exact Nat.le_trans (Nat.le_max_left _ _) (ih _)

theorem le_maxLen {t : List Entry} {e : Entry} (h : e ∈ t) : e.name.length ≤ maxLen t := by
  unfold maxLen
  generalize 0 = a
  induction t generalizing a with
  | nil => cases h
  | cons x t ih =>
    rcases List.mem_cons.1 h with rfl | h
    · exact Nat.le_trans (Nat.le_max_right _ _) (maxLen_ge_acc t _)
    · exact ih h _

theorem blk_filtered {t : List Entry} {adds removes : List Route} {m : Name} {f : Nat} {p : Nat → Bool} :
    blk t (adds.filter (fun r => p r.face)) (removes.filter (fun r => p r.face)) m f = if p f then blk t adds removes m f else none := by
  unfold blk
  cases get t m with
  | none => simp
  | some e =>
    simp only [rsFind_filter]
    cases p f <;> simp

open Classical in
theorem trav_last {t : List Entry} (ht : Tree t) (k : Nat) {adds removes : List Route} (hu : Uniq adds) (n : Name) (hk : maxLen t < k + n.length)
    (m : Name) (f : Nat) :
    lastFib (trav t k adds removes n) m f = if n <+: m ∧ (get t n).isSome = true ∧ OpenFrom t n m f then blk t adds removes m f else none := by
  induction k generalizing adds removes n with
  | zero =>
    rw [if_neg]
    · rfl
    · rintro ⟨_, h2, _⟩
      obtain ⟨e, he⟩ := Option.isSome_iff_exists.1 h2
      have := le_maxLen (get_mem he)
      rw [get_name he] at this
      omega
  | succ k ih =>
    unfold trav
    cases hg : get t n with
    | none =>
      rw [if_neg (by rintro ⟨_, h2, _⟩; cases h2)]; rfl
    | some e =>
      have hn := get_name hg
      dsimp only
      by_cases hcap : e.hasCapture = true
      · rw [if_pos hcap, if_neg]
        · rfl
        · rintro ⟨h1, _, h3⟩
          have := (h3 n e (List.prefix_refl n) h1 hg).1
          rw [hcap] at this
          cases this
      · rw [if_neg hcap]
        have hcap' : e.hasCapture = false := Bool.eq_false_iff.2 hcap
        have hC := ht.isChildren hg
        have hu' : Uniq (adds.filter (fun r => !e.hasCI r.face)) := List.Pairwise.filter _ hu
        rw [lastFib, last_append, last_append]
        have e1 := lastFib_removes (removes.filter (fun r => !e.hasCI r.face)) e.name m f (fun g => e.hasInherited g)
        have e2 := lastFib_adds hu' e.name m f (fun g => !e.hasFace g)
        unfold lastFib at e1 e2
        rw [e1, e2, hn]
        -- the part of a child
        have hch : ∀ c ∈ e.children, last (hitFib m f) (trav t k (adds.filter (fun r => !e.hasCI r.face)) (removes.filter (fun r => !e.hasCI r.face)) c) =
            if c <+: m ∧ (get t c).isSome = true ∧ OpenFrom t c m f then (if !e.hasCI f then blk t adds removes m f else none) else none := by
          intro c hc
          have hcl := length_lt_of_prefix ((hC c).1 hc).2.1 ((hC c).1 hc).2.2.1
          have := ih (removes := removes.filter (fun r => !e.hasCI r.face)) hu' c (by omega)
          unfold lastFib at this
          rw [this, blk_filtered (p := fun g => !e.hasCI g)]
        by_cases hnm : n = m
        · subst hnm
          rw [last_flatMap_none, Option.none_or]
          · have hop : OpenFrom t n n f ↔ e.hasCI f = false := by
              constructor
              · intro h; exact (h n e (List.prefix_refl n) (List.prefix_refl n) hg).2
              · intro h x y a1 a2 a3
                have := prefix_antisymm a1 a2
                subst this
                rw [hg] at a3
                rw [← Option.some.inj a3]
                exact ⟨hcap', h⟩
            simp only [hop, List.prefix_refl, true_and, Option.isSome_some, rsFind_filter (p := fun g => !e.hasCI g)]
            unfold blk
            rw [hg]
            dsimp only
            cases e.hasCI f <;> simp
          · intro c hc
            rw [hch c hc, if_neg]
            rintro ⟨h1, _, _⟩
            exact ((hC c).1 hc).2.2.1 (prefix_antisymm h1 ((hC c).1 hc).2.1)
        · rw [if_neg (fun hc => hnm hc.1), if_neg (fun hc => hnm hc.1), Option.or_none, Option.or_none]
          have hflat : ∀ v, (∀ c ∈ e.children, c <+: m → OpenFrom t c m f → (if !e.hasCI f then blk t adds removes m f else none) = v) →
              (∃ c ∈ e.children, c <+: m ∧ OpenFrom t c m f) →
              last (hitFib m f) (e.children.flatMap (trav t k (adds.filter (fun r => !e.hasCI r.face)) (removes.filter (fun r => !e.hasCI r.face)))) = v := by
            intro v h1 h2
            refine last_flatMap_one (fun c hc => ?_) ?_
            · rw [hch c hc]
              split
              · rename_i h3
                exact .inr (h1 c hc h3.1 h3.2.2)
              · exact .inl rfl
            · obtain ⟨c, c1, c2, c3⟩ := h2
              refine ⟨c, c1, ?_⟩
              rw [hch c c1, if_pos ⟨c2, ((hC c).1 c1).1, c3⟩]
              exact h1 c c1 c2 c3
          have hflat0 : (∀ c ∈ e.children, c <+: m → ¬ OpenFrom t c m f) →
              last (hitFib m f) (e.children.flatMap (trav t k (adds.filter (fun r => !e.hasCI r.face)) (removes.filter (fun r => !e.hasCI r.face)))) = none := by
            intro h1
            refine last_flatMap_none (fun c hc => ?_)
            rw [hch c hc, if_neg]
            rintro ⟨h2, _, h3⟩
            exact h1 c hc h2 h3
          by_cases hpre : n <+: m
          · cases hgm : get t m with
            | none =>
              have hb : blk t adds removes m f = none := by unfold blk; rw [hgm]
              have : last (hitFib m f) (e.children.flatMap (trav t k (adds.filter (fun r => !e.hasCI r.face)) (removes.filter (fun r => !e.hasCI r.face)))) = none := by
                refine last_flatMap_none (fun c hc => ?_)
                rw [hch c hc, hb]
                simp
              rw [this, hb]
              simp
            | some em =>
              obtain ⟨c, c1, c2⟩ := hC.towards hpre (Ne.symm hnm) (by rw [hgm]; rfl)
              have hof : OpenFrom t n m f ↔ e.hasCI f = false ∧ OpenBelow t n m f := by
                constructor
                · intro h
                  exact ⟨(h n e (List.prefix_refl n) hpre hg).2, fun x y a1 _ a3 a4 => h x y a1 a3 a4⟩
                · rintro ⟨h1, h2⟩ x y a1 a2 a3
                  by_cases hx : x = n
                  · subst hx
                    rw [hg] at a3
                    rw [← Option.some.inj a3]
                    exact ⟨hcap', h1⟩
                  · exact h2 x y a1 hx a2 a3
              by_cases hob : OpenBelow t n m f
              · rw [hflat (if !e.hasCI f then blk t adds removes m f else none) (fun _ _ _ _ => rfl) ⟨c, c1, c2, (hC.openFrom c1 c2).2 hob⟩]
                cases hci : e.hasCI f with
                | true =>
                  rw [if_neg (by decide), if_neg]
                  rintro ⟨_, _, h⟩
                  rw [hof, hci] at h
                  cases h.1
                | false =>
                  rw [if_pos (by decide), if_pos ⟨hpre, rfl, hof.2 ⟨hci, hob⟩⟩]
              · rw [hflat0 (fun c' h1 h2 h3 => hob ((hC.openFrom h1 h2).1 h3)), if_neg]
                rintro ⟨_, _, h⟩
                exact hob (hof.1 h).2
          · rw [if_neg (fun h => hpre h.1), hflat0]
            intro c hc hcm
            exact absurd (((hC c).1 hc).2.1.trans hcm) hpre

open Classical in
theorem modifyChildren_last {t : List Entry} (ht : Tree t) {n : Name} {C : List Name} (hC : IsChildren t n C) {adds removes : List Route} (hu : Uniq adds)
    (m : Name) (f : Nat) :
    lastFib (modifyChildren t C adds removes) m f = if n <+: m ∧ m ≠ n ∧ OpenBelow t n m f then blk t adds removes m f else none := by
  unfold modifyChildren lastFib
  have hch : ∀ c ∈ C, last (hitFib m f) (trav t (maxLen t + 1) adds removes c) =
      if c <+: m ∧ (get t c).isSome = true ∧ OpenFrom t c m f then blk t adds removes m f else none := by
    intro c hc
    exact trav_last ht (maxLen t + 1) hu c (by omega) m f
  by_cases hcond : n <+: m ∧ m ≠ n ∧ OpenBelow t n m f
  · rw [if_pos hcond]
    cases hgm : get t m with
    | none =>
      have hb : blk t adds removes m f = none := by unfold blk; rw [hgm]
      rw [hb]
      refine last_flatMap_none (fun c hc => ?_)
      rw [hch c hc, hb]
      simp
    | some em =>
      obtain ⟨c, c1, c2⟩ := hC.towards hcond.1 hcond.2.1 (by rw [hgm]; rfl)
      refine last_flatMap_one (fun c hc => ?_) ⟨c, c1, ?_⟩
      · rw [hch c hc]
        split
        · exact .inr rfl
        · exact .inl rfl
      · rw [hch c c1, if_pos ⟨c2, ((hC c).1 c1).1, (hC.openFrom c1 c2).2 hcond.2.2⟩]
  · rw [if_neg hcond]
    refine last_flatMap_none (fun c hc => ?_)
    rw [hch c hc, if_neg]
    rintro ⟨h1, _, h3⟩
    refine hcond ⟨((hC c).1 hc).2.1.trans h1, ?_, (hC.openFrom hc h1).1 h3⟩
    intro hmn
    rw [hmn] at h1
    exact ((hC c).1 hc).2.2.1 (prefix_antisymm h1 ((hC c).1 hc).2.1)

end Verif.Rib
