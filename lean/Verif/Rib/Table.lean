import Verif.Name.Lemmas
import Verif.Rib.Model

/-
Lemmas about the RIB table as a map from names to entries.
-/
namespace Verif.Rib
open Std

theorem get_name {t : List Entry} {n : Name} {e : Entry} (h : get t n = some e) : e.name = n := by
  have := List.find?_some h
  simpa using this

theorem get_mem {t : List Entry} {n : Name} {e : Entry} (h : get t n = some e) : e ∈ t := List.mem_of_find?_eq_some h

theorem get_of_mem {t : List Entry} {e : Entry} (hs : (t.map (·.name)).Nodup) (h : e ∈ t) : get t e.name = some e := by
  induction t with
  | nil => cases h
  | cons x t ih =>
    rw [List.map_cons, List.nodup_cons] at hs
    rcases List.mem_cons.1 h with rfl | h
    · simp [get]
    · have : x.name ≠ e.name := fun hc => hs.1 (hc ▸ List.mem_map_of_mem h)
      have hih := ih hs.2 h
      unfold get at hih ⊢
      rw [List.find?_cons_of_neg (by simpa using this)]
      exact hih

theorem get_isSome_iff {t : List Entry} {n : Name} : (get t n).isSome = true ↔ n ∈ t.map (·.name) := by
  unfold get
  rw [List.find?_isSome, List.mem_map]
  constructor
  · rintro ⟨x, h1, h2⟩; exact ⟨x, h1, by simpa using h2⟩
  · rintro ⟨x, h1, h2⟩; exact ⟨x, h1, by simpa using h2⟩

theorem get_map {t : List Entry} {f : Entry → Entry} (hf : ∀ e ∈ t, (f e).name = e.name) (n : Name) :
    get (t.map f) n = (get t n).map f := by
  induction t with
  | nil => rfl
  | cons x t ih =>
    have ih := ih (fun e he => hf e (List.mem_cons_of_mem _ he))
    unfold get at ih ⊢
    rw [List.map_cons]
    by_cases hx : x.name = n
    · rw [List.find?_cons_of_pos (by rw [hf x List.mem_cons_self]; simpa using hx), List.find?_cons_of_pos (by simpa using hx)]; rfl
    · rw [List.find?_cons_of_neg (by rw [hf x List.mem_cons_self]; simpa using hx), List.find?_cons_of_neg (by simpa using hx), ih]

theorem map_names {t : List Entry} {f : Entry → Entry} (hf : ∀ e ∈ t, (f e).name = e.name) : (t.map f).map (·.name) = t.map (·.name) := by
  rw [List.map_map]
  exact List.map_congr_left (fun e he => hf e he)

theorem put_name (e : Entry) (x : Entry) : (if x.name = e.name then e else x).name = x.name := by
  split
  · rename_i h; exact h.symm
  · rfl

theorem get_put {t : List Entry} {e : Entry} (n : Name) :
    get (put t e) n = if n = e.name then (get t n).map (fun _ => e) else get t n := by
  unfold put
  rw [get_map (fun x _ => put_name e x)]
  split
  · rename_i h
    cases hg : get t n with
    | none => rfl
    | some x => simp [get_name hg, h]
  · rename_i h
    cases hg : get t n with
    | none => rfl
    | some x => simp [get_name hg, h]

theorem put_names {t : List Entry} {e : Entry} : (put t e).map (·.name) = t.map (·.name) := map_names (fun x _ => put_name e x)

theorem get_add {t : List Entry} {e : Entry} (h : get t e.name = none) (n : Name) :
    get (add e t) n = if n = e.name then some e else get t n := by
  induction t with
  | nil =>
    unfold add get
    by_cases hn : n = e.name
    · subst hn; simp
    · rw [if_neg hn, List.find?_cons_of_neg (by simpa using fun hc => hn hc.symm)]
  | cons x t ih =>
    have hx : x.name ≠ e.name := by
      intro hc
      unfold get at h
      rw [List.find?_cons_of_pos (by simpa using hc)] at h
      cases h
    have ht : get t e.name = none := by
      unfold get at h ⊢
      rwa [List.find?_cons_of_neg (by simpa using hx)] at h
    unfold add
    split
    · by_cases hn : n = e.name
      · subst hn; simp [get]
      · rw [if_neg hn]
        unfold get
        rw [List.find?_cons_of_neg (by simpa using fun hc => hn hc.symm)]
    · have ih := ih ht
      unfold get at ih ⊢
      by_cases hn : x.name = n
      · rw [List.find?_cons_of_pos (by simpa using hn), List.find?_cons_of_pos (by simpa using hn), if_neg (by rw [← hn]; exact hx)]
      · rw [List.find?_cons_of_neg (by simpa using hn), ih, List.find?_cons_of_neg (by simpa using hn)]

theorem get_remove {t : List Entry} {m : Name} (n : Name) :
    get (t.filter (fun x => x.name != m)) n = if n = m then none else get t n := by
  unfold get
  rw [List.find?_filter]
  split
  · rename_i h
    subst h
    rw [List.find?_eq_none]
    intro x _
    simp
  · rename_i h
    congr 1
    funext x
    by_cases hx : x.name = n
    · simp [hx, h]
    · simp [hx]

/-! ### Order -/

abbrev Sorted (t : List Entry) : Prop := t.Pairwise (fun a b => Name.cmp a.name b.name = .lt)

theorem Sorted.nodup {t : List Entry} (h : Sorted t) : (t.map (·.name)).Nodup := by
  unfold List.Nodup
  rw [List.pairwise_map]
  refine h.imp ?_
  intro a b hab hc
  rw [hc, Name.cmp_self] at hab
  cases hab

theorem Sorted.map {t : List Entry} (h : Sorted t) {f : Entry → Entry} (hf : ∀ e ∈ t, (f e).name = e.name) : Sorted (t.map f) := by
  unfold Sorted
  rw [List.pairwise_map]
  exact h.imp_of_mem (fun ha hb hab => by rw [hf _ ha, hf _ hb]; exact hab)

theorem mem_add {t : List Entry} {e x : Entry} : x ∈ add e t ↔ x = e ∨ x ∈ t := by
  induction t with
  | nil => simp [add]
  | cons y t ih =>
    unfold add
    split
    · simp
    · simp only [List.mem_cons, ih]
      exact ⟨fun h => by rcases h with h | h | h <;> simp [h], fun h => by rcases h with h | h | h <;> simp [h]⟩

theorem Sorted.add {t : List Entry} (h : Sorted t) {e : Entry} (hn : get t e.name = none) : Sorted (add e t) := by
  induction t with
  | nil => simp [Rib.add]
  | cons x t ih =>
    obtain ⟨h1, h2⟩ := List.pairwise_cons.1 h
    have hx : x.name ≠ e.name := by
      intro hc
      unfold get at hn
      rw [List.find?_cons_of_pos (by simpa using hc)] at hn
      cases hn
    have ht : get t e.name = none := by
      unfold get at hn ⊢
      rwa [List.find?_cons_of_neg (by simpa using hx)] at hn
    unfold Rib.add
    split
    · rename_i hlt
      refine List.pairwise_cons.2 ⟨?_, h⟩
      intro y hy
      rcases List.mem_cons.1 hy with rfl | hy
      · exact hlt
      · exact TransCmp.lt_trans hlt (h1 y hy)
    · rename_i hlt
      refine List.pairwise_cons.2 ⟨?_, ih h2 ht⟩
      intro y hy
      rcases mem_add.1 hy with rfl | hy
      · cases hc : Name.cmp x.name y.name with
        | lt => rfl
        | eq => exact absurd (Name.cmp_eq.1 hc) hx
        | gt => exact absurd (OrientedCmp.gt_iff_lt.1 hc) hlt
      · exact h1 y hy

/-- Names with a common prefix are contiguous. -/
theorem prefix_between {p x y : Name} (h1 : Name.cmp p x = .lt) (h2 : Name.cmp x y = .lt) (h : p <+: y) : p <+: x := by
  induction p generalizing x y with
  | nil => exact List.nil_prefix
  | cons c p ih =>
    obtain ⟨z, rfl⟩ := h
    cases x with
    | nil => simp [Name.cmp, List.compareLex] at h1
    | cons d x =>
      rw [List.cons_append] at h2
      rw [Name.cmp_cons_cons] at h1 h2
      have hcd : c = d := by
        cases hc : Component.cmp c d with
        | eq => exact Component.cmp_eq.1 hc
        | gt => rw [hc] at h1; cases h1
        | lt =>
          cases hd : Component.cmp d c with
          | eq => exact (Component.cmp_eq.1 hd).symm
          | gt => rw [hd] at h2; cases h2
          | lt =>
            have := TransCmp.lt_trans hc hd
            rw [Component.cmp_self] at this
            cases this
      subst hcd
      rw [Component.cmp_self] at h1 h2
      simp only [Ordering.then] at h1 h2
      exact List.cons_prefix_cons.2 ⟨rfl, ih h1 h2 (List.prefix_append _ _)⟩

theorem prefix_lt {p x : Name} (h : p <+: x) (hne : p ≠ x) : Name.cmp p x = .lt := by
  induction p generalizing x with
  | nil =>
    cases x with
    | nil => exact absurd rfl hne
    | cons d x => rfl
  | cons c p ih =>
    cases x with
    | nil => simp at h
    | cons d x =>
      have h' := h
      obtain ⟨rfl, -⟩ := List.cons_prefix_cons.1 h
      rw [Name.cmp_cons_cons, Component.cmp_self]
      exact ih (List.cons_prefix_cons.1 h').2 (fun hc => hne (by rw [hc]))

theorem mem_findDescendants {t : List Entry} (hs : Sorted t) {p : Name} (hp : (get t p).isSome = true) (x : Entry) :
    x ∈ findDescendants t p ↔ x ∈ t ∧ p <+: x.name ∧ x.name ≠ p := by
  unfold findDescendants
  induction t with
  | nil => cases hp
  | cons e t ih =>
    obtain ⟨h1, h2⟩ := List.pairwise_cons.1 hs
    by_cases he : e.name = p
    · rw [List.dropWhile_cons_of_neg (by simp [he])]
      simp only
      have key : ∀ (l : List Entry), Sorted l → (∀ y ∈ l, Name.cmp p y.name = .lt) → (x ∈ l.takeWhile (fun e => Name.isPrefixOf p e.name) ↔ x ∈ l ∧ p <+: x.name) := by
        intro l
        induction l with
        | nil => intro _ _; simp
        | cons y l ihl =>
          intro hl hlt
          obtain ⟨k1, k2⟩ := List.pairwise_cons.1 hl
          by_cases hy : p <+: y.name
          · rw [List.takeWhile_cons_of_pos (by simpa [Name.isPrefixOf_iff] using hy), List.mem_cons, ihl k2 (fun z hz => hlt z (List.mem_cons_of_mem _ hz)), List.mem_cons]
            constructor
            · rintro (rfl | ⟨h, h'⟩)
              · exact ⟨.inl rfl, hy⟩
              · exact ⟨.inr h, h'⟩
            · rintro ⟨rfl | h, h'⟩
              · exact .inl rfl
              · exact .inr ⟨h, h'⟩
          · rw [List.takeWhile_cons_of_neg (by simpa [Name.isPrefixOf_iff] using hy)]
            constructor
            · intro h; cases h
            · rintro ⟨h, h'⟩
              exfalso
              rcases List.mem_cons.1 h with rfl | h
              · exact hy h'
              · exact hy (prefix_between (hlt y List.mem_cons_self) (k1 x h) h')
      rw [key t h2 (fun y hy => he ▸ h1 y hy), List.mem_cons]
      constructor
      · rintro ⟨h, h'⟩
        refine ⟨.inr h, h', fun hc => ?_⟩
        have := h1 x h
        rw [he, hc, Name.cmp_self] at this
        cases this
      · rintro ⟨rfl | h, h', h''⟩
        · exact absurd he h''
        · exact ⟨h, h'⟩
    · rw [List.dropWhile_cons_of_pos (by simpa using he)]
      have hp' : (get t p).isSome = true := by
        unfold get at hp ⊢
        rwa [List.find?_cons_of_neg (by simpa using he)] at hp
      rw [ih h2 hp', List.mem_cons]
      constructor
      · rintro ⟨h, h'⟩; exact ⟨.inr h, h'⟩
      · rintro ⟨rfl | h, h', h''⟩
        · -- e precedes p, so p is not a prefix of it
          exfalso
          obtain ⟨y, hy⟩ := Option.isSome_iff_exists.1 hp'
          have h3 := h1 y (get_mem hy)
          rw [get_name hy] at h3
          have h4 := TransCmp.lt_trans h3 (prefix_lt h' (Ne.symm he))
          rw [Name.cmp_self] at h4
          cases h4
        · exact ⟨h, h', h''⟩

/-! ### The nearest entry above -/

/-- The name of the parent. -/
def parentOf (t : List Entry) (n : Name) : Option Name := (findParent t n).map (·.name)

theorem findParentGo_spec {t : List Entry} {n : Name} {k : Nat} (hk : k ≤ n.length) :
    match (findParentGo t n k).map (·.name) with
    | none => ∀ q : Name, q <+: n → q.length < k → get t q = none
    | some p => (get t p).isSome = true ∧ p <+: n ∧ p.length < k ∧ ∀ q : Name, q <+: n → q.length < k → p.length < q.length → get t q = none := by
  induction k with
  | zero => simp [findParentGo]
  | succ i ih =>
    unfold findParentGo
    have hlen : (n.take i).length = i := by rw [List.length_take]; omega
    cases hg : get t (n.take i) with
    | some e =>
      simp only [Option.map_some]
      have hn := get_name hg
      rw [hn, hg]
      refine ⟨rfl, List.take_prefix _ _, by omega, fun q _ h1 h2 => by omega⟩
    | none =>
      simp only
      have ih := ih (by omega)
      have hq : ∀ q : Name, q <+: n → q.length = i → get t q = none := by
        intro q h1 h2
        rw [List.prefix_iff_eq_take.1 h1, h2, hg]
      split at ih
      · intro q h1 h2
        by_cases h3 : q.length < i
        · exact ih q h1 h3
        · exact hq q h1 (by omega)
      · obtain ⟨k1, k2, k3, k4⟩ := ih
        refine ⟨k1, k2, by omega, fun q h1 h2 h3 => ?_⟩
        by_cases h4 : q.length < i
        · exact k4 q h1 h4 h3
        · exact hq q h1 (by omega)

theorem parentOf_some {t : List Entry} {n p : Name} (h : parentOf t n = some p) :
    (get t p).isSome = true ∧ p <+: n ∧ p.length < n.length ∧
      ∀ q : Name, q <+: n → q.length < n.length → p.length < q.length → get t q = none := by
  have := findParentGo_spec (t := t) (n := n) (k := n.length) (Nat.le_refl _)
  unfold parentOf findParent at h
  rw [h] at this
  exact this

theorem parentOf_none {t : List Entry} {n : Name} (h : parentOf t n = none) : ∀ q : Name, q <+: n → q.length < n.length → get t q = none := by
  have := findParentGo_spec (t := t) (n := n) (k := n.length) (Nat.le_refl _)
  unfold parentOf findParent at h
  rw [h] at this
  exact this

theorem parentOf_eq_some {t : List Entry} {n p : Name} (h1 : (get t p).isSome = true) (h2 : p <+: n) (h3 : p.length < n.length)
    (h4 : ∀ q : Name, q <+: n → q.length < n.length → p.length < q.length → get t q = none) : parentOf t n = some p := by
  cases h : parentOf t n with
  | none => rw [parentOf_none h p h2 h3] at h1; cases h1
  | some q =>
    obtain ⟨k1, k2, k3, k4⟩ := parentOf_some h
    have : p.length = q.length := by
      apply Nat.le_antisymm
      · apply Decidable.byContradiction
        intro hc
        rw [k4 p h2 h3 (by omega)] at h1; cases h1
      · apply Decidable.byContradiction
        intro hc
        rw [h4 q k2 k3 (by omega)] at k1; cases k1
    rw [List.prefix_iff_eq_take.1 h2, List.prefix_iff_eq_take.1 k2, this]

theorem parentOf_eq_none {t : List Entry} {n : Name} (h : ∀ q : Name, q <+: n → q.length < n.length → get t q = none) : parentOf t n = none := by
  cases hp : parentOf t n with
  | none => rfl
  | some p =>
    obtain ⟨k1, k2, k3, _⟩ := parentOf_some hp
    rw [h p k2 k3] at k1; cases k1

theorem parentOf_congr {t t' : List Entry} (h : ∀ n, (get t' n).isSome = (get t n).isSome) (n : Name) : parentOf t' n = parentOf t n := by
  have hn : ∀ q, get t q = none → get t' q = none := by
    intro q hq
    have := h q
    rw [hq] at this
    simpa using this
  cases hp : parentOf t n with
  | none => exact parentOf_eq_none (fun q h1 h2 => hn q (parentOf_none hp q h1 h2))
  | some p =>
    obtain ⟨k1, k2, k3, k4⟩ := parentOf_some hp
    exact parentOf_eq_some (by rw [h]; exact k1) k2 k3 (fun q h1 h2 h3 => hn q (k4 q h1 h2 h3))

theorem prefix_comparable {p q n : Name} (h1 : p <+: n) (h2 : q <+: n) (h : p.length ≤ q.length) : p <+: q :=
  List.prefix_of_prefix_length_le h1 h2 h

theorem prefix_eq_of_length {p q : Name} (h : p <+: q) (hl : q.length ≤ p.length) : p = q := by
  exact h.eq_of_length (Nat.le_antisymm h.length_le hl)

end Verif.Rib
