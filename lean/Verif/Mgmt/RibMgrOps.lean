import Verif.Mgmt.RibMgrAnn

/-! Effects of single operations of the RIB manager. -/
namespace Verif.RibMgr

theorem insert_mem {s : St} {n : Name} {r : Rt} {x : Name × Rt} :
    x ∈ (insert s n r).rib ↔ x = (n, r) ∨ (x ∈ s.rib ∧ ¬ Same x.1 n x.2 r) := by
  unfold insert
  split
  · rename_i hn
    simp only [List.mem_append, List.mem_singleton]
    constructor
    · rintro (h | h)
      · exact .inr ⟨h, find_none hn h⟩
      · exact .inl h
    · rintro (h | h)
      · exact .inr h
      · exact .inl h.1
  · rename_i old ho
    obtain ⟨o1, o2, o3⟩ := find_some ho
    simp only [List.mem_map]
    constructor
    · rintro ⟨y, hy, rfl⟩
      by_cases hk : sameKey y.1 n y.2 r = true
      · rw [if_pos hk]; exact .inl rfl
      · rw [if_neg hk]; exact .inr ⟨hy, fun h => hk (sameKey_iff.2 h)⟩
    · rintro (rfl | h)
      · exact ⟨_, o1, by rw [if_pos (sameKey_iff.2 ⟨rfl, o2, o3⟩)]⟩
      · exact ⟨x, h.1, by rw [if_neg (fun hk => h.2 (sameKey_iff.1 hk))]⟩

theorem erase_mem {s : St} {n : Name} {r : Rt} {x : Name × Rt} :
    x ∈ (erase s n r).rib ↔ x ∈ s.rib ∧ ¬ Same x.1 n x.2 r := by
  unfold erase
  split
  · rename_i hn
    exact ⟨fun h => ⟨h, find_none hn h⟩, fun h => h.1⟩
  · simp only [List.mem_filter, Bool.not_eq_true', ← Bool.not_eq_true, sameKey_iff]

/-- A registration is queued and completed. -/
theorem register_effect {s : St} {n : Name} {r : Rt} {cb : Option Nat} {ok : Bool} (hq : s.queue = []) (hn : n.length ≤ Nt.maxDepth)
    (hr : ∀ t, r.expires = some t → s.now < t) (hf : r.face ∈ s.faces) (hu : r.face ∈ s.used) :
    ∃ e, (∀ x, x ∈ (complete (addRoute s n r cb) ok).rib ↔ x = (n, { r with evt := e }) ∨ (x ∈ s.rib ∧ ¬ Same x.1 n x.2 r)) ∧
      (complete (addRoute s n r cb) ok).out = s.out ++ (cb.map (fun q => Out.sl q .ok)).toList ∧
      (addRoute s n r cb).rib = s.rib ∧ (addRoute s n r cb).out = s.out ∧ (addRoute s n r cb).fault = s.fault := by
  have hn' : ¬ n.length > Nt.maxDepth := by omega
  unfold addRoute
  split
  · rename_i t ht
    have : ¬ t ≤ s.now := by have := hr t ht; omega
    rw [if_neg this]
    refine ⟨some s.next, ?_, ?_, rfl, rfl, rfl⟩
    · intro x
      simp only [complete, enqueue, hq, List.nil_append, hn', and_false, if_false, hf, or_true, hu, implies_true, and_self, if_true]
      cases cb with
      | none => dsimp only; exact insert_mem
      | some q => simp only [emit]; exact insert_mem
    · simp only [complete, enqueue, hq, List.nil_append, hn', and_false, if_false, hf, or_true, hu, implies_true, and_self, if_true]
      cases cb with
      | none => dsimp only; rw [(insert_out _ _ _).1]; simp
      | some q => simp only [emit]; rw [(insert_out _ _ _).1]; simp
  · refine ⟨r.evt, ?_, ?_, rfl, rfl, rfl⟩
    · intro x
      simp only [complete, enqueue, hq, List.nil_append, hn', and_false, if_false, hf, or_true, hu, implies_true, and_self, if_true]
      cases cb with
      | none => dsimp only; exact insert_mem
      | some q => simp only [emit]; exact insert_mem
    · simp only [complete, enqueue, hq, List.nil_append, hn', and_false, if_false, hf, or_true, hu, implies_true, and_self, if_true]
      cases cb with
      | none => dsimp only; rw [(insert_out _ _ _).1]; simp
      | some q => simp only [emit]; rw [(insert_out _ _ _).1]; simp

/-- A removal is queued and completed. -/
theorem unregister_effect {s : St} {u : Upd} {ok : Bool} (hq : s.queue = [u]) (hu : u.act = .unregister) (hcb : u.cb = none)
    (hok : ok = true ∨ u.route.face ∈ s.faces) :
    (∀ x, x ∈ (complete s ok).rib ↔ x ∈ s.rib ∧ ¬ Same x.1 u.name x.2 u.route) ∧ (complete s ok).out = s.out := by
  simp only [complete, hq, hu, hcb, hok, reduceCtorEq, false_and, if_false, false_implies, and_self, if_true]
  exact ⟨fun x => erase_mem, (erase_out _ _ _).1⟩

/-- Registration of a route that has expired. -/
theorem expired_effect {s : St} {n : Name} {r : Rt} {cb : Option Nat} {ok : Bool} (hq : s.queue = []) {t : Nat} (hr : r.expires = some t) (ht : t ≤ s.now)
    (hok : ok = true ∨ r.face ∈ s.faces) :
    (∀ x, x ∈ (complete (addRoute s n r cb) ok).rib ↔ x ∈ s.rib ∧ ¬ Same x.1 n x.2 r) ∧
      (complete (addRoute s n r cb) ok).out = s.out ++ (cb.map (fun q => Out.sl q .expired)).toList ∧
      (addRoute s n r cb).rib = s.rib ∧ (addRoute s n r cb).out = s.out ++ (cb.map (fun q => Out.sl q .expired)).toList ∧
      (addRoute s n r cb).fault = s.fault := by
  have h : addRoute s n r cb = (match cb with | some q => emit (onRouteExpiration s n r false) (.sl q .expired) | none => onRouteExpiration s n r false) := by
    cases cb <;> simp only [addRoute, hr, ht, if_true]
  rw [h]
  cases cb with
  | none =>
    dsimp only
    have := unregister_effect (s := onRouteExpiration s n r false) (ok := ok) (u := { act := .unregister, name := n, route := r })
      (by simp [onRouteExpiration, enqueue, hq]) rfl rfl hok
    exact ⟨this.1, by rw [this.2]; simp [onRouteExpiration, enqueue], rfl, by simp [onRouteExpiration, enqueue], rfl⟩
  | some q =>
    dsimp only
    have := unregister_effect (s := emit (onRouteExpiration s n r false) (.sl q .expired)) (ok := ok) (u := { act := .unregister, name := n, route := r })
      (by simp [onRouteExpiration, enqueue, hq, emit]) rfl rfl hok
    exact ⟨this.1, by rw [this.2]; simp [onRouteExpiration, enqueue, emit], rfl, by simp [onRouteExpiration, enqueue, emit], rfl⟩

/-! ## Names in the RIB -/

theorem mem_names {l : List (Name × Rt)} {n : Name} : n ∈ names l ↔ ∃ r, (n, r) ∈ l := by
  induction l with
  | nil => simp [names]
  | cons x l ih =>
    obtain ⟨m, q⟩ := x
    unfold names
    split
    · rename_i hm
      rw [ih]
      constructor
      · rintro ⟨r, h⟩; exact ⟨r, List.mem_cons_of_mem _ h⟩
      · rintro ⟨r, h⟩
        rw [List.mem_cons] at h
        rcases h with h | h
        · cases h; exact ih.1 hm
        · exact ⟨r, h⟩
    · rw [List.mem_cons, ih]
      constructor
      · rintro (rfl | ⟨r, h⟩)
        · exact ⟨q, List.mem_cons_self ..⟩
        · exact ⟨r, List.mem_cons_of_mem _ h⟩
      · rintro ⟨r, h⟩
        rw [List.mem_cons] at h
        rcases h with h | h
        · cases h; exact .inl rfl
        · exact .inr ⟨r, h⟩

theorem names_nodup (l : List (Name × Rt)) : (names l).Nodup := by
  induction l with
  | nil => exact List.Pairwise.nil
  | cons x l ih =>
    obtain ⟨m, q⟩ := x
    unfold names
    split
    · exact ih
    · rename_i hm
      exact List.nodup_cons.2 ⟨hm, ih⟩

theorem mem_routesOf {s : St} {n : Name} {r : Rt} : r ∈ routesOf s n ↔ (n, r) ∈ s.rib := by
  simp only [routesOf, List.mem_map, List.mem_filter, beq_iff_eq]
  constructor
  · rintro ⟨⟨m, q⟩, ⟨h1, rfl⟩, rfl⟩; exact h1
  · intro h; exact ⟨(n, r), ⟨h, rfl⟩, rfl⟩

theorem routesOf_ne {s : St} {n : Name} : routesOf s n ≠ [] ↔ ∃ r, (n, r) ∈ s.rib := by
  constructor
  · intro h
    obtain ⟨r, hr⟩ := List.exists_mem_of_ne_nil _ h
    exact ⟨r, mem_routesOf.1 hr⟩
  · rintro ⟨r, hr⟩
    exact List.ne_nil_of_mem (mem_routesOf.2 hr)

theorem findUpTo_spec {s : St} {n : Name} : ∀ {k : Nat}, k ≤ n.length →
    match findUpTo s n k with
    | none => ∀ j, j < k → ¬ ∃ r, (n.take j, r) ∈ s.rib
    | some p => (∃ r, (p, r) ∈ s.rib) ∧ ∃ j, j < k ∧ p = n.take j ∧ ∀ i, j < i → i < k → ¬ ∃ r, (n.take i, r) ∈ s.rib
  | 0, _ => by simp [findUpTo]
  | k + 1, hk => by
    have ih := findUpTo_spec (s := s) (n := n) (k := k) (by omega)
    unfold findUpTo
    by_cases h : routesOf s (n.take k) ≠ []
    · rw [if_pos h]
      dsimp only
      exact ⟨routesOf_ne.1 h, k, by omega, rfl, fun i h1 h2 => by omega⟩
    · rw [if_neg h]
      have hno : ¬ ∃ r, (n.take k, r) ∈ s.rib := fun h' => h (routesOf_ne.2 h')
      cases hf : findUpTo s n k with
      | none =>
        rw [hf] at ih
        dsimp only at ih ⊢
        intro j hj
        by_cases hjk : j = k
        · subst hjk; exact hno
        · exact ih j (by omega)
      | some p =>
        rw [hf] at ih
        dsimp only at ih ⊢
        obtain ⟨h1, j, h2, h3, h4⟩ := ih
        refine ⟨h1, j, by omega, h3, fun i hi hk' => ?_⟩
        by_cases hik : i = k
        · subst hik; exact hno
        · exact h4 i hi (by omega)

/-! ## The announcement for an entry -/

structure BestInv (pre : List Rt) (b : Option Rt) (e : Option (Option Nat)) : Prop where
  none : b = none → ∀ y ∈ pre, y.ann.isSome = true → y.expires = none
  some : ∀ r, b = some r → r ∈ pre ∧ r.ann.isSome = true ∧ ∃ t, r.expires = some t ∧ ∀ y ∈ pre, y.ann.isSome = true → ∀ u, y.expires = some u → u ≤ t
  empty : e = Option.none → pre = []
  never : e = Option.some Option.none ↔ ∃ y ∈ pre, y.expires = Option.none
  last : ∀ t, e = Option.some (Option.some t) → (∀ y ∈ pre, ∃ u, y.expires = Option.some u ∧ u ≤ t) ∧ ∃ y ∈ pre, y.expires = Option.some t

theorem bestAnn_spec {l pre : List Rt} {b : Option Rt} {e : Option (Option Nat)} (h : BestInv pre b e) :
    BestInv (pre ++ l) (bestAnn l b e).1 (bestAnn l b e).2 := by
  induction l generalizing pre b e with
  | nil => simpa [bestAnn] using h
  | cons r l ih =>
    have happ : pre ++ r :: l = (pre ++ [r]) ++ l := by simp
    rw [happ]
    obtain ⟨h1, h2, h3, h4, h5⟩ := h
    unfold bestAnn
    cases hr : r.expires with
    | none =>
      dsimp only
      refine ih ⟨?_, ?_, by simp, ?_, by simp⟩
      · intro hb y hy ha
        rw [List.mem_append, List.mem_singleton] at hy
        rcases hy with hy | rfl
        · exact h1 hb y hy ha
        · exact hr
      · intro q hq
        obtain ⟨a1, a2, t, a3, a4⟩ := h2 q hq
        refine ⟨by simp [a1], a2, t, a3, fun y hy ha u hu => ?_⟩
        rw [List.mem_append, List.mem_singleton] at hy
        rcases hy with hy | rfl
        · exact a4 y hy ha u hu
        · rw [hr] at hu; cases hu
      · simp only [true_iff]; exact ⟨r, by simp, hr⟩
    | some t =>
      dsimp only
      refine ih ⟨?_, ?_, ?_, ?_, ?_⟩
      · intro hb y hy ha
        rw [List.mem_append, List.mem_singleton] at hy
        by_cases hra : r.ann.isSome = true
        · rw [if_pos hra] at hb
          split at hb
          · cases hb
          · split at hb <;> cases hb
        · rw [if_neg hra] at hb
          rcases hy with hy | rfl
          · exact h1 hb y hy ha
          · exact absurd ha hra
      · intro q hq
        by_cases hra : r.ann.isSome = true
        · rw [if_pos hra] at hq
          split at hq
          · rename_i hb
            cases hq
            refine ⟨by simp, hra, t, hr, fun y hy ha u hu => ?_⟩
            rw [List.mem_append, List.mem_singleton] at hy
            rcases hy with hy | rfl
            · rw [h1 rfl y hy ha] at hu; cases hu
            · rw [hr] at hu; cases hu; exact Nat.le_refl _
          · rename_i q'
            obtain ⟨a1, a2, t', a3, a4⟩ := h2 q' rfl
            split at hq
            · rename_i hlt
              cases hq
              rw [a3] at hlt
              simp only [Option.any_some, decide_eq_true_eq] at hlt
              refine ⟨by simp, hra, t, hr, fun y hy ha u hu => ?_⟩
              rw [List.mem_append, List.mem_singleton] at hy
              rcases hy with hy | rfl
              · have := a4 y hy ha u hu; omega
              · rw [hr] at hu; cases hu; exact Nat.le_refl _
            · rename_i hlt
              cases hq
              rw [a3] at hlt
              simp only [Option.any_some, decide_eq_true_eq] at hlt
              refine ⟨by simp [a1], a2, t', a3, fun y hy ha u hu => ?_⟩
              rw [List.mem_append, List.mem_singleton] at hy
              rcases hy with hy | rfl
              · exact a4 y hy ha u hu
              · rw [hr] at hu; cases hu; omega
        · rw [if_neg hra] at hq
          obtain ⟨a1, a2, t', a3, a4⟩ := h2 q hq
          refine ⟨by simp [a1], a2, t', a3, fun y hy ha u hu => ?_⟩
          rw [List.mem_append, List.mem_singleton] at hy
          rcases hy with hy | rfl
          · exact a4 y hy ha u hu
          · exact absurd ha hra
      · intro he
        split at he <;> simp at he
      · cases e with
        | none =>
          have := h3 rfl; subst this
          simp [hr]
        | some v =>
          cases v with
          | none =>
            simp only [true_iff]
            obtain ⟨y, hy, hn⟩ := h4.1 rfl
            exact ⟨y, by simp [hy], hn⟩
          | some w =>
            simp only [Option.some.injEq, reduceCtorEq, false_iff]
            rintro ⟨y, hy, hn⟩
            rw [List.mem_append, List.mem_singleton] at hy
            rcases hy with hy | rfl
            · have := h4.2 ⟨y, hy, hn⟩; simp at this
            · rw [hr] at hn; cases hn
      · intro t' ht'
        cases e with
        | none =>
          have := h3 rfl; subst this
          simp only [Option.some.injEq] at ht'; subst ht'
          simp [hr]
        | some v =>
          cases v with
          | none => simp at ht'
          | some w =>
            simp only [Option.some.injEq] at ht'; subst ht'
            obtain ⟨a1, y0, a2, a3⟩ := h5 w rfl
            constructor
            · intro y hy
              rw [List.mem_append, List.mem_singleton] at hy
              rcases hy with hy | rfl
              · obtain ⟨u, b1, b2⟩ := a1 y hy
                exact ⟨u, b1, by omega⟩
              · exact ⟨t, hr, by omega⟩
            · by_cases hwt : w ≤ t
              · exact ⟨r, by simp, by rw [hr, Nat.max_eq_right hwt]⟩
              · exact ⟨y0, by simp [a2], by rw [a3, Nat.max_eq_left (by omega)]⟩

theorem bestAnn_all (l : List Rt) : BestInv l (bestAnn l none none).1 (bestAnn l none none).2 := by
  have : BestInv [] none none := ⟨by simp, by simp, by simp, by simp, by simp⟩
  simpa using bestAnn_spec (l := l) this

end Verif.RibMgr
