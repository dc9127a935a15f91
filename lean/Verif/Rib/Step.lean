import Verif.Rib.Effect
import Verif.Rib.Sys

/-
One update: what is emitted, that the entries whose inherited routes change exist, and what becomes of the RIB and the FIB.
-/
namespace Verif.Rib

/-- Everything emitted for an update. -/
def emits (tie : List Route → Nat) (t : List Entry) (u : Update) : Except Fault (List Emit) :=
  match u.action with
  | .register => forRegistration t u.name u.route
  | _ => .ok (forUnregistration tie t u.name u.route)

/-! ### Names in the emissions -/

/-- Names of inherited route changes. -/
def Names (E : List Emit) (P : Name → Prop) : Prop := ∀ n a r, Emit.inh n a r ∈ E → P n

theorem Names.nil (P : Name → Prop) : Names [] P := fun _ _ _ h => by cases h
theorem Names.append {a c : List Emit} {P : Name → Prop} (h1 : Names a P) (h2 : Names c P) : Names (a ++ c) P := by
  intro n x r h
  rcases List.mem_append.1 h with h | h
  · exact h1 n x r h
  · exact h2 n x r h
theorem Names.ite {c : Prop} [Decidable c] {a d : List Emit} {P : Name → Prop} (h1 : c → Names a P) (h2 : ¬ c → Names d P) :
    Names (if c then a else d) P := by
  split
  · rename_i h; exact h1 h
  · rename_i h; exact h2 h
theorem Names.flatMap {α : Type} {l : List α} {g : α → List Emit} {P : Name → Prop} (h : ∀ x ∈ l, Names (g x) P) : Names (l.flatMap g) P := by
  intro n a r hm
  obtain ⟨x, hx, hm⟩ := List.mem_flatMap.1 hm
  exact h x hx n a r hm
theorem Names.fib (n : Name) (f : Nat) (c : Option Nat) (P : Name → Prop) : Names [.fib n f c] P := by
  intro m a r h
  rw [List.mem_singleton] at h
  cases h
theorem Names.emitAdd {n : Name} {r : Route} {P : Name → Prop} (h : P n) : Names (emitAdd n r) P := by
  intro m a x hm
  simp only [Rib.emitAdd, List.mem_cons, Emit.inh.injEq, reduceCtorEq, List.not_mem_nil, or_false] at hm
  rw [hm.1]; exact h
theorem Names.emitRemove {n : Name} {r : Route} {P : Name → Prop} (h : P n) : Names (emitRemove n r) P := by
  intro m a x hm
  simp only [Rib.emitRemove, List.mem_cons, Emit.inh.injEq, reduceCtorEq, List.not_mem_nil, or_false] at hm
  rw [hm.1]; exact h
theorem Names.mono {E : List Emit} {P Q : Name → Prop} (h : Names E P) (hpq : ∀ n, P n → Q n) : Names E Q :=
  fun n a r hm => hpq n (h n a r hm)

theorem trav_names {t : List Entry} (ht : Tree t) (k : Nat) (adds removes : List Route) (c : Name) :
    Names (trav t k adds removes c) (fun m => (get t m).isSome = true ∧ c <+: m) := by
  induction k generalizing adds removes c with
  | zero => exact Names.nil _
  | succ k ih =>
    unfold trav
    cases hg : get t c with
    | none => exact Names.nil _
    | some e =>
      have hn := get_name hg
      dsimp only
      have hP : (get t e.name).isSome = true ∧ c <+: e.name := by rw [hn, hg]; exact ⟨rfl, List.prefix_refl c⟩
      refine Names.ite (fun _ => Names.nil _) (fun _ => ?_)
      refine Names.append (Names.append ?_ ?_) ?_
      · exact Names.flatMap (fun r _ => Names.ite (fun _ => Names.emitRemove hP) (fun _ => Names.nil _))
      · exact Names.flatMap (fun r _ => Names.ite (fun _ => Names.emitAdd hP) (fun _ => Names.nil _))
      · refine Names.flatMap (fun d hd => (ih _ _ d).mono (fun m hm => ⟨hm.1, ?_⟩))
        have := ((ht.isChildren hg) d).1 hd
        exact this.2.1.trans hm.2

theorem modifyChildren_names {t : List Entry} (ht : Tree t) {n : Name} {C : List Name} (hC : IsChildren t n C) (adds removes : List Route) :
    Names (modifyChildren t C adds removes) (fun m => (get t m).isSome = true ∧ m ≠ n) := by
  refine Names.flatMap (fun c hc => (trav_names ht _ _ _ c).mono (fun m hm => ⟨hm.1, fun he => ?_⟩))
  have := (hC c).1 hc
  rw [he] at hm
  exact this.2.2.1 (prefix_antisymm hm.2 this.2.1)

theorem forNewRoute_names {t : List Entry} (ht : Tree t) {n : Name} {e : Entry} (hC : IsChildren t n e.children) (hn : e.name = n) (r : Route) (c : Bool) :
    Names (forNewRoute t e r c) (fun m => (get t m).isSome = true ∧ m ≠ n ∨ (m = n ∧ c = true)) := by
  unfold forNewRoute
  dsimp only
  refine Names.append (Names.append ?_ ?_) ?_
  · unfold removeInherited
    refine Names.flatMap (fun x hx => Names.ite (fun _ => Names.emitRemove ?_) (fun _ => Names.nil _))
    right
    refine ⟨hn, ?_⟩
    cases c with
    | true => rfl
    | false => cases hx
  · exact (modifyChildren_names ht hC _ _).mono (fun m hm => .inl hm)
  · exact Names.ite (fun _ => Names.fib _ _ _ _) (fun _ => Names.nil _)

theorem forUpdatedRoute_names {t : List Entry} (ht : Tree t) {n : Name} {e : Entry} (hC : IsChildren t n e.children) (hn : e.name = n) (r old : Route)
    {E : List Emit} (hE : forUpdatedRoute t e r old = .ok E) : Names E (fun m => (get t m).isSome = true ∧ m ≠ n ∨ m = n) := by
  have hm : ∀ adds removes, Names (modifyChildren t e.children adds removes) (fun m => (get t m).isSome = true ∧ m ≠ n ∨ m = n) :=
    fun _ _ => (modifyChildren_names ht hC _ _).mono (fun m hm => .inl hm)
  have hci : Names (forCIChange t e r old) (fun m => (get t m).isSome = true ∧ m ≠ n ∨ m = n) := by
    unfold forCIChange
    dsimp only
    refine Names.ite (fun _ => Names.ite (fun _ => hm _ _) (fun _ => Names.nil _)) (fun _ => Names.ite (fun _ => hm _ _) (fun _ => Names.nil _))
  have hcap : Names (forCaptureChange t e r old) (fun m => (get t m).isSome = true ∧ m ≠ n ∨ m = n) := by
    unfold forCaptureChange addInherited removeInherited
    dsimp only
    refine Names.ite (fun _ => Names.append (Names.flatMap (fun x _ => Names.ite (fun _ => Names.emitRemove (.inr hn)) (fun _ => Names.nil _))) (hm _ _))
      (fun _ => Names.ite (fun _ => Names.append (Names.flatMap (fun x _ => Names.ite (fun _ => Names.emitAdd (.inr hn)) (fun _ => Names.nil _))) (hm _ _))
        (fun _ => Names.nil _))
  unfold forUpdatedRoute at hE
  split at hE
  · rw [← Except.ok.inj hE]; exact Names.nil _
  · split at hE
    · cases hc : forCostChange t e r old with
      | error f => rw [hc] at hE; cases hE
      | ok x =>
        rw [hc] at hE
        rw [← Except.ok.inj hE]
        have hx : Names x.1 (fun m => (get t m).isSome = true ∧ m ≠ n ∨ m = n) := by
          unfold forCostChange at hc
          dsimp only at hc
          cases hl : e.lowestCost r.face with
          | none => rw [hl] at hc; cases hc
          | some l =>
            rw [hl] at hc
            dsimp only at hc
            revert hc
            generalize hu : (if r.cost ≤ l.cost then Except.ok [Emit.fib e.name r.face (some r.cost)]
              else if old.cost < l.cost then
                match e.lowestCI r.face with
                | none => .error .nullPointer
                | some p => .ok [.fib e.name p.face (some p.cost)]
              else .ok [] : Except Fault (List Emit)) = upd
            intro hc
            cases upd with
            | error f => cases hc
            | ok l' =>
              have hl' : Names l' (fun m => (get t m).isSome = true ∧ m ≠ n ∨ m = n) := by
                split at hu
                · rw [← Except.ok.inj hu]; exact Names.fib _ _ _ _
                · split at hu
                  · split at hu
                    · cases hu
                    · rw [← Except.ok.inj hu]; exact Names.fib _ _ _ _
                  · rw [← Except.ok.inj hu]; exact Names.nil _
              have hc := Except.ok.inj hc
              rw [← hc]
              split
              · exact hl'.append (hm _ _)
              · exact hl'
        exact Names.ite (c := x.2 = true) (fun _ => hx) (fun _ => (hx.append hci).append hcap)
    · rw [← Except.ok.inj hE]; exact hci.append hcap

/-- The topmost descendants of a name that is not in the table. -/
theorem nonInserted_children {t : List Entry} (ht : Tree t) {n : Name} (hn : get t n = none) :
    IsChildren t n (((descendantsNonInserted t n).filter (fun d => d.parent == parentOf t n)).map (·.name)) := by
  intro c
  unfold descendantsNonInserted
  simp only [List.mem_map, List.mem_filter]
  constructor
  · rintro ⟨e, ⟨⟨h1, h2⟩, h3⟩, rfl⟩
    have hg := get_of_mem ht.sorted.nodup h1
    have h2 := Name.isPrefixOf_iff.1 h2
    have hne : e.name ≠ n := fun hc => by rw [hc, hn] at hg; cases hg
    have hp : parentOf t e.name = parentOf t n := by rw [← ht.parent _ _ hg]; simpa using h3
    refine ⟨by rw [hg]; rfl, h2, hne, fun x a1 a2 a3 a4 => ?_⟩
    apply Decidable.byContradiction
    intro hc
    have hlt := length_lt_of_prefix a4 (Ne.symm hc)
    have hlt' := length_lt_of_prefix a2 a3
    cases hq : parentOf t e.name with
    | none => rw [parentOf_none hq x a4 hlt] at a1; cases a1
    | some q =>
      obtain ⟨k1, k2, k3, k4⟩ := parentOf_some hq
      rw [hp] at hq
      obtain ⟨j1, j2, j3, j4⟩ := parentOf_some hq
      rw [k4 x a4 hlt (by omega)] at a1
      cases a1
  · rintro ⟨h1, h2, h3, h4⟩
    obtain ⟨e, he⟩ := Option.isSome_iff_exists.1 h1
    have hen := get_name he
    refine ⟨e, ⟨⟨get_mem he, Name.isPrefixOf_iff.2 (by rw [hen]; exact h2)⟩, ?_⟩, hen⟩
    rw [ht.parent _ _ he]
    simp only [beq_iff_eq]
    have hlt := length_lt_of_prefix h2 h3
    have key : ∀ q : Name, q <+: c → q.length < c.length → n.length ≤ q.length → get t q = none := by
      intro q a1 a2 a3
      cases hq : get t q with
      | none => rfl
      | some x =>
        have hnq := prefix_comparable h2 a1 a3
        by_cases hqn : q = n
        · rw [hqn, hn] at hq; cases hq
        · have := h4 q (by rw [hq]; rfl) hnq hqn a1
          rw [this] at a2; omega
    cases hq : parentOf t n with
    | none =>
      refine parentOf_eq_none (fun q a1 a2 => ?_)
      rcases Nat.lt_or_ge q.length n.length with h | h
      · exact parentOf_none hq q (prefix_comparable a1 h2 (by omega)) h
      · exact key q a1 a2 h
    | some p =>
      obtain ⟨j1, j2, j3, j4⟩ := parentOf_some hq
      refine parentOf_eq_some j1 (j2.trans h2) (by omega) (fun q a1 a2 a3 => ?_)
      rcases Nat.lt_or_ge q.length n.length with h | h
      · exact j4 q (prefix_comparable a1 h2 (by omega)) h a3
      · exact key q a1 a2 h

theorem forRegistration_names {t : List Entry} (ht : Tree t) {n : Name} {r : Route} {E : List Emit} (hE : forRegistration t n r = .ok E) :
    Names E (fun m => (get t m).isSome = true ∨ m = n) := by
  unfold forRegistration at hE
  cases hg : get t n with
  | some e =>
    have hn := get_name hg
    rw [hg] at hE
    dsimp only at hE
    cases hf : e.findRoute r with
    | none =>
      rw [hf] at hE
      rw [← Except.ok.inj hE]
      refine (forNewRoute_names ht (ht.isChildren hg) hn _ _).mono (fun m hm => ?_)
      rcases hm with hm | hm
      · exact .inl hm.1
      · exact .inr hm.1
    | some old =>
      rw [hf] at hE
      refine (forUpdatedRoute_names ht (n := n) ?_ ?_ _ _ hE).mono (fun m hm => ?_)
      · show IsChildren t n e.children
        exact ht.isChildren hg
      · exact hn
      · rcases hm with hm | hm
        · exact .inl hm.1
        · exact .inr hm
  | none =>
    rw [hg] at hE
    dsimp only at hE
    rw [← Except.ok.inj hE]
    have hC := nonInserted_children ht hg
    have hm : ∀ adds removes, Names (modifyChildren t (((descendantsNonInserted t n).filter (fun d => d.parent == parentOf t n)).map (·.name)) adds removes)
        (fun m => (get t m).isSome = true ∨ m = n) := fun _ _ => (modifyChildren_names ht hC _ _).mono (fun m hm => .inl hm.1)
    have ha : ∀ s, Names (addInheritedName n s r) (fun m => (get t m).isSome = true ∨ m = n) := fun s =>
      Names.flatMap (fun x _ => Names.ite (fun _ => Names.emitAdd (.inr rfl)) (fun _ => Names.nil _))
    unfold forNewEntry
    dsimp only
    refine Names.append (a := [_]) (Names.fib _ _ _ _) ?_
    exact Names.ite (fun _ => ha _) (fun _ => Names.ite (fun _ => hm _ _) (fun _ => Names.ite (fun _ => (ha _).append (hm _ _)) (fun _ => hm _ _)))

theorem eraseRoute_same (e : Entry) (r : Route) : (e.eraseRoute r).name = e.name ∧ (e.eraseRoute r).parent = e.parent ∧
    (e.eraseRoute r).children = e.children ∧ (e.eraseRoute r).inherited = e.inherited := by
  unfold Entry.eraseRoute
  split
  · exact ⟨rfl, rfl, rfl, rfl⟩
  · exact ⟨rfl, rfl, rfl, rfl⟩

theorem forUnregistration_names {t : List Entry} (ht : Tree t) (tie : List Route → Nat) (n : Name) (r : Route) :
    Names (forUnregistration tie t n r)
      (fun m => (get t m).isSome = true ∧ (m = n → ∃ e, get t n = some e ∧ (e.eraseRoute r).routes ≠ [])) := by
  unfold forUnregistration
  cases hg : get t n with
  | none => exact Names.nil _
  | some e =>
    have hn := get_name hg
    dsimp only
    cases hf : e.findRoute r with
    | none => exact Names.nil _
    | some old =>
      dsimp only
      obtain ⟨s1, s2, s3, s4⟩ := eraseRoute_same e r
      have hC : IsChildren t n (e.eraseRoute r).children := by rw [s3]; exact ht.isChildren hg
      have hm : ∀ adds removes, Names (modifyChildren t (e.eraseRoute r).children adds removes)
          (fun m => (get t m).isSome = true ∧ (m = n → ∃ e', some e = some e' ∧ (e'.eraseRoute r).routes ≠ [])) :=
        fun _ _ => (modifyChildren_names ht hC _ _).mono (fun m hm => ⟨hm.1, fun hc => absurd hc hm.2⟩)
      have hself : (e.eraseRoute r).routes.isEmpty = false → (fun m => (get t m).isSome = true ∧ (m = n → ∃ e', some e = some e' ∧ (e'.eraseRoute r).routes ≠ []))
          (e.eraseRoute r).name := by
        intro h
        refine ⟨by rw [s1, hn, hg]; rfl, fun _ => ⟨e, rfl, fun hc => ?_⟩⟩
        rw [hc] at h; cases h
      have ha : ∀ s, (e.eraseRoute r).routes.isEmpty = false → Names (addInherited (e.eraseRoute r) s)
          (fun m => (get t m).isSome = true ∧ (m = n → ∃ e', some e = some e' ∧ (e'.eraseRoute r).routes ≠ [])) := fun s h =>
        Names.flatMap (fun x _ => Names.ite (fun _ => Names.emitAdd (hself h)) (fun _ => Names.nil _))
      have hempty : ∀ {c : Bool}, (c && !(e.eraseRoute r).routes.isEmpty) = true → (e.eraseRoute r).routes.isEmpty = false := by
        intro c h
        simp only [Bool.and_eq_true, Bool.not_eq_true'] at h
        exact h.2
      refine Names.append (Names.append ?_ ?_) ?_
      · unfold forErasedRoute
        refine Names.append (a := _ :: _) (Names.append (a := [_]) (Names.fib _ _ _ _) ?_) ?_
        · dsimp only
          refine Names.ite (fun _ => Names.ite (fun h => (ha _ (hempty h)).append (hm _ _)) (fun _ => hm _ _)) (fun _ => ?_)
          refine Names.ite (fun _ => hm _ _) (fun _ => ?_)
          exact Names.ite (fun _ => Names.ite (fun h => (ha _ (hempty h)).append (hm _ _)) (fun _ => hm _ _)) (fun _ => Names.nil _)
        · refine Names.ite (fun h => ?_) (fun _ => Names.nil _)
          split
          · exact Names.emitAdd (hself (hempty h))
          · exact Names.nil _
      · split
        · refine (forNewRoute_names ht hC (s1.trans hn) _ _).mono (fun m hm => ?_)
          rcases hm with hm | hm
          · exact ⟨hm.1, fun hc => absurd hc hm.2⟩
          · cases hm.2
        · exact Names.nil _
      · refine Names.ite (fun _ => ?_) (fun _ => Names.nil _)
        unfold forErasedEntry
        intro m a x hx
        obtain ⟨y, _, hy⟩ := List.mem_map.1 hx
        cases hy

/-! ### The RIB after a commit -/

theorem insert_entry {b : Rib} {n : Name} {r : Route} {m : Name} {x : Entry} (h : get (insert b n r).table m = some x) :
    (m ≠ n ∧ ∃ e, get b.table m = some e ∧ x.routes = e.routes ∧ x.nCapture = e.nCapture ∧ x.inherited = e.inherited) ∨
    (m = n ∧ get b.table n = none ∧ x.routes = [r] ∧ x.nCapture = (if r.capture then 1 else 0) ∧ x.inherited = []) ∨
    (m = n ∧ ∃ e, get b.table n = some e ∧ x.routes = Spec.setRoute e.routes r ∧
      x.nCapture = (if (e.findRoute r).isNone && r.capture then (e.nCapture + 1) % W else e.nCapture) ∧ x.inherited = e.inherited) := by
  unfold Rib.insert at h
  cases hg : get b.table n with
  | some e =>
    rw [hg] at h
    dsimp only at h
    rw [get_insertExisting hg r] at h
    by_cases hm : m = n
    · rw [if_pos hm] at h
      rw [← Option.some.inj h]
      exact .inr (.inr ⟨hm, e, rfl, rfl, rfl, rfl⟩)
    · rw [if_neg hm] at h
      exact .inl ⟨hm, x, h, rfl, rfl, rfl⟩
  | none =>
    rw [hg] at h
    dsimp only at h
    rw [get_insertNew r hg, Option.map_eq_some_iff] at h
    obtain ⟨y, h1, h2⟩ := h
    obtain ⟨_, k2, k3, k4⟩ := insertNewEntry_same n (parentOf (add (newEntry b.nextId n r) b.table) n) (movedNames (add (newEntry b.nextId n r) b.table) n) y
    rw [h2] at k2 k3 k4
    by_cases hm : m = n
    · rw [if_pos hm] at h1
      rw [← Option.some.inj h1] at k2 k3 k4
      exact .inr (.inl ⟨hm, rfl, k2, k4, k3⟩)
    · rw [if_neg hm] at h1
      exact .inl ⟨hm, y, h1, k2, k4, k3⟩

theorem erase_entry {k : Nat} {b b' : Rib} (h : RInv k b) {n : Name} {r : Route} (he : erase b n r = .ok b') {m : Name} {x : Entry}
    (hx : get b'.table m = some x) :
    (∃ e, get b.table m = some e ∧ x.routes = e.routes ∧ x.nCapture = e.nCapture ∧ x.inherited = e.inherited ∧ (m = n → e.findRoute r = none)) ∨
    (m = n ∧ ∃ e old, get b.table n = some e ∧ e.findRoute r = some old ∧ x.routes = e.routes.eraseP (·.same r) ∧
      x.nCapture = (if old.capture then (e.nCapture + (W - 1)) % W else e.nCapture) ∧ x.inherited = e.inherited) := by
  rcases erase_cases h n r with ⟨h1, h2⟩ | ⟨e, old, hg, hf, hcase⟩
  · rw [h1] at he
    rw [← Except.ok.inj he] at hx
    refine .inl ⟨x, hx, rfl, rfl, rfl, fun hm => ?_⟩
    rw [hm] at hx
    unfold Entry.findRoute
    rw [List.find?_eq_none]
    intro y hy
    rw [h2 y (by rw [routes_get hx]; exact hy)]
    simp
  have hn := get_name hg
  have hen : (erasedEntry e r old).name = n := hn
  rcases hcase with ⟨hne, b2, hb, htab, _⟩ | ⟨hnil, b2, hb, htab, _⟩
  · rw [hb] at he
    rw [← Except.ok.inj he, htab, get_put, hen] at hx
    by_cases hm : m = n
    · rw [if_pos hm, hm, hg] at hx
      rw [← Option.some.inj hx]
      exact .inr ⟨hm, e, old, hg, hf, rfl, rfl, rfl⟩
    · rw [if_neg hm] at hx
      exact .inl ⟨x, hx, rfl, rfl, rfl, fun hc => absurd hc hm⟩
  · rw [hb] at he
    rw [← Except.ok.inj he, htab, get_erased, hen] at hx
    by_cases hm : m = n
    · rw [if_pos hm] at hx; cases hx
    · rw [if_neg hm, get_put, hen, if_neg hm, Option.map_eq_some_iff] at hx
      obtain ⟨y, h1, h2⟩ := hx
      obtain ⟨_, _, k2, k3, k4⟩ := eraseEntryEntry_same (erasedEntry e r old) y
      rw [h2] at k2 k3 k4
      exact .inl ⟨y, h1, k2, k4, k3, fun hc => absurd hc hm⟩

theorem erase_isSome {k : Nat} {b b' : Rib} (h : RInv k b) {n : Name} {r : Route} (he : erase b n r = .ok b') {m : Name}
    (hm : (get b.table m).isSome = true) (h2 : m = n → ∃ e, get b.table n = some e ∧ (e.eraseRoute r).routes ≠ []) : (get b'.table m).isSome = true := by
  have hr := erase_routes h he m
  have hi := h.erase he
  cases hg : get b'.table m with
  | some x => rfl
  | none =>
    rw [routes_none hg] at hr
    obtain ⟨e, hem⟩ := Option.isSome_iff_exists.1 hm
    by_cases hmn : m = n
    · rw [if_pos hmn] at hr
      obtain ⟨e', h3, h4⟩ := h2 hmn
      rw [routes_get h3] at hr
      exfalso
      apply h4
      unfold Entry.eraseRoute
      cases hf : e'.findRoute r with
      | none =>
        dsimp only
        rw [dropRoute_not_mem] at hr
        · exact hr.symm
        · intro x hx
          exact Bool.eq_false_iff.2 (List.find?_eq_none.1 hf x hx)
      | some old =>
        show e'.routes.eraseP (·.same r) = []
        rw [eraseP_eq_filter (h.keys n e' h3)]
        exact hr.symm
    · rw [if_neg hmn, routes_get hem] at hr
      exact absurd hr.symm (h.nonempty m e hem)

/-- The RIB before inherited routes are changed. -/
def base (b : Rib) (u : Update) : Except Fault Rib := if u.action = .register then .ok (insert b u.name u.route) else erase b u.name u.route

theorem base_ok {k : Nat} {b : Rib} (h : RInv k b) (u : Update) : ∃ b1, base b u = .ok b1 ∧ RInv (k + 1) b1 ∧ ∀ m, b1.routes m = Spec.after b.routes u m := by
  unfold base Spec.after
  by_cases hr : u.action = .register
  · rw [if_pos hr, hr]
    refine ⟨_, rfl, h.insert _ _, fun m => ?_⟩
    rw [insert_routes h]
    split
    · rename_i hm; rw [hm]
    · rfl
  · rw [if_neg hr]
    obtain ⟨b1, hb⟩ := erase_ok h u.name u.route
    refine ⟨b1, hb, (h.erase hb).mono (Nat.le_succ k), fun m => ?_⟩
    rw [erase_routes h hb]
    split
    · rename_i hm
      rw [hm]
      cases ha : u.action with
      | register => exact absurd ha hr
      | unregister => rfl
      | removeFace => rfl
    · rfl

theorem base_names {k : Nat} {b b1 : Rib} (h : RInv k b) {tie : List Route → Nat} {u : Update} {E : List Emit} (hE : emits tie b.table u = .ok E)
    (hb : base b u = .ok b1) : Names E (fun m => (get b1.table m).isSome = true) := by
  unfold base at hb
  unfold emits at hE
  by_cases hr : u.action = .register
  · rw [if_pos hr] at hb
    rw [hr] at hE
    rw [← Except.ok.inj hb]
    exact (forRegistration_names h.tree hE).mono (fun m hm => (insert_isSome _ _ m).2 hm.symm)
  · rw [if_neg hr] at hb
    have : E = forUnregistration tie b.table u.name u.route := by
      split at hE
      · rename_i ha; exact absurd ha hr
      · exact (Except.ok.inj hE).symm
    rw [this]
    exact (forUnregistration_names h.tree tie u.name u.route).mono (fun m hm => erase_isSome h hb hm.1 hm.2)

/-- What a commit does. -/
theorem commit_ok {k : Nat} {b : Rib} (h : RInv k b) {tie : List Route → Nat} {u : Update} {E : List Emit} (hE : emits tie b.table u = .ok E) :
    ∃ b1 b', base b u = .ok b1 ∧ commit b u (E.filterMap inhOf) = .ok b' ∧ RInv (k + 1) b' ∧ (∀ m, b'.routes m = Spec.after b.routes u m) ∧
      InhOnly b1.table b'.table ∧ RInv (k + 1) b1 ∧
      ∀ (m : Name) (e e' : Entry) (f : Nat), get b1.table m = some e → get b'.table m = some e' →
        e'.hasInherited f = (lastInh E m f).getD (e.hasInherited f) := by
  obtain ⟨b1, hb, hi, hr⟩ := base_ok h u
  obtain ⟨t', h1, h2, h3, h4⟩ := modifyInherited_ok E hi (base_names h hE hb)
  refine ⟨b1, { b1 with table := t' }, hb, ?_, h2, fun m => ?_, h3, hi, h4⟩
  · unfold commit
    unfold base at hb
    by_cases ha : u.action = .register
    · rw [if_pos ha] at hb ⊢
      rw [← Except.ok.inj hb] at h1 ⊢
      simp only [bind, Except.bind, h1]
    · rw [if_neg ha] at hb ⊢
      simp only [bind, Except.bind, hb, h1]
  · rw [← hr m]
    unfold Rib.routes
    cases hg : get b1.table m with
    | none =>
      have := h3.1 m hg
      show (match get t' m with | none => [] | some e => e.routes) = []
      rw [this]
    | some e =>
      obtain ⟨l, hl⟩ := h3.2 m e hg
      show (match get t' m with | none => [] | some e => e.routes) = e.routes
      rw [hl]

theorem plan_eq (tie : List Route → Nat) (t : List Entry) (u : Update) :
    plan tie t u = (emits tie t u).map (fun E =>
      if u.action = .removeFace then { planOf u.route.face E with batch := [] } else planOf u.route.face E) := by
  unfold plan emits planOf
  cases ha : u.action with
  | register =>
    dsimp only
    cases forRegistration t u.name u.route <;> rfl
  | unregister => rfl
  | removeFace => rfl

/-- One update, as seen from outside. -/
theorem update_cases {k : Nat} {tie : List Route → Nat} {s : Sys} {u : Update} (h : RInv k s.rib) :
    match emits tie s.rib.table u with
    | .error f => s.update tie u = .error f
    | .ok E =>
      ∃ s', s.update tie u = .ok s' ∧ s'.face = s.face ∧
        (∀ m f, s.face f ≠ .alive → s.fib m f = none → s'.fib m f = none) ∧
        (-- refused
         (s'.rib = s.rib ∧ s.face u.route.face ≠ .alive ∧ (∃ m c, lastFib E m u.route.face = some (some c)) ∧ ∀ m f, s.face f = .alive → s'.fib m f = s.fib m f) ∨
         (-- accepted
          ∃ b1, base s.rib u = .ok b1 ∧ RInv (k + 1) b1 ∧ RInv (k + 1) s'.rib ∧ (∀ m, s'.rib.routes m = Spec.after s.rib.routes u m) ∧
          InhOnly b1.table s'.rib.table ∧
          (∀ (m : Name) (e e' : Entry) (f : Nat), get b1.table m = some e → get s'.rib.table m = some e' →
            e'.hasInherited f = (lastInh E m f).getD (e.hasInherited f)) ∧
          (∀ m f, s.face f = .alive → (u.action = .removeFace → f ≠ u.route.face) → s'.fib m f = (lastFib E m f).getD (s.fib m f)) ∧
          (u.action ≠ .removeFace → s.face u.route.face ≠ .alive → ¬ ∃ m c, lastFib E m u.route.face = some (some c)))) := by
  have hp := plan_eq tie s.rib.table u
  cases hE : emits tie s.rib.table u with
  | error f =>
    rw [hE] at hp
    dsimp only
    unfold Sys.update
    rw [hp]
    rfl
  | ok E =>
    rw [hE] at hp
    dsimp only
    have hp : plan tie s.rib.table u = .ok (if u.action = .removeFace then { planOf u.route.face E with batch := [] } else planOf u.route.face E) := hp
    obtain ⟨b1, b', c1, c2, c3, c4, c5, c6, c7⟩ := commit_ok h hE
    by_cases ha : u.action = .removeFace
    · rw [if_pos ha] at hp
      refine ⟨{ s with rib := b', fib := (planOf u.route.face E).other.foldl (applyFib s.face) s.fib }, ?_, rfl, ?_, .inr ⟨b1, c1, c6, c3, c4, c5, c7, ?_, fun hc => absurd ha hc⟩⟩
      · unfold Sys.update
        rw [hp]
        dsimp only
        rw [planOf_inherited, c2]
        rfl
      · intro m f hf hn
        exact foldl_applyFib_dead _ m f hf hn
      · intro m f hf hg
        exact planOf_fib_other _ E s.fib m f hf (hg ha)
    · rw [if_neg ha] at hp
      by_cases hr : (planOf u.route.face E).batch.any (refused s.face) = true
      · obtain ⟨r1, r2⟩ := (planOf_refused _ _).1 hr
        refine ⟨{ s with fib := (planOf u.route.face E).batch.foldl (applyFib s.face) s.fib }, ?_, rfl, ?_, .inl ⟨rfl, r1, r2, ?_⟩⟩
        · unfold Sys.update
          rw [hp]
          dsimp only
          rw [if_pos hr]
        · intro m f hf hn
          exact foldl_applyFib_dead _ m f hf hn
        · intro m f hf
          exact planOf_fib_batch _ E s.fib m f hf (fun hc => r1 (by rw [← hc]; exact hf))
      · refine ⟨{ s with rib := b', fib := (planOf u.route.face E).other.foldl (applyFib s.face) ((planOf u.route.face E).batch.foldl (applyFib s.face) s.fib) },
          ?_, rfl, ?_, .inr ⟨b1, c1, c6, c3, c4, c5, c7, ?_, fun _ hf hex => hr ((planOf_refused _ _).2 ⟨hf, hex⟩)⟩⟩
        · unfold Sys.update
          rw [hp]
          dsimp only
          rw [if_neg hr, planOf_inherited, c2]
        · intro m f hf hn
          exact foldl_applyFib_dead _ m f hf (foldl_applyFib_dead _ m f hf hn)
        · intro m f hf _
          exact planOf_fib _ E s.fib m f hf

end Verif.Rib
