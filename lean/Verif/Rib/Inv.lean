import Verif.Rib.Tree
import Verif.Rib.Spec
import Verif.Rib.Sys

/-
Invariants of the RIB that hold for all histories.
-/
namespace Verif.Rib

structure RInv (k : Nat) (b : Rib) : Prop where
  tree : Tree b.table
  nonempty : ∀ (n : Name) (e : Entry), get b.table n = some e → e.routes ≠ []
  keys : ∀ (n : Name) (e : Entry), get b.table n = some e → e.routes.Pairwise (fun a c => a.same c = false)
  bound : ∀ (n : Name) (e : Entry), get b.table n = some e → e.routes.length ≤ k
  fresh : ∀ (n : Name) (e : Entry), get b.table n = some e → e.id < b.nextId
  ids : ∀ (n n' : Name) (e e' : Entry), get b.table n = some e → get b.table n' = some e' → e.id = e'.id → n = n'
  faces : ∀ (n : Name) (e : Entry) (r : Route), get b.table n = some e → r ∈ e.routes → (r.face, e.id) ∈ b.faceEntries
  items : b.nItems = (b.table.map (fun e => e.routes.length)).sum

theorem RInv.init : RInv 0 Rib.init :=
  ⟨Tree.empty, (fun n e h => by cases h), (fun n e h => by cases h), (fun n e h => by cases h), (fun n e h => by cases h),
   (fun n n' e e' h => by cases h), (fun n e r h => by cases h), rfl⟩

theorem RInv.mono {k k' : Nat} {b : Rib} (h : RInv k b) (hk : k ≤ k') : RInv k' b :=
  ⟨h.tree, h.nonempty, h.keys, (fun n e hg => Nat.le_trans (h.bound n e hg) hk), h.fresh, h.ids, h.faces, h.items⟩

theorem same_comm (a c : Route) : a.same c = c.same a := by
  unfold Route.same
  rw [Bool.beq_comm (a := a.face), Bool.beq_comm (a := a.origin)]

theorem same_iff {a c : Route} : a.same c = true ↔ a.face = c.face ∧ a.origin = c.origin := by
  unfold Route.same
  simp

theorem same_trans {a c d : Route} (h1 : a.same c = true) (h2 : c.same d = true) : a.same d = true := by
  rw [same_iff] at *
  exact ⟨h1.1.trans h2.1, h1.2.trans h2.2⟩

theorem same_congr {a c : Route} (h : a.same c = true) (d : Route) : d.same a = d.same c := by
  rw [same_iff] at h
  unfold Route.same
  rw [h.1, h.2]

theorem findRoute_same {e : Entry} {r x : Route} (h : e.findRoute r = some x) : x.same r = true := by
  unfold Entry.findRoute at h
  exact List.find?_some (p := fun y : Route => y.same r) h

theorem findRoute_mem {e : Entry} {r x : Route} (h : e.findRoute r = some x) : x ∈ e.routes := List.mem_of_find?_eq_some h

theorem map_sum_put {t : List Entry} (hs : (t.map (·.name)).Nodup) {e e' : Entry} (hg : get t e'.name = some e) (g : Entry → Nat) :
    ((put t e').map g).sum + g e = (t.map g).sum + g e' := by
  induction t with
  | nil => cases hg
  | cons x t ih =>
    rw [List.map_cons, List.nodup_cons] at hs
    unfold put at *
    simp only [List.map_cons, List.sum_cons]
    by_cases hx : x.name = e'.name
    · have : x = e := by
        unfold get at hg
        rw [List.find?_cons_of_pos (by simpa using hx)] at hg
        exact Option.some.inj hg
      subst this
      rw [if_pos hx]
      have : t.map (fun y => if y.name = e'.name then e' else y) = t := by
        conv => rhs; rw [← List.map_id t]
        refine List.map_congr_left (fun y hy => ?_)
        rw [if_neg]
        · rfl
        · intro hc
          exact hs.1 (by rw [hx, ← hc]; exact List.mem_map_of_mem hy)
      rw [this]
      omega
    · rw [if_neg hx]
      have := ih hs.2 (by
        unfold get at hg ⊢
        rwa [List.find?_cons_of_neg (by simpa using hx)] at hg)
      omega

theorem map_sum_add {t : List Entry} (e : Entry) (g : Entry → Nat) : ((add e t).map g).sum = g e + (t.map g).sum := by
  induction t with
  | nil => rfl
  | cons x t ih =>
    unfold add
    split
    · rfl
    · simp only [List.map_cons, List.sum_cons, ih]
      omega

theorem map_sum_remove {t : List Entry} (hs : (t.map (·.name)).Nodup) {n : Name} {e : Entry} (hg : get t n = some e) (g : Entry → Nat) :
    ((t.filter (fun x => x.name != n)).map g).sum + g e = (t.map g).sum := by
  induction t with
  | nil => cases hg
  | cons x t ih =>
    rw [List.map_cons, List.nodup_cons] at hs
    by_cases hx : x.name = n
    · have : x = e := by
        unfold get at hg
        rw [List.find?_cons_of_pos (by simpa using hx)] at hg
        exact Option.some.inj hg
      subst this
      rw [List.filter_cons_of_neg (by simpa using hx)]
      have : t.filter (fun y => y.name != n) = t := by
        rw [List.filter_eq_self]
        intro y hy
        simp only [bne_iff_ne, ne_eq]
        intro hc
        exact hs.1 (by rw [hx, ← hc]; exact List.mem_map_of_mem hy)
      rw [this, List.map_cons, List.sum_cons]
      omega
    · rw [List.filter_cons_of_pos (by simpa using hx)]
      have := ih hs.2 (by
        unfold get at hg ⊢
        rwa [List.find?_cons_of_neg (by simpa using hx)] at hg)
      simp only [List.map_cons, List.sum_cons]
      omega

theorem routes_get {b : Rib} {n : Name} {e : Entry} (h : get b.table n = some e) : b.routes n = e.routes := by
  unfold Rib.routes; rw [h]

theorem routes_none {b : Rib} {n : Name} (h : get b.table n = none) : b.routes n = [] := by
  unfold Rib.routes; rw [h]

theorem RInv.routes_eq_nil {k : Nat} {b : Rib} (h : RInv k b) {n : Name} : b.routes n = [] ↔ get b.table n = none := by
  constructor
  · intro hr
    cases hg : get b.table n with
    | none => rfl
    | some e => exact absurd (by rw [← routes_get hg]; exact hr) (h.nonempty n e hg)
  · exact routes_none

/-! ### `insert` -/

/-- What `insert` makes of the entry of the name. -/
theorem get_insertExisting {b : Rib} {n : Name} {e : Entry} (hg : get b.table n = some e) (r : Route) (m : Name) :
    get (insertExisting b e r).table m =
      if m = n then some { e with
        routes := Spec.setRoute e.routes r
        nCapture := if (e.findRoute r).isNone && r.capture then (e.nCapture + 1) % W else e.nCapture } else get b.table m := by
  have hn := get_name hg
  unfold insertExisting Entry.insertRoute
  cases hf : e.findRoute r with
  | none =>
    have hany : e.routes.any (fun x => x.face == r.face && x.origin == r.origin) = false := by
      rw [List.any_eq_false]
      intro x hx
      have := List.find?_eq_none.1 hf x hx
      exact this
    simp only [if_true, Spec.setRoute, hany, Option.isNone_none, Bool.true_and, Bool.false_eq_true, if_false]
    rw [get_put]
    show (if m = e.name then _ else _) = _
    rw [hn]
    split
    · rename_i hm
      rw [hm, hg]
      cases r.capture <;> rfl
    · rfl
  | some x =>
    have hany : e.routes.any (fun x => x.face == r.face && x.origin == r.origin) = true := by
      rw [List.any_eq_true]
      have hs : x.same r = true := findRoute_same hf
      exact ⟨x, List.mem_of_find?_eq_some hf, hs⟩
    simp only [Bool.false_eq_true, if_false, Spec.setRoute, hany, if_true, Option.isNone_some, Bool.false_and]
    rw [get_put]
    show (if m = e.name then _ else _) = _
    rw [hn]
    split
    · rename_i hm
      rw [hm, hg]
      rfl
    · rfl

theorem setRoute_ne_nil (l : List Route) (r : Route) : Spec.setRoute l r ≠ [] := by
  unfold Spec.setRoute
  split
  · rename_i h
    intro hc
    rw [List.map_eq_nil_iff] at hc
    subst hc
    cases h
  · simp

theorem setRoute_length (l : List Route) (r : Route) : (Spec.setRoute l r).length ≤ l.length + 1 := by
  unfold Spec.setRoute
  split
  · simp
  · simp

theorem mem_setRoute {l : List Route} {r x : Route} (h : x ∈ Spec.setRoute l r) : x = r ∨ x ∈ l := by
  unfold Spec.setRoute at h
  split at h
  · obtain ⟨y, hy, rfl⟩ := List.mem_map.1 h
    split
    · exact .inl rfl
    · exact .inr hy
  · rcases List.mem_append.1 h with h | h
    · exact .inr h
    · exact .inl (List.mem_singleton.1 h)

theorem setRoute_keys {l : List Route} {r : Route} (h : l.Pairwise (fun a c => a.same c = false)) :
    (Spec.setRoute l r).Pairwise (fun a c => a.same c = false) := by
  unfold Spec.setRoute
  split
  · rw [List.pairwise_map]
    refine h.imp (fun {a c} hac => ?_)
    have ha : ∀ y : Route, (if y.face == r.face && y.origin == r.origin then r else y).same = y.same := by
      intro y
      split
      · rename_i hy
        funext z
        have : y.same r = true := hy
        rw [same_comm y z, same_congr this z, same_comm]
      · rfl
    rw [ha, same_comm, ha, same_comm]
    exact hac
  · rename_i hn
    rw [List.pairwise_append]
    refine ⟨h, List.pairwise_singleton _ _, ?_⟩
    intro a ha c hc
    rw [List.mem_singleton.1 hc]
    rw [Bool.not_eq_true, List.any_eq_false] at hn
    have := hn a ha
    exact Bool.eq_false_iff.2 this

theorem RInv.insertExisting {k : Nat} {b : Rib} (h : RInv k b) {n : Name} {e : Entry} (hg : get b.table n = some e) (r : Route) :
    RInv (k + 1) (insertExisting b e r) := by
  have hn := get_name hg
  have hget := get_insertExisting hg r
  have hnx : (Rib.insertExisting b e r).nextId = b.nextId := by unfold Rib.insertExisting; dsimp only; split <;> rfl
  have hfe : ∀ x, x ∈ b.faceEntries → x ∈ (Rib.insertExisting b e r).faceEntries := by
    intro x hx
    unfold Rib.insertExisting
    dsimp only
    split
    · exact List.mem_append_left _ hx
    · exact hx
  have hfr : ∀ x, x ∈ Spec.setRoute e.routes r → (x.face, e.id) ∈ (Rib.insertExisting b e r).faceEntries := by
    intro x hx
    by_cases hf : e.findRoute r = none
    · rcases mem_setRoute hx with rfl | hx
      · unfold Rib.insertExisting Entry.insertRoute
        simp [hf]
      · exact hfe _ (h.faces n e x hg hx)
    · obtain ⟨y, hy⟩ := Option.ne_none_iff_exists'.1 hf
      rcases mem_setRoute hx with rfl | hx
      · have h1 := List.find?_some hy
        have := h.faces n e y hg (List.mem_of_find?_eq_some hy)
        rw [(same_iff.1 h1).1] at this
        exact hfe _ this
      · exact hfe _ (h.faces n e x hg hx)
  refine ⟨?_, ?_, ?_, ?_, ?_, ?_, ?_, ?_⟩
  · unfold Rib.insertExisting
    dsimp only
    obtain ⟨h1, h2, h3, _⟩ := e.insertRoute_fields r
    split
    · exact h.tree.put hg (by rw [h1]; exact hn) h2 h3
    · exact h.tree.put hg hn rfl rfl
  · intro m x hx
    rw [hget m] at hx
    split at hx
    · rw [← Option.some.inj hx]; exact setRoute_ne_nil _ _
    · exact h.nonempty m x hx
  · intro m x hx
    rw [hget m] at hx
    split at hx
    · rw [← Option.some.inj hx]; exact setRoute_keys (h.keys n e hg)
    · exact h.keys m x hx
  · intro m x hx
    rw [hget m] at hx
    split at hx
    · rw [← Option.some.inj hx]
      have h1 := setRoute_length e.routes r
      have h2 := h.bound n e hg
      dsimp only
      omega
    · exact Nat.le_succ_of_le (h.bound m x hx)
  · intro m x hx
    rw [hnx]
    rw [hget m] at hx
    split at hx
    · rw [← Option.some.inj hx]; exact h.fresh n e hg
    · exact h.fresh m x hx
  · intro m m' x x' hx hx' hid
    rw [hget m] at hx
    rw [hget m'] at hx'
    split at hx
    · rename_i hm
      rw [← Option.some.inj hx] at hid
      split at hx'
      · rename_i hm'; rw [hm, hm']
      · rw [hm]; exact h.ids n m' e x' hg hx' hid
    · split at hx'
      · rename_i hm'
        rw [← Option.some.inj hx'] at hid
        rw [hm']
        exact h.ids m n x e hx hg hid
      · exact h.ids m m' x x' hx hx' hid
  · intro m x y hx hy
    rw [hget m] at hx
    split at hx
    · rw [← Option.some.inj hx] at hy ⊢
      exact hfr y hy
    · exact hfe _ (h.faces m x y hx hy)
  · have hit := h.items
    unfold Rib.insertExisting Entry.insertRoute
    cases hf : e.findRoute r with
    | none =>
      simp only [if_true]
      have := map_sum_put h.tree.sorted.nodup
        (e' := { e with routes := e.routes ++ [r], nCapture := if r.capture then (e.nCapture + 1) % W else e.nCapture }) (e := e)
        (by show get b.table e.name = some e; rw [hn]; exact hg) (fun e => e.routes.length)
      simp only [List.length_append, List.length_singleton] at this
      omega
    | some x =>
      simp only [Bool.false_eq_true, if_false]
      have := map_sum_put h.tree.sorted.nodup (e' := { e with routes := e.routes.map (fun y => if y.same r then r else y) }) (e := e)
        (by show get b.table e.name = some e; rw [hn]; exact hg) (fun e => e.routes.length)
      simp only [List.length_map] at this
      omega

theorem RInv.insertNew {k : Nat} {b : Rib} (h : RInv k b) {n : Name} (hn : get b.table n = none) (r : Route) : RInv (k + 1) (insertNew b n r) := by
  have hget := get_insertNew r hn
  have hfields := fun (e : Entry) => insertNewEntry_same n (parentOf (add (newEntry b.nextId n r) b.table) n) (movedNames (add (newEntry b.nextId n r) b.table) n) e
  have key : ∀ (m : Name) (x : Entry), get (Rib.insertNew b n r).table m = some x →
      (m = n ∧ x.id = b.nextId ∧ x.routes = [r]) ∨ (m ≠ n ∧ ∃ y, get b.table m = some y ∧ x.id = y.id ∧ x.routes = y.routes) := by
    intro m x hx
    rw [hget m] at hx
    by_cases hm : m = n
    · rw [if_pos hm, Option.map_some] at hx
      rw [← Option.some.inj hx]
      exact .inl ⟨hm, (hfields _).1, (hfields _).2.1⟩
    · rw [if_neg hm, Option.map_eq_some_iff] at hx
      obtain ⟨y, hy, rfl⟩ := hx
      exact .inr ⟨hm, y, hy, (hfields _).1, (hfields _).2.1⟩
  refine ⟨h.tree.insertNew r hn, ?_, ?_, ?_, ?_, ?_, ?_, ?_⟩
  · intro m x hx
    rcases key m x hx with ⟨_, _, h3⟩ | ⟨_, y, h2, _, h4⟩
    · rw [h3]; simp
    · rw [h4]; exact h.nonempty m y h2
  · intro m x hx
    rcases key m x hx with ⟨_, _, h3⟩ | ⟨_, y, h2, _, h4⟩
    · rw [h3]; exact List.pairwise_singleton _ _
    · rw [h4]; exact h.keys m y h2
  · intro m x hx
    rcases key m x hx with ⟨_, _, h3⟩ | ⟨_, y, h2, _, h4⟩
    · rw [h3]; simp
    · rw [h4]; exact Nat.le_succ_of_le (h.bound m y h2)
  · intro m x hx
    show x.id < b.nextId + 1
    rcases key m x hx with ⟨_, h2, _⟩ | ⟨_, y, h2, h3, _⟩
    · omega
    · have := h.fresh m y h2; omega
  · intro m m' x x' hx hx' hid
    rcases key m x hx with ⟨h1, h2, _⟩ | ⟨_, y, h2, h3, _⟩
    · rcases key m' x' hx' with ⟨k1, _, _⟩ | ⟨_, y', k2, k3, _⟩
      · rw [h1, k1]
      · have := h.fresh m' y' k2; omega
    · rcases key m' x' hx' with ⟨k1, k2, _⟩ | ⟨_, y', k2, k3, _⟩
      · have := h.fresh m y h2; omega
      · exact h.ids m m' y y' h2 k2 (by omega)
  · intro m x z hx hz
    show _ ∈ b.faceEntries ++ [_]
    rcases key m x hx with ⟨_, h2, h3⟩ | ⟨_, y, h2, h3, h4⟩
    · rw [h3, List.mem_singleton] at hz
      rw [h2, hz, insertRoute_new]
      exact List.mem_append_right _ (List.mem_singleton.2 rfl)
    · rw [h3]
      rw [h4] at hz
      exact List.mem_append_left _ (h.faces m y z h2 hz)
  · rw [insertNew_table, List.map_map]
    have : (List.map ((fun e => e.routes.length) ∘ insertNewEntry n (parentOf (add (newEntry b.nextId n r) b.table) n) (movedNames (add (newEntry b.nextId n r) b.table) n)) (add (newEntry b.nextId n r) b.table))
        = (add (newEntry b.nextId n r) b.table).map (fun e => e.routes.length) := by
      refine List.map_congr_left (fun e _ => ?_)
      show (insertNewEntry n _ _ e).routes.length = _
      rw [(hfields e).2.1]
    rw [this, map_sum_add, ← h.items]
    show b.nItems + 1 = _
    simp only [newEntry, List.length_singleton]
    omega

theorem RInv.insert {k : Nat} {b : Rib} (h : RInv k b) (n : Name) (r : Route) : RInv (k + 1) (insert b n r) := by
  unfold Rib.insert
  cases hg : get b.table n with
  | some e => exact h.insertExisting hg r
  | none => exact h.insertNew hg r

theorem insert_routes {k : Nat} {b : Rib} (_ : RInv k b) (n : Name) (r : Route) (m : Name) :
    (insert b n r).routes m = if m = n then Spec.setRoute (b.routes n) r else b.routes m := by
  unfold Rib.insert
  cases hg : get b.table n with
  | some e =>
    unfold Rib.routes
    dsimp only
    rw [get_insertExisting hg r, hg]
    by_cases hm : m = n
    · rw [if_pos hm, if_pos hm]
    · rw [if_neg hm, if_neg hm]
  | none =>
    unfold Rib.routes
    dsimp only
    rw [get_insertNew r hg, hg]
    by_cases hm : m = n
    · rw [if_pos hm, if_pos hm]
      simp only [Option.map_some]
      rw [(insertNewEntry_same n _ _ _).2.1]
      rfl
    · rw [if_neg hm, if_neg hm]
      cases hm : get b.table m with
      | none => rfl
      | some e =>
        simp only [Option.map_some]
        rw [(insertNewEntry_same n _ _ _).2.1]

theorem insert_isSome {b : Rib} (n : Name) (r : Route) (m : Name) : (get (insert b n r).table m).isSome = true ↔ m = n ∨ (get b.table m).isSome = true := by
  unfold Rib.insert
  cases hg : get b.table n with
  | some e =>
    dsimp only
    rw [get_insertExisting hg r]
    split
    · rename_i hm; simp [hm]
    · rename_i hm; simp [hm]
  | none =>
    dsimp only
    rw [get_insertNew r hg, Option.isSome_map]
    split
    · rename_i hm; simp [hm]
    · rename_i hm; simp [hm]

/-! ### `erase` -/

theorem eraseP_eq_filter {l : List Route} {r : Route} (h : l.Pairwise (fun a c => a.same c = false)) :
    l.eraseP (·.same r) = Spec.dropRoute l r := by
  unfold Spec.dropRoute
  induction l with
  | nil => rfl
  | cons x l ih =>
    obtain ⟨h1, h2⟩ := List.pairwise_cons.1 h
    by_cases hx : x.same r = true
    · rw [List.eraseP_cons_of_pos (p := fun y : Route => y.same r) hx]
      have hx' : (x.face == r.face && x.origin == r.origin) = true := hx
      rw [List.filter_cons_of_neg (by rw [hx']; simp)]
      symm
      rw [List.filter_eq_self]
      intro y hy
      have h3 := h1 y hy
      show (!y.same r) = true
      rw [← same_congr hx, same_comm, h3]
      rfl
    · have hx' : (x.face == r.face && x.origin == r.origin) = false := Bool.eq_false_iff.2 hx
      rw [List.eraseP_cons_of_neg (p := fun y : Route => y.same r) hx, List.filter_cons_of_pos (by rw [hx']; rfl), ih h2]

theorem dropRoute_not_mem {l : List Route} {r : Route} (h : ∀ x ∈ l, x.same r = false) : Spec.dropRoute l r = l := by
  unfold Spec.dropRoute
  rw [List.filter_eq_self]
  intro x hx
  show (!x.same r) = true
  rw [h x hx]; rfl

/-- The table after `erase` of a route that is there. -/
def erasedEntry (e : Entry) (r x : Route) : Entry :=
  { e with routes := e.routes.eraseP (·.same r), nCapture := if x.capture then (e.nCapture + (W - 1)) % W else e.nCapture }

theorem eraseRoute_some {e : Entry} {r x : Route} (h : e.findRoute r = some x) : e.eraseRoute r = erasedEntry e r x := by
  unfold Entry.eraseRoute erasedEntry
  rw [h]

/-- Outcomes of `erase`. -/
theorem erase_cases {k : Nat} {b : Rib} (h : RInv k b) (n : Name) (r : Route) :
    (erase b n r = .ok b ∧ ∀ x ∈ b.routes n, x.same r = false) ∨
    ∃ e x, get b.table n = some e ∧ e.findRoute r = some x ∧
      ((e.routes.eraseP (·.same r) ≠ [] ∧ ∃ b', erase b n r = .ok b' ∧ b'.table = put b.table (erasedEntry e r x) ∧ b'.nItems = b.nItems - 1 ∧
          b'.nextId = b.nextId ∧ b'.faceEntries = (if (erasedEntry e r x).hasFace r.face then b.faceEntries else unregisterFace b.faceEntries r.face e.id) ∧
          b'.log = b.log ++ [.removeRoute n x]) ∨
       (e.routes.eraseP (·.same r) = [] ∧ ∃ b', erase b n r = .ok b' ∧ b'.table = erasedTable (put b.table (erasedEntry e r x)) (erasedEntry e r x) ∧
          b'.nItems = b.nItems - 1 ∧ b'.nextId = b.nextId ∧
          b'.faceEntries = (if (erasedEntry e r x).hasFace r.face then b.faceEntries else unregisterFace b.faceEntries r.face e.id) ∧
          b'.log = b.log ++ [.removeRoute n x] ++ [.eraseEntry n])) := by
  unfold erase
  cases hg : get b.table n with
  | none =>
    left
    refine ⟨rfl, fun x hx => ?_⟩
    rw [routes_none hg] at hx
    cases hx
  | some e =>
    cases hf : e.findRoute r with
    | none =>
      left
      dsimp only
      rw [hf]
      refine ⟨rfl, fun x hx => ?_⟩
      rw [routes_get hg] at hx
      exact Bool.eq_false_iff.2 (List.find?_eq_none.1 hf x hx)
    | some x =>
      right
      refine ⟨e, x, rfl, hf, ?_⟩
      dsimp only
      rw [hf]
      dsimp only
      rw [eraseRoute_some hf]
      have hn := get_name hg
      by_cases hr : e.routes.eraseP (·.same r) = []
      · right
        refine ⟨hr, ?_⟩
        have hr' : (erasedEntry e r x).routes = [] := hr
        rw [if_pos hr']
        have ht : Tree (put b.table (erasedEntry e r x)) := h.tree.put hg hn rfl rfl
        have hg' : get (put b.table (erasedEntry e r x)) n = some (erasedEntry e r x) := by
          rw [get_put, if_pos (by exact hn.symm), hg]; rfl
        rw [eraseEntry_ok (b := { b with
          table := put b.table (erasedEntry e r x)
          nItems := b.nItems - 1
          faceEntries := if (erasedEntry e r x).hasFace r.face then b.faceEntries else unregisterFace b.faceEntries r.face e.id
          log := b.log ++ [.removeRoute n x] }) ht hg']
        refine ⟨_, rfl, rfl, rfl, rfl, rfl, ?_⟩
        show _ ++ [Signal.eraseEntry (erasedEntry e r x).name] = _
        have : (erasedEntry e r x).name = n := hn
        rw [this]
      · left
        refine ⟨hr, ?_⟩
        have hr' : (erasedEntry e r x).routes ≠ [] := hr
        rw [if_neg hr']
        exact ⟨_, rfl, rfl, rfl, rfl, rfl, rfl⟩

theorem mem_unregisterFace {l : List (Nat × Nat)} {f id : Nat} {x : Nat × Nat} (h : x ∈ l) (hx : x ≠ (f, id)) : x ∈ unregisterFace l f id := by
  unfold unregisterFace
  rw [List.mem_eraseP_of_neg]
  · exact h
  · intro hc
    simp only [Bool.and_eq_true, beq_iff_eq] at hc
    exact hx (Prod.ext hc.1 hc.2)

theorem RInv.erase {k : Nat} {b b' : Rib} (h : RInv k b) {n : Name} {r : Route} (he : erase b n r = .ok b') : RInv k b' := by
  rcases erase_cases h n r with ⟨h1, _⟩ | ⟨e, x, hg, hf, hcase⟩
  · rw [h1] at he
    rw [← Except.ok.inj he]; exact h
  have hn := get_name hg
  have hxm := List.mem_of_find?_eq_some hf
  have hxs : x.same r = true := findRoute_same hf
  have hsub : (e.routes.eraseP (·.same r)).Sublist e.routes := List.eraseP_sublist
  have hlen : (e.routes.eraseP (·.same r)).length + 1 = e.routes.length := by
    rw [List.length_eraseP_of_mem (p := fun y : Route => y.same r) hxm hxs]
    have : 0 < e.routes.length := List.length_pos_of_mem hxm
    omega
  have ht : Tree (put b.table (erasedEntry e r x)) := h.tree.put hg hn rfl rfl
  have hgp : ∀ m, get (put b.table (erasedEntry e r x)) m = if m = n then some (erasedEntry e r x) else get b.table m := by
    intro m
    rw [get_put]
    have : (erasedEntry e r x).name = n := hn
    rw [this]
    split
    · rename_i hm; rw [hm, hg]; rfl
    · rfl
  have hsum := map_sum_put h.tree.sorted.nodup (e' := erasedEntry e r x) (e := e) (by show get b.table e.name = some e; rw [hn]; exact hg) (fun e => e.routes.length)
  have hrl : (erasedEntry e r x).routes.length = (e.routes.eraseP (·.same r)).length := rfl
  have hfaces : ∀ (m : Name) (y : Entry) (z : Route), (m ≠ n → get b.table m = some y) → (m = n → y.id = e.id ∧ z ∈ e.routes.eraseP (·.same r)) → (m ≠ n → z ∈ y.routes) →
      (z.face, y.id) ∈ (if (erasedEntry e r x).hasFace r.face then b.faceEntries else unregisterFace b.faceEntries r.face e.id) := by
    intro m y z h1 h2 h3
    by_cases hm : m = n
    · obtain ⟨h4, h5⟩ := h2 hm
      rw [h4]
      have h6 := h.faces n e z hg (hsub.subset h5)
      split
      · exact h6
      · rename_i hnf
        refine mem_unregisterFace h6 (fun hc => hnf ?_)
        rw [Prod.mk.injEq] at hc
        unfold Entry.hasFace
        rw [List.any_eq_true]
        exact ⟨z, h5, by simpa using hc.1⟩
    · have h6 := h.faces m y z (h1 hm) (h3 hm)
      split
      · exact h6
      · refine mem_unregisterFace h6 (fun hc => hm ?_)
        rw [Prod.mk.injEq] at hc
        exact h.ids m n y e (h1 hm) hg hc.2
  rcases hcase with ⟨hne, b2, hb, htab, hni, hnx, hfe, _⟩ | ⟨hnil, b2, hb, htab, hni, hnx, hfe, _⟩
  · rw [hb] at he
    have := Except.ok.inj he
    subst this
    have hgt := hgp
    rw [← htab] at hgt
    refine ⟨by rw [htab]; exact ht, ?_, ?_, ?_, ?_, ?_, ?_, ?_⟩
    · intro m y hy
      rw [hgt] at hy
      split at hy
      · rw [← Option.some.inj hy]; exact hne
      · exact h.nonempty m y hy
    · intro m y hy
      rw [hgt] at hy
      split at hy
      · rw [← Option.some.inj hy]; exact (h.keys n e hg).sublist hsub
      · exact h.keys m y hy
    · intro m y hy
      rw [hgt] at hy
      split at hy
      · rw [← Option.some.inj hy, hrl]
        have := h.bound n e hg
        omega
      · exact h.bound m y hy
    · intro m y hy
      rw [hnx]
      rw [hgt] at hy
      split at hy
      · rw [← Option.some.inj hy]; exact h.fresh n e hg
      · exact h.fresh m y hy
    · intro m m' y y' hy hy' hid
      rw [hgt] at hy hy'
      split at hy
      · rename_i hm
        rw [← Option.some.inj hy] at hid
        split at hy'
        · rename_i hm'; rw [hm, hm']
        · rw [hm]; exact h.ids n m' e y' hg hy' hid
      · split at hy'
        · rename_i hm'
          rw [← Option.some.inj hy'] at hid
          rw [hm']
          exact h.ids m n y e hy hg hid
        · exact h.ids m m' y y' hy hy' hid
    · intro m y z hy hz
      rw [hfe]
      rw [hgt] at hy
      split at hy
      · rename_i hm
        rw [← Option.some.inj hy] at hz ⊢
        exact hfaces m _ z (fun hc => absurd hm hc) (fun _ => ⟨rfl, hz⟩) (fun hc => absurd hm hc)
      · rename_i hm
        exact hfaces m y z (fun _ => hy) (fun hc => absurd hc hm) (fun _ => hz)
    · rw [htab, hni, h.items]
      omega
  · rw [hb] at he
    have := Except.ok.inj he
    subst this
    have hen : (erasedEntry e r x).name = n := hn
    have hgt : ∀ m, get b2.table m = if m = n then none else (get b.table m).map (eraseEntryEntry (erasedEntry e r x)) := by
      intro m
      rw [htab, get_erased, hen]
      split
      · rfl
      · rename_i hm; rw [hgp, if_neg hm]
    have key : ∀ (m : Name) (y : Entry), get b2.table m = some y → m ≠ n ∧ ∃ z, get b.table m = some z ∧ y.id = z.id ∧ y.routes = z.routes := by
      intro m y hy
      rw [hgt] at hy
      split at hy
      · cases hy
      · rename_i hm
        rw [Option.map_eq_some_iff] at hy
        obtain ⟨z, hz, rfl⟩ := hy
        have := eraseEntryEntry_same (erasedEntry e r x) z
        exact ⟨hm, z, hz, this.2.1, this.2.2.1⟩
    refine ⟨by rw [htab]; exact ht.erased (by rw [hgp, if_pos rfl]), ?_, ?_, ?_, ?_, ?_, ?_, ?_⟩
    · intro m y hy
      obtain ⟨_, z, h1, _, h3⟩ := key m y hy
      rw [h3]; exact h.nonempty m z h1
    · intro m y hy
      obtain ⟨_, z, h1, _, h3⟩ := key m y hy
      rw [h3]; exact h.keys m z h1
    · intro m y hy
      obtain ⟨_, z, h1, _, h3⟩ := key m y hy
      rw [h3]; exact h.bound m z h1
    · intro m y hy
      obtain ⟨_, z, h1, h2, _⟩ := key m y hy
      rw [h2, hnx]; exact h.fresh m z h1
    · intro m m' y y' hy hy' hid
      obtain ⟨_, z, h1, h2, _⟩ := key m y hy
      obtain ⟨_, z', h1', h2', _⟩ := key m' y' hy'
      exact h.ids m m' z z' h1 h1' (by omega)
    · intro m y w hy hw
      obtain ⟨hm, z, h1, h2, h3⟩ := key m y hy
      rw [hfe, h2]
      exact hfaces m z w (fun _ => h1) (fun hc => absurd hc hm) (fun _ => by rw [← h3]; exact hw)
    · have h1 := map_sum_remove ht.sorted.nodup (n := n) (e := erasedEntry e r x) (by rw [hgp, if_pos rfl]) (fun e => e.routes.length)
      rw [htab, hni, h.items]
      unfold erasedTable
      rw [List.map_map, hen]
      have h2 : List.map ((fun e => e.routes.length) ∘ eraseEntryEntry (erasedEntry e r x)) (List.filter (fun x => x.name != n) (put b.table (erasedEntry e r x)))
          = (List.filter (fun x => x.name != n) (put b.table (erasedEntry e r x))).map (fun e => e.routes.length) := by
        refine List.map_congr_left (fun y _ => ?_)
        show (eraseEntryEntry _ y).routes.length = _
        rw [(eraseEntryEntry_same _ y).2.2.1]
      rw [h2]
      have h1' : (List.map (fun e => e.routes.length) (List.filter (fun x => x.name != n) (put b.table (erasedEntry e r x)))).sum + (erasedEntry e r x).routes.length = _ := h1
      have h3 : (List.map (fun e => e.routes.length) (put b.table (erasedEntry e r x))).sum + e.routes.length = (List.map (fun e => e.routes.length) b.table).sum + (erasedEntry e r x).routes.length := hsum
      rw [hnil] at hlen
      rw [hnil] at hrl
      simp only [List.length_nil] at hlen hrl
      omega

theorem erase_ok {k : Nat} {b : Rib} (h : RInv k b) (n : Name) (r : Route) : ∃ b', erase b n r = .ok b' := by
  rcases erase_cases h n r with ⟨h1, _⟩ | ⟨e, x, _, _, ⟨_, b', h1, _⟩ | ⟨_, b', h1, _⟩⟩
  · exact ⟨b, h1⟩
  · exact ⟨b', h1⟩
  · exact ⟨b', h1⟩

theorem erase_routes {k : Nat} {b b' : Rib} (h : RInv k b) {n : Name} {r : Route} (he : erase b n r = .ok b') (m : Name) :
    b'.routes m = if m = n then Spec.dropRoute (b.routes n) r else b.routes m := by
  rcases erase_cases h n r with ⟨h1, h2⟩ | ⟨e, x, hg, hf, hcase⟩
  · rw [h1] at he
    rw [← Except.ok.inj he]
    split
    · rename_i hm; rw [hm, dropRoute_not_mem h2]
    · rfl
  have hn := get_name hg
  rcases hcase with ⟨hne, b2, hb, htab, _⟩ | ⟨hnil, b2, hb, htab, _⟩
  · rw [hb] at he
    rw [← Except.ok.inj he]
    have hget : get b2.table m = if m = n then some (erasedEntry e r x) else get b.table m := by
      rw [htab, get_put]
      have : (erasedEntry e r x).name = n := hn
      rw [this]
      split
      · rename_i hm; rw [hm, hg]; rfl
      · rfl
    split
    · rename_i hm
      rw [if_pos hm] at hget
      rw [routes_get hget, routes_get hg]
      exact eraseP_eq_filter (h.keys n e hg)
    · rename_i hm
      rw [if_neg hm] at hget
      unfold Rib.routes
      rw [hget]
  · rw [hb] at he
    rw [← Except.ok.inj he]
    have hen : (erasedEntry e r x).name = n := hn
    have hgt : get b2.table m = if m = n then none else (get b.table m).map (eraseEntryEntry (erasedEntry e r x)) := by
      rw [htab, get_erased, hen]
      split
      · rfl
      · rename_i hm
        rw [get_put, hen, if_neg hm]
    split
    · rename_i hm
      rw [if_pos hm] at hgt
      rw [routes_none hgt, routes_get hg, ← eraseP_eq_filter (h.keys n e hg), hnil]
    · rename_i hm
      rw [if_neg hm] at hgt
      unfold Rib.routes
      rw [hgt]
      cases get b.table m with
      | none => rfl
      | some z =>
        simp only [Option.map_some]
        exact (eraseEntryEntry_same _ z).2.2.1

end Verif.Rib
