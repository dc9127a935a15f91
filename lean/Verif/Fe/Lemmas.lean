import Verif.Fe.Spec

namespace Verif.Fe

variable {P : Type}

/-! ### Lists -/

theorem about_append (id : Nat) (l l' : List (Note P)) : about id (l ++ l') = about id l ++ about id l' := by simp [about]

theorem about_one (id : Nat) (n : Note P) : about id [n] = if n.id = id then [n.kind] else [] := by
  unfold about
  by_cases h : n.id = id <;> simp [h]

theorem about_nil {id : Nat} {l : List (Note P)} (h : ∀ n ∈ l, n.id ≠ id) : about id l = [] := by
  unfold about
  rw [List.filter_eq_nil_iff.mpr (fun n hn => by simpa using h n hn)]
  rfl

theorem follows_congr {A A' B : Nat → Prop} {l : List (Note P)} (h : Follows A l B) (he : ∀ x, A' x ↔ A x) : Follows A' l B := by
  induction h generalizing A' with
  | nil A B h => exact .nil _ _ (fun x => (he x).trans (h x))
  | created A B id p l h1 _ ih => exact .created _ _ _ _ _ (fun h => h1 ((he id).mp h)) (ih (fun x => by rw [he x]))
  | destroyed A B id p l h1 _ ih => exact .destroyed _ _ _ _ _ ((he id).mpr h1) (ih (fun x => by rw [he x]))
  | up A B id p l h1 _ ih => exact .up _ _ _ _ _ ((he id).mpr h1) (ih he)
  | down A B id p l h1 _ ih => exact .down _ _ _ _ _ ((he id).mpr h1) (ih he)

theorem follows_append {A B C : Nat → Prop} {l l' : List (Note P)} (h : Follows A l B) (h' : Follows B l' C) : Follows A (l ++ l') C := by
  induction h with
  | nil A B he => exact follows_congr h' he
  | created A B id p l h1 _ ih => exact .created _ _ _ _ _ h1 (ih h')
  | destroyed A B id p l h1 _ ih => exact .destroyed _ _ _ _ _ h1 (ih h')
  | up A B id p l h1 _ ih => exact .up _ _ _ _ _ h1 (ih h')
  | down A B id p l h1 _ ih => exact .down _ _ _ _ _ h1 (ih h')

/-! ### Invariant -/

/-- The handlers of a face. -/
def handlers (o id : Nat) (known : List Kind) : List Sub :=
  if id = 0 then [] else if known = [] then [⟨o, id, false⟩] else [⟨o, id, false⟩, ⟨o, id, true⟩]

/-- What has been told about a face agrees with its state. -/
def Told (l : List Kind) (st : TState) : Prop := l = [] ∨ ∃ b, Tells l b ∧ (st = .up → b = true) ∧ (st = .down → b = false)

/-- What has been told about a face that is gone, or never was. -/
def ToldGone (l : List Kind) : Prop := l = [] ∨ l = [.destroyed] ∨ ∃ l' b, Tells l' b ∧ l = l' ++ [.destroyed]

structure Inv (s : St P) : Prop where
  last : 255 ≤ s.last
  nodup : (s.table.map (·.1)).Nodup
  le : ∀ x ∈ s.table, x.1 ≤ s.last ∧ x.1 ≠ 0
  obj : ∀ x ∈ s.table, ∃ f, s.objs x.2 = some f ∧ f.id = x.1
  mem : ∀ o f, s.objs o = some f → f.id ≠ 0 → (f.id, o) ∈ s.table
  alive : ∀ o f, s.objs o = some f → f.id ≠ 0 → f.state ≠ .closed
  subs : ∀ o f, s.objs o = some f → f.state ≠ .closed → s.subs.filter (fun x => x.obj == o) = handlers o f.id (about f.id s.out)
  none : ∀ o, s.objs o = none → s.subs.filter (fun x => x.obj == o) = []
  subLe : ∀ x ∈ s.subs, x.id ≤ s.last
  own : ∀ x ∈ s.subs, ∀ y ∈ s.subs, x.manager = true → y.manager = true → x.id = y.id → x.obj = y.obj
  conns : ∀ x ∈ s.subs, x.manager = true → (x.id, x.obj) ∈ s.table
  outLe : ∀ n ∈ s.out, n.id ≤ s.last ∧ n.id ≠ 0
  quiet : s.manager = false → s.out = []
  told : ∀ o f, s.objs o = some f → f.id ≠ 0 → Told (about f.id s.out) f.state
  gone : ∀ id, ¬ s.has id → ToldGone (about id s.out)

theorem get_iff {s : St P} (hn : (s.table.map (·.1)).Nodup) {id o : Nat} : s.get id = some o ↔ (id, o) ∈ s.table := by
  unfold St.get
  rw [Option.map_eq_some_iff]
  constructor
  · rintro ⟨⟨a, b⟩, h1, rfl⟩
    have h2 := List.find?_some h1
    simp at h2
    rw [← h2]
    exact List.mem_of_find?_eq_some h1
  · intro h
    generalize s.table = l at *
    induction l with
    | nil => simp at h
    | cons x l ih =>
      rw [List.find?_cons]
      rw [List.map_cons, List.nodup_cons] at hn
      rcases List.mem_cons.1 h with h | h
      · subst h; exact ⟨(id, o), by simp, rfl⟩
      · have : ¬x.1 = id := fun e => hn.1 (List.mem_map.2 ⟨(id, o), h, e.symm⟩)
        rw [show (x.1 == id) = false by simpa using this]
        exact ih hn.2 h

theorem get_none {s : St P} {id : Nat} : s.get id = none ↔ ¬ s.has id := by
  unfold St.get St.has
  rw [Option.map_eq_none_iff, List.find?_eq_none]
  constructor
  · rintro h ⟨o, ho⟩
    exact h _ ho (by simp)
  · rintro h ⟨a, b⟩ hm hc
    simp at hc
    exact h ⟨b, hc ▸ hm⟩

theorem inv_init : Inv (init : St P) := by
  constructor <;> simp [init, St.has, about, ToldGone]

/-- Two faces in the table with one FaceId are one. -/
theorem same_obj {s : St P} (hi : Inv s) {o o' : Nat} {f f' : Face P} (h : s.objs o = some f) (h' : s.objs o' = some f') (h0 : f.id ≠ 0) (he : f.id = f'.id) :
    o = o' := by
  have h1 := (get_iff hi.nodup).mpr (hi.mem o f h h0)
  have h2 := (get_iff hi.nodup).mpr (hi.mem o' f' h' (he ▸ h0))
  rw [he, h2] at h1
  injection h1 with h1
  exact h1.symm

/-! ### Adding -/

theorem setObj_objs (s : St P) (o x : Nat) (f : Face P) : (s.setObj o f).objs x = if x = o then some f else s.objs x := rfl

/-- What `addImpl` does, for a FaceId that is new. -/
theorem addImpl_eq {s s' : St P} {o id : Nat} {f : Face P} (hf : s.objs o = some f) (hs : ∀ x ∈ s.subs, x.id ≠ id ∨ x.manager = false)
    (h : s.addImpl o id = some s') : ¬ s.has id ∧ s' = { s with
      objs := fun x => if x = o then some { f with id := id } else s.objs x
      table := (id, o) :: s.table
      subs := s.subs ++ (if s.manager then [⟨o, id, false⟩, ⟨o, id, true⟩] else [⟨o, id, false⟩])
      out := s.out ++ (if s.manager then [⟨.created, id, f.props⟩] else []) } := by
  unfold St.addImpl at h
  rw [hf] at h
  dsimp only at h
  split at h
  · cases h
  · rename_i hg
    refine ⟨get_none.mp (by simpa using hg), ?_⟩
    injection h with h
    rw [← h]
    unfold St.afterAdd
    by_cases hm : s.manager = true
    · have hfil : (s.subs ++ [(⟨o, id, false⟩ : Sub)]).filter (fun x => !(x.manager && x.id == id)) = s.subs ++ [⟨o, id, false⟩] := by
        rw [List.filter_eq_self]
        intro x hx
        rcases List.mem_append.mp hx with hx | hx
        · rcases hs x hx with h | h <;> simp [h]
        · rw [List.mem_singleton.mp hx]; rfl
      have hm' : (s.setObj o { f with id := id }).manager = true := hm
      simp only [hm', if_true, hm]
      unfold St.notify
      simp only [setObj_objs, if_true]
      simp only [St.setObj, hfil, List.append_assoc, List.cons_append, List.nil_append]
    · have hm2 : s.manager = false := by simpa using hm
      have hm' : (s.setObj o { f with id := id }).manager = false := hm2
      simp [hm', hm2, St.setObj]

theorem inv_addImpl {s s' : St P} {o id : Nat} {f : Face P} (hi : Inv s) (hf : s.objs o = some f) (h0 : f.id = 0) (hup : f.state ≠ .closed) (hid : id ≠ 0)
    (hl : id ≤ s.last) (hs : ∀ x ∈ s.subs, x.id ≠ id ∨ x.manager = false) (hout : about id s.out = []) (h : s.addImpl o id = some s') : Inv s' := by
  obtain ⟨hn, rfl⟩ := addImpl_eq hf hs h
  have hno : ∀ x f', s.objs x = some f' → f'.id ≠ id := by
    intro x f' hx he
    exact hn ⟨x, he ▸ hi.mem x f' hx (he ▸ hid)⟩
  have hab : ∀ x, x ≠ id → about x (s.out ++ (if s.manager then [(⟨.created, id, f.props⟩ : Note P)] else [])) = about x s.out := by
    intro x hx
    rw [about_append]
    split
    · rw [about_one, if_neg (fun h => hx h.symm), List.append_nil]
    · simp [about]
  have hab' : about id (s.out ++ (if s.manager then [(⟨.created, id, f.props⟩ : Note P)] else [])) = if s.manager then [.created] else [] := by
    rw [about_append, hout, List.nil_append]
    split
    · rw [about_one, if_pos rfl]
    · rfl
  have hsub : ∀ x, x ≠ o → (s.subs ++ (if s.manager then [(⟨o, id, false⟩ : Sub), ⟨o, id, true⟩] else [⟨o, id, false⟩])).filter (fun y => y.obj == x) =
      s.subs.filter (fun y => y.obj == x) := by
    intro x hx
    rw [List.filter_append]
    have : (if s.manager then [(⟨o, id, false⟩ : Sub), ⟨o, id, true⟩] else [⟨o, id, false⟩]).filter (fun y => y.obj == x) = [] := by
      rw [List.filter_eq_nil_iff]
      intro y hy
      have : y.obj = o := by
        split at hy <;> simp at hy
        · rcases hy with rfl | rfl <;> rfl
        · rw [hy]
      simp [this, Ne.symm hx]
    rw [this, List.append_nil]
  refine ⟨hi.last, ?_, ?_, ?_, ?_, ?_, ?_, ?_, ?_, ?_, ?_, ?_, ?_, ?_, ?_⟩
  · dsimp only
    rw [List.map_cons, List.nodup_cons]
    refine ⟨?_, hi.nodup⟩
    intro hm
    obtain ⟨⟨a, b⟩, hp, e⟩ := List.mem_map.1 hm
    dsimp only at e
    subst e
    exact hn ⟨b, hp⟩
  · intro x hx
    rcases List.mem_cons.1 hx with rfl | hx
    · exact ⟨hl, hid⟩
    · exact hi.le x hx
  · intro x hx
    rcases List.mem_cons.1 hx with rfl | hx
    · exact ⟨{ f with id := id }, if_pos rfl, rfl⟩
    · obtain ⟨f', h1, h2⟩ := hi.obj x hx
      have : x.2 ≠ o := by
        intro e
        rw [e, hf] at h1
        injection h1 with h1
        rw [← h1, h0] at h2
        exact (hi.le x hx).2 h2.symm
      exact ⟨f', (if_neg this).trans h1, h2⟩
  · intro x f' hx h1
    dsimp only at hx ⊢
    split at hx
    · rename_i he
      injection hx with hx
      subst hx he
      exact List.mem_cons_self ..
    · exact List.mem_cons_of_mem _ (hi.mem x f' hx h1)
  · intro x f' hx h1
    dsimp only at hx
    split at hx
    · injection hx with hx
      subst hx
      exact hup
    · exact hi.alive x f' hx h1
  · intro x f' hx h1
    dsimp only at hx ⊢
    split at hx
    · rename_i he
      subst he
      injection hx with hx
      subst hx
      dsimp only
      rw [hab', List.filter_append, hi.subs x f hf hup, h0]
      unfold handlers
      rw [if_pos rfl, if_neg hid]
      cases s.manager <;> simp
    · rename_i he
      rw [hsub x he, hi.subs x f' hx h1, hab _ (hno x f' hx)]
  · intro x hx
    dsimp only at hx ⊢
    split at hx
    · cases hx
    · rename_i he
      rw [hsub x he]
      exact hi.none x hx
  · intro x hx
    rcases List.mem_append.1 hx with hx | hx
    · exact hi.subLe x hx
    · have : x.id = id := by
        split at hx <;> simp at hx
        · rcases hx with rfl | rfl <;> rfl
        · rw [hx]
      rw [this]
      exact hl
  · have hnew : ∀ x ∈ (if s.manager then [(⟨o, id, false⟩ : Sub), ⟨o, id, true⟩] else [⟨o, id, false⟩]), x.obj = o ∧ x.id = id := by
      intro x hx
      split at hx <;> simp at hx
      · rcases hx with rfl | rfl <;> exact ⟨rfl, rfl⟩
      · rw [hx]; exact ⟨rfl, rfl⟩
    have hold : ∀ x ∈ s.subs, x.manager = true → x.id ≠ id := by
      intro x hx hm
      rcases hs x hx with h | h
      · exact h
      · rw [hm] at h; cases h
    intro x hx y hy hxm hym he
    rcases List.mem_append.1 hx with hx | hx <;> rcases List.mem_append.1 hy with hy | hy
    · exact hi.own x hx y hy hxm hym he
    · exact absurd (he.trans (hnew y hy).2) (hold x hx hxm)
    · exact absurd (he.symm.trans (hnew x hx).2) (hold y hy hym)
    · rw [(hnew x hx).1, (hnew y hy).1]
  · intro x hx hm
    rcases List.mem_append.1 hx with hx | hx
    · exact List.mem_cons_of_mem _ (hi.conns x hx hm)
    · have : x.obj = o ∧ x.id = id := by
        split at hx <;> simp at hx
        · rcases hx with rfl | rfl <;> exact ⟨rfl, rfl⟩
        · rw [hx]; exact ⟨rfl, rfl⟩
      rw [this.1, this.2]
      exact List.mem_cons_self ..
  · intro n hn
    rcases List.mem_append.1 hn with hn | hn
    · exact hi.outLe n hn
    · have : n.id = id := by
        split at hn <;> simp at hn
        rw [hn]
      rw [this]
      exact ⟨hl, hid⟩
  · intro hm
    dsimp only at hm ⊢
    rw [hm, hi.quiet hm]
    rfl
  · intro x f' hx h1
    dsimp only at hx ⊢
    split at hx
    · injection hx with hx
      subst hx
      dsimp only
      rw [hab']
      split
      · exact .inr ⟨f.state == .up, .created _, (fun h => by rw [show f.state = .up from h]; rfl), (fun h => by rw [show f.state = .down from h]; rfl)⟩
      · exact .inl rfl
    · rw [hab _ (hno x f' hx)]
      exact hi.told x f' hx h1
  · intro x hx
    have h1 : x ≠ id := fun e => hx ⟨o, by rw [e]; exact List.mem_cons_self ..⟩
    dsimp only
    rw [hab x h1]
    exact hi.gone x (fun ⟨o', ho'⟩ => hx ⟨o', List.mem_cons_of_mem _ ho'⟩)

/-! ### Changes of state -/

/-- The notification of a change to `new`. -/
def noteOf (new : TState) : List Kind :=
  match new with
  | .up => [.up]
  | .down => [.down]
  | _ => []

theorem remove_eq {s : St P} (hi : (s.table.map (·.1)).Nodup) {o id : Nat} {f : Face P} (ht : (id, o) ∈ s.table) (hf : s.objs o = some f) :
    s.remove id = some { s with
      objs := fun x => if x = o then some { f with id := 0 } else s.objs x
      table := s.table.filter (fun x => x.1 != id)
      out := s.out ++ (if s.manager then [⟨.destroyed, f.id, f.props⟩] else []) } := by
  unfold St.remove
  rw [(get_iff hi).mpr ht]
  dsimp only
  by_cases hm : s.manager = true
  · rw [if_pos hm, if_pos hm]
    unfold St.notify
    rw [hf]
    dsimp only
    rw [hf]
    rfl
  · rw [if_neg hm, if_neg hm, hf]
    dsimp only
    rw [List.append_nil]
    rfl

/-- What a change of state does: to a face that is not in the table; to one in the table, unless it is the last; and to one that is closed. -/
theorem setState_eq {s s' : St P} {o : Nat} {f : Face P} {new : TState} (hi : Inv s) (hf : s.objs o = some f) (hne : f.state ≠ new) (h : s.setState o new = some s') :
    valid f.state new = true ∧
    ((f.id = 0 ∧ s' = s.setObj o { f with state := new }) ∨
     (f.id ≠ 0 ∧ new ≠ .closed ∧ s' = { s.setObj o { f with state := new } with
        out := s.out ++ (if about f.id s.out = [] then [] else (noteOf new).map (fun k => ⟨k, f.id, f.props⟩)) }) ∨
     (f.id ≠ 0 ∧ new = .closed ∧ ∃ subs, (∀ x, x ≠ o → subs.filter (fun y => y.obj == x) = s.subs.filter (fun y => y.obj == x)) ∧ (∀ x ∈ subs, x ∈ s.subs ∧ (x.manager = true → x.id ≠ f.id)) ∧
        s' = { s with
          objs := fun x => if x = o then some { f with state := .closed, id := 0 } else s.objs x
          table := s.table.filter (fun x => x.1 != f.id)
          subs := subs
          out := s.out ++ (if s.manager then [⟨.destroyed, f.id, f.props⟩] else []) })) := by
  unfold St.setState at h
  rw [hf] at h
  dsimp only at h
  rw [if_neg hne] at h
  split at h
  case isFalse => cases h
  rename_i hv
  refine ⟨hv, ?_⟩
  have hnc : f.state ≠ .closed := by
    intro hc
    rw [hc] at hv
    cases new <;> cases hv
  have hsubs : (s.setObj o { f with state := new }).subs.filter (fun x => x.obj == o) = handlers o f.id (about f.id s.out) := hi.subs o f hf hnc
  rw [hsubs] at h
  by_cases h0 : f.id = 0
  · left
    unfold handlers at h
    rw [if_pos h0] at h
    injection h with h
    exact ⟨h0, h.symm⟩
  right
  have ht := hi.mem o f hf h0
  have hfo : (s.setObj o { f with state := new }).objs o = some { f with state := new } := by rw [setObj_objs, if_pos rfl]
  have htn : ((s.setObj o { f with state := new }).table.map (·.1)).Nodup := hi.nodup
  have hsetset : ∀ g : Face P, (fun x => if x = o then some g else (s.setObj o { f with state := new }).objs x) = fun x => if x = o then some g else s.objs x := by
    intro g
    funext x
    rw [setObj_objs]
    split <;> rfl
  unfold handlers at h
  rw [if_neg h0] at h
  by_cases hc : new = .closed
  · right
    refine ⟨h0, hc, ?_⟩
    subst hc
    by_cases hk : about f.id s.out = []
    · rw [if_pos hk] at h
      refine ⟨s.subs, fun x _ => rfl, fun x hx => ⟨hx, fun hm he => ?_⟩, ?_⟩
      · have h1 := hi.conns x hx hm
        rw [he] at h1
        have h2 : x.obj = o := by
          have h3 := (get_iff hi.nodup).mpr h1
          rw [(get_iff hi.nodup).mpr ht] at h3
          injection h3 with h3
          exact h3.symm
        have h4 : x ∈ s.subs.filter (fun x => x.obj == o) := List.mem_filter.mpr ⟨hx, by simpa using h2⟩
        rw [hi.subs o f hf hnc] at h4
        unfold handlers at h4
        rw [if_neg h0, if_pos hk, List.mem_singleton] at h4
        rw [h4] at hm
        cases hm
      unfold St.handleAll St.handle at h
      rw [if_neg (by dsimp only; decide), if_pos rfl, remove_eq htn ht hfo] at h
      dsimp only [Option.bind_some, St.handleAll] at h
      injection h with h
      rw [← h, hsetset]
      rfl
    · rw [if_neg hk] at h
      refine ⟨s.subs.filter (fun y => !(y.manager && y.id == f.id)), ?_, fun x hx => ⟨(List.mem_filter.mp hx).1, fun hm he => ?_⟩, ?_⟩
      · intro x hx
        rw [List.filter_filter]
        refine List.filter_congr (fun y hy => ?_)
        by_cases hy2 : y.obj = x
        · have hmine : (⟨o, f.id, true⟩ : Sub) ∈ s.subs := by
            have : (⟨o, f.id, true⟩ : Sub) ∈ s.subs.filter (fun x => x.obj == o) := by
              rw [hi.subs o f hf hnc]
              unfold handlers
              rw [if_neg h0, if_neg hk]
              simp
            exact (List.mem_filter.mp this).1
          have hno : ¬ (y.manager = true ∧ y.id = f.id) := fun hb => hx (by rw [← hy2]; exact hi.own y hy _ hmine hb.1 rfl hb.2)
          cases hm : y.manager <;> simp_all
        · simp [hy2]
      · have h1 := (List.mem_filter.mp hx).2
        rw [hm, he] at h1
        simp at h1
      · unfold St.handleAll St.handle at h
        rw [if_neg (by dsimp only; decide), if_pos rfl, remove_eq htn ht hfo] at h
        dsimp only [Option.bind_some, St.handleAll, St.handle] at h
        rw [if_pos rfl] at h
        injection h with h
        rw [← h, hsetset]
        rfl
  · left
    refine ⟨h0, hc, ?_⟩
    by_cases hk : about f.id s.out = []
    · rw [if_pos hk] at h
      rw [if_pos hk]
      unfold St.handleAll St.handle at h
      rw [if_neg (by dsimp only; decide), if_neg hc] at h
      dsimp only [Option.bind_some, St.handleAll] at h
      injection h with h
      rw [← h, List.append_nil]
      rfl
    · rw [if_neg hk] at h
      rw [if_neg hk]
      unfold St.handleAll St.handle at h
      rw [if_neg (by dsimp only; decide), if_neg hc] at h
      dsimp only [Option.bind_some, St.handleAll, St.handle] at h
      rw [if_pos rfl] at h
      unfold St.notify at h
      rw [hfo] at h
      unfold noteOf
      cases new <;> first | exact absurd rfl hc | (dsimp only [Option.bind_some, St.handleAll] at h; injection h with h; rw [← h]; simp [St.setObj])

theorem tells_ne {l : List Kind} {b : Bool} (h : Tells l b) : l ≠ [] := by cases h <;> simp

theorem inv_setState {s s' : St P} {o : Nat} {new : TState} (hi : Inv s) (h : s.setState o new = some s') : Inv s' := by
  cases hf : s.objs o with
  | none => unfold St.setState at h; rw [hf] at h; cases h
  | some f =>
  by_cases hne : f.state = new
  · unfold St.setState at h
    rw [hf] at h
    dsimp only at h
    rw [if_pos hne] at h
    injection h with h
    exact h ▸ hi
  have hnc : f.state ≠ .closed := by
    intro hc
    have hv := (setState_eq hi hf hne h).1
    rw [hc] at hv
    cases new <;> cases hv
  obtain ⟨hv, ⟨h0, rfl⟩ | ⟨h0, hc, rfl⟩ | ⟨h0, hc, subs, hs1, hs2, rfl⟩⟩ := setState_eq hi hf hne h
  · -- not in the table
    refine ⟨hi.last, hi.nodup, hi.le, ?_, ?_, ?_, ?_, ?_, hi.subLe, hi.own, hi.conns, hi.outLe, hi.quiet, ?_, hi.gone⟩
    · intro x hx
      obtain ⟨g, h1, h2⟩ := hi.obj x hx
      refine ⟨g, ?_, h2⟩
      rw [setObj_objs, if_neg, h1]
      intro he
      rw [he, hf] at h1
      injection h1 with h1
      rw [← h1, h0] at h2
      exact (hi.le x hx).2 h2.symm
    · intro x g hx hg
      rw [setObj_objs] at hx
      split at hx
      · injection hx with hx
        subst hx
        exact absurd h0 hg
      · exact hi.mem x g hx hg
    · intro x g hx hg
      rw [setObj_objs] at hx
      split at hx
      · injection hx with hx
        subst hx
        exact absurd h0 hg
      · exact hi.alive x g hx hg
    · intro x g hx hg
      rw [setObj_objs] at hx
      split at hx
      · rename_i he
        injection hx with hx
        subst hx he
        exact hi.subs x f hf hnc
      · exact hi.subs x g hx hg
    · intro x hx
      rw [setObj_objs] at hx
      split at hx
      · cases hx
      · exact hi.none x hx
    · intro x g hx hg
      rw [setObj_objs] at hx
      split at hx
      · injection hx with hx
        subst hx
        exact absurd h0 hg
      · exact hi.told x g hx hg
  · -- in the table, and stays
    have ht := hi.mem o f hf h0
    have hab : ∀ x, x ≠ f.id → about x (s.out ++ (if about f.id s.out = [] then [] else (noteOf new).map (fun k => (⟨k, f.id, f.props⟩ : Note P)))) = about x s.out := by
      intro x hx
      rw [about_append, about_nil (l := if about f.id s.out = [] then [] else (noteOf new).map (fun k => (⟨k, f.id, f.props⟩ : Note P))), List.append_nil]
      intro n hn
      split at hn
      · cases hn
      · obtain ⟨k, -, rfl⟩ := List.mem_map.1 hn
        exact Ne.symm hx
    have hab' : about f.id (s.out ++ (if about f.id s.out = [] then [] else (noteOf new).map (fun k => (⟨k, f.id, f.props⟩ : Note P)))) =
        if about f.id s.out = [] then [] else about f.id s.out ++ noteOf new := by
      rw [about_append]
      split
      · rename_i hk
        rw [hk]; rfl
      · congr 1
        cases new <;> simp [noteOf, about]
    have hnil : about f.id (s.out ++ (if about f.id s.out = [] then [] else (noteOf new).map (fun k => (⟨k, f.id, f.props⟩ : Note P)))) = [] ↔ about f.id s.out = [] := by
      rw [hab']
      split
      · simp_all
      · simp_all
    have hid : ∀ x g, x ≠ o → s.objs x = some g → g.id ≠ f.id := fun x g hx hg he =>
      hx (same_obj hi hf hg h0 he.symm).symm
    refine ⟨hi.last, hi.nodup, hi.le, ?_, ?_, ?_, ?_, ?_, hi.subLe, hi.own, hi.conns, ?_, ?_, ?_, ?_⟩
    · intro x hx
      obtain ⟨g, h1, h2⟩ := hi.obj x hx
      by_cases he : x.2 = o
      · rw [he, hf] at h1
        injection h1 with h1
        exact ⟨{ f with state := new }, if_pos he, by rw [← h2, ← h1]⟩
      · exact ⟨g, (if_neg he).trans h1, h2⟩
    · intro x g hx hg
      change (if x = o then _ else _) = _ at hx
      split at hx
      · rename_i he
        injection hx with hx
        subst hx he
        exact ht
      · exact hi.mem x g hx hg
    · intro x g hx hg
      change (if x = o then _ else _) = _ at hx
      split at hx
      · injection hx with hx
        subst hx
        exact hc
      · exact hi.alive x g hx hg
    · intro x g hx hg
      change (if x = o then _ else _) = _ at hx
      split at hx
      · rename_i he
        injection hx with hx
        subst hx he
        refine (hi.subs x f hf hnc).trans ?_
        unfold handlers
        dsimp only
        rw [if_neg h0, if_neg h0]
        by_cases hk : about f.id s.out = []
        · rw [if_pos hk, if_pos (hnil.mpr hk)]
        · rw [if_neg hk, if_neg (fun h => hk (hnil.mp h))]
      · rename_i he
        refine (hi.subs x g hx hg).trans ?_
        dsimp only
        rw [hab _ (hid x g he hx)]
    · intro x hx
      change (if x = o then _ else _) = _ at hx
      split at hx
      · cases hx
      · exact hi.none x hx
    · intro n hn
      rcases List.mem_append.1 hn with hn | hn
      · exact hi.outLe n hn
      · have : n.id = f.id := by
          split at hn
          · cases hn
          · obtain ⟨k, -, rfl⟩ := List.mem_map.1 hn
            rfl
        rw [this]
        exact hi.le _ ht
    · intro hm
      have := hi.quiet hm
      dsimp only
      rw [this, if_pos (by rfl)]
      rfl
    · intro x g hx hg
      change (if x = o then _ else _) = _ at hx
      split at hx
      · injection hx with hx
        subst hx
        dsimp only
        rw [hab']
        split
        · exact .inl rfl
        · rename_i hk
          rcases hi.told o f hf h0 with h1 | ⟨b, h1, h2, h3⟩
          · exact absurd h1 hk
          · right
            cases hst : f.state <;> rw [hst] at hv hne h2 h3 <;> cases new <;> first
              | (exact absurd rfl hne)
              | (exact absurd rfl hc)
              | (cases hv; done)
              | (exact ⟨false, .down _ (h2 rfl ▸ h1), (fun h => by cases h), fun _ => rfl⟩)
              | (exact ⟨true, .up _ (h3 rfl ▸ h1), fun _ => rfl, (fun h => by cases h)⟩)
              | (exact ⟨b, by simpa [noteOf] using h1, (fun h => by cases h), (fun h => by cases h)⟩)
      · rename_i he
        dsimp only
        rw [hab _ (hid x g he hx)]
        exact hi.told x g hx hg
    · intro x hx
      have : x ≠ f.id := fun e => hx ⟨o, e ▸ ht⟩
      dsimp only
      rw [hab x this]
      exact hi.gone x hx
  · -- closed
    have ht := hi.mem o f hf h0
    have hab : ∀ x, x ≠ f.id → about x (s.out ++ (if s.manager then [(⟨.destroyed, f.id, f.props⟩ : Note P)] else [])) = about x s.out := by
      intro x hx
      rw [about_append]
      split
      · rw [about_one, if_neg (fun h => hx h.symm), List.append_nil]
      · simp [about]
    have hid : ∀ x g, x ≠ o → s.objs x = some g → g.id ≠ f.id := fun x g hx hg he =>
      hx (same_obj hi hf hg h0 he.symm).symm
    have hmem : ∀ x, x ∈ s.table.filter (fun x => x.1 != f.id) ↔ x ∈ s.table ∧ x.1 ≠ f.id := by
      intro x
      rw [List.mem_filter]
      simp
    refine ⟨hi.last, hi.nodup.sublist (List.Sublist.map _ List.filter_sublist), ?_, ?_, ?_, ?_, ?_, ?_, ?_, ?_, ?_, ?_, ?_, ?_, ?_⟩
    · exact fun x hx => hi.le x ((hmem x).mp hx).1
    · intro x hx
      obtain ⟨h1, h2⟩ := (hmem x).mp hx
      obtain ⟨g, h3, h4⟩ := hi.obj x h1
      refine ⟨g, (if_neg ?_).trans h3, h4⟩
      intro he
      rw [he, hf] at h3
      injection h3 with h3
      exact h2 (by rw [← h4, h3])
    · intro x g hx hg
      dsimp only at hx
      split at hx
      · injection hx with hx
        subst hx
        exact absurd rfl hg
      · rename_i he
        exact (hmem _).mpr ⟨hi.mem x g hx hg, hid x g he hx⟩
    · intro x g hx hg
      dsimp only at hx
      split at hx
      · injection hx with hx
        subst hx
        exact absurd rfl hg
      · exact hi.alive x g hx hg
    · intro x g hx hg
      dsimp only at hx ⊢
      split at hx
      · injection hx with hx
        subst hx
        exact absurd rfl hg
      · rename_i he
        rw [hs1 x he, hi.subs x g hx hg, hab _ (hid x g he hx)]
    · intro x hx
      dsimp only at hx ⊢
      split at hx
      · cases hx
      · rename_i he
        rw [hs1 x he]
        exact hi.none x hx
    · exact fun x hx => hi.subLe x (hs2 x hx).1
    · exact fun x hx y hy => hi.own x (hs2 x hx).1 y (hs2 y hy).1
    · exact fun x hx hm => (hmem _).mpr ⟨hi.conns x (hs2 x hx).1 hm, (hs2 x hx).2 hm⟩
    · intro n hn
      rcases List.mem_append.1 hn with hn | hn
      · exact hi.outLe n hn
      · have : n.id = f.id := by
          split at hn <;> simp at hn
          rw [hn]
        rw [this]
        exact hi.le _ ht
    · intro hm
      dsimp only at hm ⊢
      rw [hm, hi.quiet hm]
      rfl
    · intro x g hx hg
      dsimp only at hx ⊢
      split at hx
      · injection hx with hx
        subst hx
        exact absurd rfl hg
      · rename_i he
        rw [hab _ (hid x g he hx)]
        exact hi.told x g hx hg
    · intro x hx
      dsimp only
      by_cases he : x = f.id
      · subst he
        rw [about_append]
        have h2 : about f.id (if s.manager then [(⟨.destroyed, f.id, f.props⟩ : Note P)] else []) = if s.manager then [.destroyed] else [] := by
          split
          · rw [about_one, if_pos rfl]
          · rfl
        rw [h2]
        by_cases hm : s.manager = true
        · rw [if_pos hm]
          rcases hi.told o f hf h0 with h1 | ⟨b, h1, -⟩
          · exact .inr (.inl (by rw [h1]; rfl))
          · exact .inr (.inr ⟨_, b, h1, rfl⟩)
        · rw [if_neg hm, hi.quiet (by simpa using hm)]
          exact .inl rfl
      · rw [hab x he]
        exact hi.gone x (fun ⟨o', h1⟩ => hx ⟨o', (hmem _).mpr ⟨h1, he⟩⟩)

/-! ### All steps -/

theorem add_cases {s s' : St P} {o : Nat} (hi : Inv s) (hu : AddsOpen s (.add o)) (h : s.add o = some s') :
    s' = s ∨ ∃ f, s.objs o = some f ∧ f.id = 0 ∧ f.state ≠ .closed ∧ ({ s with last := s.last + 1 } : St P).addImpl o (s.last + 1) = some s' := by
  unfold St.add at h
  cases hf : s.objs o with
  | none => rw [hf] at h; cases h
  | some f =>
    rw [hf] at h
    dsimp only at h
    split at h
    · injection h with h
      exact .inl h.symm
    · rename_i hg
      split at h
      · cases h
      · have h0 : f.id = 0 := by
          by_cases h0 : f.id = 0
          · exact h0
          · refine absurd ⟨h0, ?_⟩ hg
            rw [(get_iff hi.nodup).mpr (hi.mem o f hf h0)]
            rfl
        refine .inr ⟨f, rfl, h0, ?_, h⟩
        rcases hu f hf with h1 | h1
        · exact absurd h0 h1
        · exact h1

theorem inv_bump {s : St P} (hi : Inv s) : Inv ({ s with last := s.last + 1 } : St P) :=
  ⟨Nat.le_succ_of_le hi.last, hi.nodup, fun x hx => ⟨Nat.le_succ_of_le (hi.le x hx).1, (hi.le x hx).2⟩, hi.obj, hi.mem, hi.alive, hi.subs, hi.none,
    fun x hx => Nat.le_succ_of_le (hi.subLe x hx), hi.own, hi.conns, fun n hn => ⟨Nat.le_succ_of_le (hi.outLe n hn).1, (hi.outLe n hn).2⟩, hi.quiet, hi.told, hi.gone⟩

theorem addReserved_cases {s s' : St P} {o id : Nat} (hu : AddsOpen s (.addReserved o id)) (h : s.addReserved o id = some s') :
    ∃ f, s.objs o = some f ∧ f.id = 0 ∧ f.state ≠ .closed ∧ id ≤ 255 ∧ id ≠ 0 ∧ s.manager = false ∧ s.addImpl o id = some s' := by
  unfold St.addReserved at h
  cases hf : s.objs o with
  | none => rw [hf] at h; cases h
  | some f =>
    rw [hf] at h
    dsimp only at h
    split at h
    · rename_i hc
      refine ⟨f, rfl, hc.1, ?_, hc.2.1, hc.2.2.1, hc.2.2.2, h⟩
      rcases hu f hf with h1 | h1
      · exact absurd hc.1 h1
      · exact h1
    · cases h

/-- Without a manager there are no handlers of a manager. -/
theorem no_manager {s : St P} (hi : Inv s) (hm : s.manager = false) : ∀ x ∈ s.subs, x.manager = false := by
  intro x hx
  cases hxm : x.manager with
  | false => rfl
  | true =>
    obtain ⟨f, h1, h2⟩ := hi.obj _ (hi.conns x hx hxm)
    have h0 : f.id ≠ 0 := by rw [h2]; exact (hi.le _ (hi.conns x hx hxm)).2
    have h3 : x ∈ s.subs.filter (fun y => y.obj == x.obj) := List.mem_filter.mpr ⟨hx, by simp⟩
    rw [hi.subs _ f h1 (hi.alive _ f h1 h0), hi.quiet hm] at h3
    unfold handlers at h3
    rw [if_neg h0, if_pos (show about f.id ([] : List (Note P)) = [] from rfl), List.mem_singleton] at h3
    rw [h3] at hxm
    cases hxm

theorem inv_step {s s' : St P} {e : Ev P} (hi : Inv s) (hu : AddsOpen s e) (h : s.step e = some s') : Inv s' := by
  cases e with
  | make o p =>
    unfold St.step at h
    dsimp only at h
    split at h
    · cases h
    · rename_i hn
      have hn : s.objs o = none := by simpa using hn
      injection h with h
      subst h
      refine ⟨hi.last, hi.nodup, hi.le, ?_, ?_, ?_, ?_, ?_, hi.subLe, hi.own, hi.conns, hi.outLe, hi.quiet, ?_, hi.gone⟩
      · intro x hx
        obtain ⟨g, h1, h2⟩ := hi.obj x hx
        refine ⟨g, ?_, h2⟩
        rw [setObj_objs, if_neg, h1]
        intro he
        rw [he, hn] at h1
        cases h1
      all_goals intro x
      · intro g hx hg
        rw [setObj_objs] at hx
        split at hx
        · injection hx with hx
          subst hx
          exact absurd rfl hg
        · exact hi.mem x g hx hg
      · intro g hx hg
        rw [setObj_objs] at hx
        split at hx
        · injection hx with hx
          subst hx
          exact absurd rfl hg
        · exact hi.alive x g hx hg
      · intro g hx hg
        rw [setObj_objs] at hx
        split at hx
        · rename_i he
          injection hx with hx
          subst hx he
          exact hi.none x hn
        · exact hi.subs x g hx hg
      · intro hx
        rw [setObj_objs] at hx
        split at hx
        · cases hx
        · exact hi.none x hx
      · intro g hx hg
        rw [setObj_objs] at hx
        split at hx
        · injection hx with hx
          subst hx
          exact absurd rfl hg
        · exact hi.told x g hx hg
  | add o =>
    rcases add_cases hi hu h with rfl | ⟨f, h1, h2, h3, h4⟩
    · exact hi
    · refine inv_addImpl (inv_bump hi) h1 h2 h3 (Nat.succ_ne_zero _) (Nat.le_refl _) ?_ ?_ h4
      · exact fun x hx => .inl (Nat.ne_of_lt (Nat.lt_succ_of_le (hi.subLe x hx)))
      · exact about_nil (fun n hn => Nat.ne_of_lt (Nat.lt_succ_of_le (hi.outLe n hn).1))
  | addReserved o id =>
    obtain ⟨f, h1, h2, h3, h4, h5, h6, h7⟩ := addReserved_cases hu h
    refine inv_addImpl hi h1 h2 h3 h5 (Nat.le_trans h4 hi.last) (fun x hx => .inr (no_manager hi h6 x hx)) ?_ h7
    rw [hi.quiet h6]
    rfl
  | start =>
    unfold St.step at h
    dsimp only at h
    split at h
    · cases h
    · injection h with h
      subst h
      exact ⟨hi.last, hi.nodup, hi.le, hi.obj, hi.mem, hi.alive, hi.subs, hi.none, hi.subLe, hi.own, hi.conns, hi.outLe, (fun h => by cases h), hi.told, hi.gone⟩
  | setState o new => exact inv_setState hi h
  | setProps o p =>
    unfold St.step at h
    dsimp only at h
    split at h
    · cases h
    · rename_i f hf
      injection h with h
      subst h
      refine ⟨hi.last, hi.nodup, hi.le, ?_, ?_, ?_, ?_, ?_, hi.subLe, hi.own, hi.conns, hi.outLe, hi.quiet, ?_, hi.gone⟩
      · intro x hx
        obtain ⟨g, h1, h2⟩ := hi.obj x hx
        by_cases he : x.2 = o
        · rw [he, hf] at h1
          injection h1 with h1
          exact ⟨{ f with props := p }, if_pos he, by rw [← h2, ← h1]⟩
        · exact ⟨g, (if_neg he).trans h1, h2⟩
      all_goals intro x
      · intro g hx hg
        rw [setObj_objs] at hx
        split at hx
        · rename_i he
          injection hx with hx
          subst hx he
          exact hi.mem x f hf hg
        · exact hi.mem x g hx hg
      · intro g hx hg
        rw [setObj_objs] at hx
        split at hx
        · injection hx with hx
          subst hx
          exact hi.alive o f hf hg
        · exact hi.alive x g hx hg
      · intro g hx hg
        rw [setObj_objs] at hx
        split at hx
        · rename_i he
          injection hx with hx
          subst hx he
          exact hi.subs x f hf hg
        · exact hi.subs x g hx hg
      · intro hx
        rw [setObj_objs] at hx
        split at hx
        · cases hx
        · exact hi.none x hx
      · intro g hx hg
        rw [setObj_objs] at hx
        split at hx
        · injection hx with hx
          subst hx
          exact hi.told o f hf hg
        · exact hi.told x g hx hg

theorem Reach.inv {s : St P} (h : Reach s) : Inv s := by
  induction h with
  | init => exact inv_init
  | step s s' e _ hu hs ih => exact inv_step ih hu hs

/-- What one step tells, with the manager there. -/
theorem step_tells {s s' : St P} {e : Ev P} (hi : Inv s) (hu : AddsOpen s e) (hm : s.manager = true) (h : s.step e = some s') :
    s'.manager = true ∧ ∃ l, s'.out = s.out ++ l ∧ Follows s.has l s'.has ∧
      ∀ n ∈ l, ∃ o f, ((n.id, o) ∈ s.table ∨ (n.id, o) ∈ s'.table) ∧ s.objs o = some f ∧ n.props = f.props := by
  cases e with
  | make o p =>
    unfold St.step at h
    dsimp only at h
    split at h
    · cases h
    · injection h with h
      subst h
      exact ⟨hm, [], (List.append_nil _).symm, .nil _ _ (fun _ => Iff.rfl), (fun _ h => nomatch h)⟩
  | add o =>
    rcases add_cases hi hu h with rfl | ⟨f, h1, h2, h3, h4⟩
    · exact ⟨hm, [], (List.append_nil _).symm, .nil _ _ (fun _ => Iff.rfl), (fun _ h => nomatch h)⟩
    · obtain ⟨h5, rfl⟩ := addImpl_eq (s := ({ s with last := s.last + 1 } : St P)) h1
        (fun x hx => .inl (Nat.ne_of_lt (Nat.lt_succ_of_le (hi.subLe x hx)))) h4
      refine ⟨hm, [⟨.created, s.last + 1, f.props⟩], by dsimp only; rw [if_pos hm], ?_, ?_⟩
      · refine .created _ _ _ _ _ h5 (.nil _ _ (fun x => ?_))
        unfold St.has
        dsimp only
        constructor
        · rintro (⟨o', h⟩ | rfl)
          · exact ⟨o', List.mem_cons_of_mem _ h⟩
          · exact ⟨o, List.mem_cons_self ..⟩
        · rintro ⟨o', h⟩
          rcases List.mem_cons.1 h with h | h
          · injection h with h _
            exact .inr h
          · exact .inl ⟨o', h⟩
      · intro n hn
        rw [List.mem_singleton.1 hn]
        exact ⟨o, f, .inr (List.mem_cons_self ..), h1, rfl⟩
  | addReserved o id =>
    obtain ⟨f, h1, h2, h3, h4, h5, h6, h7⟩ := addReserved_cases hu h
    rw [hm] at h6
    cases h6
  | start =>
    unfold St.step at h
    dsimp only at h
    rw [if_pos hm] at h
    cases h
  | setState o new =>
    have h : s.setState o new = some s' := h
    cases hf : s.objs o with
    | none => unfold St.setState at h; rw [hf] at h; cases h
    | some f =>
    by_cases hne : f.state = new
    · unfold St.setState at h
      rw [hf] at h
      dsimp only at h
      rw [if_pos hne] at h
      injection h with h
      subst h
      exact ⟨hm, [], (List.append_nil _).symm, .nil _ _ (fun _ => Iff.rfl), (fun _ h => nomatch h)⟩
    obtain ⟨hv, ⟨h0, rfl⟩ | ⟨h0, hc, rfl⟩ | ⟨h0, hc, subs, hs1, hs2, rfl⟩⟩ := setState_eq hi hf hne h
    · exact ⟨hm, [], (List.append_nil _).symm, .nil _ _ (fun _ => Iff.rfl), (fun _ h => nomatch h)⟩
    · have ht := hi.mem o f hf h0
      refine ⟨hm, _, rfl, ?_, ?_⟩
      · have hh : ∀ x, s.has x ↔ St.has ({ s.setObj o { f with state := new } with
            out := s.out ++ (if about f.id s.out = [] then [] else (noteOf new).map (fun k => ⟨k, f.id, f.props⟩)) } : St P) x := fun _ => Iff.rfl
        split
        · exact .nil _ _ (fun _ => Iff.rfl)
        · cases new
          · exact .up _ _ _ _ _ ⟨o, ht⟩ (.nil _ _ (fun _ => Iff.rfl))
          · exact .down _ _ _ _ _ ⟨o, ht⟩ (.nil _ _ (fun _ => Iff.rfl))
          · exact .nil _ _ (fun _ => Iff.rfl)
          · exact .nil _ _ (fun _ => Iff.rfl)
          · exact .nil _ _ (fun _ => Iff.rfl)
      · intro n hn
        split at hn
        · cases hn
        · obtain ⟨k, -, rfl⟩ := List.mem_map.1 hn
          exact ⟨o, f, .inl ht, hf, rfl⟩
    · have ht := hi.mem o f hf h0
      refine ⟨hm, [⟨.destroyed, f.id, f.props⟩], by dsimp only; rw [if_pos hm], ?_, ?_⟩
      · refine .destroyed _ _ _ _ _ ⟨o, ht⟩ (.nil _ _ (fun x => ?_))
        unfold St.has
        dsimp only
        constructor
        · rintro ⟨⟨o', h⟩, hx⟩
          exact ⟨o', List.mem_filter.mpr ⟨h, by simpa using hx⟩⟩
        · rintro ⟨o', h⟩
          obtain ⟨h1, h2⟩ := List.mem_filter.mp h
          exact ⟨⟨o', h1⟩, by simpa using h2⟩
      · intro n hn
        rw [List.mem_singleton.1 hn]
        exact ⟨o, f, .inl ht, hf, rfl⟩
  | setProps o p =>
    unfold St.step at h
    dsimp only at h
    split at h
    · cases h
    · injection h with h
      subst h
      exact ⟨hm, [], (List.append_nil _).symm, .nil _ _ (fun _ => Iff.rfl), (fun _ h => nomatch h)⟩

end Verif.Fe
