import Verif.Packet

/-
Model of daemon/fw/face-table.cpp. Face objects are numbered; `ids o` is `Face::getId()` of object `o`. FaceIds are natural numbers, so the
64-bit counter does not wrap. `log` is a ghost log of the signals afterAdd and beforeRemove. `none` is a failed assertion.
Signal handlers, which must not touch the table, are not part of the model (C24, C25 are about what they do).
-/
namespace Verif.Ft

abbrev Obj := Nat

/-- face-common.hpp:51-59 -/
abbrev INVALID_FACEID : Nat := 0
abbrev FACEID_RESERVED_MAX : Nat := 255

inductive Ev
  | added (o : Obj) (id : Nat)
  | removed (o : Obj) (id : Nat)
deriving DecidableEq, Repr

/-- face-table.hpp:100-104; `subs` are the connections made by `connectFaceClosedSignal` (channel.cpp:45-53). -/
structure Ft where
  last : Nat := FACEID_RESERVED_MAX
  faces : List (Nat × Obj) := []
  ids : Obj → Nat := fun _ => INVALID_FACEID
  closed : Obj → Bool := fun _ => false
  subs : List (Obj × Nat) := []
  log : List Ev := []

/-- `get` (face-table.cpp:37-42) -/
def Ft.get (s : Ft) (id : Nat) : Option Obj := (s.faces.find? (·.1 == id)).map (·.2)

/-- `size` (face-table.cpp:44-48) -/
def Ft.size (s : Ft) : Nat := s.faces.length

/-- `addImpl` (face-table.cpp:71-86) -/
def Ft.addImpl (s : Ft) (o : Obj) (id : Nat) : Option Ft :=
  if (s.get id).isSome then none
  else some { s with
    faces := (id, o) :: s.faces
    ids := fun x => if x = o then id else s.ids x
    subs := s.subs ++ [(o, id)]
    log := s.log ++ [.added o id] }

/-- `add` (face-table.cpp:50-61) -/
def Ft.add (s : Ft) (o : Obj) : Option Ft :=
  if s.ids o ≠ INVALID_FACEID ∧ (s.get (s.ids o)).isSome then some s
  else if s.last + 1 ≤ FACEID_RESERVED_MAX then none
  else { s with last := s.last + 1 }.addImpl o (s.last + 1)

/-- `addReserved` (face-table.cpp:63-69) -/
def Ft.addReserved (s : Ft) (o : Obj) (id : Nat) : Option Ft :=
  if s.ids o = INVALID_FACEID ∧ id ≤ FACEID_RESERVED_MAX then s.addImpl o id else none

/-- `remove` (face-table.cpp:88-106) -/
def Ft.remove (s : Ft) (id : Nat) : Option Ft :=
  match s.get id with
  | none => none
  | some o => some { s with
      faces := s.faces.filter (fun p => p.1 ≠ id)
      ids := fun x => if x = o then INVALID_FACEID else s.ids x
      log := s.log ++ [.removed o id] }

def Ft.removeList : Ft → List Nat → Option Ft
  | s, [] => some s
  | s, id :: l => (s.remove id).bind (fun s => s.removeList l)

/-- The face's transport becomes CLOSED, which happens at most once (C53): every connected handler removes its id. -/
def Ft.close (s : Ft) (o : Obj) : Option Ft :=
  if s.closed o then some s
  else Ft.removeList { s with closed := fun x => if x = o then true else s.closed x } ((s.subs.filter (·.1 == o)).map (·.2))

inductive Op
  | add (o : Obj)
  | addReserved (o : Obj) (id : Nat)
  | close (o : Obj)

def Ft.step (s : Ft) : Op → Option Ft
  | .add o => s.add o
  | .addReserved o id => s.addReserved o id
  | .close o => s.close o

def run : Ft → List Op → Option Ft
  | s, [] => some s
  | s, op :: l => (s.step op).bind (fun s => run s l)

def init : Ft := {}

/-! ### Invariant -/

/-- Reserved ids are not the invalid id (nfd.cpp:81,82,136 use 255, 254 and 1). -/
def OpOk : Op → Prop
  | .addReserved _ id => id ≠ INVALID_FACEID
  | _ => True

structure Inv (s : Ft) : Prop where
  last : FACEID_RESERVED_MAX ≤ s.last
  nodup : (s.faces.map (·.1)).Nodup
  le : ∀ p ∈ s.faces, p.1 ≤ s.last ∧ p.1 ≠ INVALID_FACEID
  ids : ∀ p ∈ s.faces, s.ids p.2 = p.1
  mem : ∀ o, s.ids o ≠ INVALID_FACEID → (s.ids o, o) ∈ s.faces
  subs : ∀ o, s.closed o = false → ∀ id, (o, id) ∈ s.subs ↔ (id, o) ∈ s.faces
  subsNodup : ∀ o, s.closed o = false → ((s.subs.filter (·.1 == o)).map (·.2)).Nodup
  added : ∀ o id, .added o id ∈ s.log → id ≤ s.last
  known : ∀ p ∈ s.faces, .added p.2 p.1 ∈ s.log ∧ (FACEID_RESERVED_MAX < p.1 → .removed p.2 p.1 ∉ s.log)
  rem : ∀ o id, .removed o id ∈ s.log → .added o id ∈ s.log
  gone : ∀ o id, .added o id ∈ s.log → FACEID_RESERVED_MAX < id → .removed o id ∉ s.log → (id, o) ∈ s.faces
  uniq : ∀ o o' id, .added o id ∈ s.log → .added o' id ∈ s.log → FACEID_RESERVED_MAX < id → o = o'

theorem get_iff {s : Ft} (hn : (s.faces.map (·.1)).Nodup) {id : Nat} {o : Obj} : s.get id = some o ↔ (id, o) ∈ s.faces := by
  unfold Ft.get
  rw [Option.map_eq_some_iff]
  constructor
  · rintro ⟨⟨a, b⟩, h1, rfl⟩
    have h2 := List.find?_some h1
    simp at h2
    rw [← h2]
    exact List.mem_of_find?_eq_some h1
  · intro h
    generalize s.faces = l at *
    induction l with
    | nil => simp at h
    | cons x l ih =>
      rw [List.find?_cons]
      rw [List.map_cons, List.nodup_cons] at hn
      rcases List.mem_cons.1 h with h | h
      · subst h; exact ⟨(id, o), by simp, rfl⟩
      · have : ¬x.1 = id := fun e => hn.1 (List.mem_map.2 ⟨(id, o), h, e.symm⟩)
        rw [show (x.1 == id) = false by simpa using this]
        exact ih hn.2 h

theorem get_none {s : Ft} {id : Nat} : s.get id = none ↔ ∀ o, (id, o) ∉ s.faces := by
  unfold Ft.get
  rw [Option.map_eq_none_iff, List.find?_eq_none]
  constructor
  · intro h o ho
    exact h _ ho (by simp)
  · rintro h ⟨a, b⟩ hm hc
    simp at hc
    exact h b (hc ▸ hm)

theorem inv_init : Inv init := by
  constructor <;> simp [init]

theorem inv_addImpl {s s' : Ft} {o : Obj} {id : Nat} (hi : Inv s) (ho : s.ids o = INVALID_FACEID) (h0 : id ≠ INVALID_FACEID)
    (hl : id ≤ s.last) (hf : ∀ x, FACEID_RESERVED_MAX < id → .added x id ∉ s.log) (h : s.addImpl o id = some s') : Inv s' := by
  unfold Ft.addImpl at h
  split at h
  · cases h
  · rename_i hg
    cases h
    have hg : s.get id = none := by simpa using hg
    have hn := get_none.1 hg
    have hno : ∀ p ∈ s.faces, p.2 ≠ o := fun p hp hpo => (hi.le p hp).2 (by rw [← hi.ids p hp, hpo, ho])
    refine ⟨hi.last, ?_, ?_, ?_, ?_, ?_, ?_, ?_, ?_, ?_, ?_, ?_⟩
    · rw [List.map_cons, List.nodup_cons]
      refine ⟨?_, hi.nodup⟩
      intro hm
      obtain ⟨⟨a, b⟩, hp, e⟩ := List.mem_map.1 hm
      simp at e
      exact hn b (e ▸ hp)
    · intro p hp
      rcases List.mem_cons.1 hp with rfl | hp
      · exact ⟨hl, h0⟩
      · exact hi.le p hp
    · intro p hp
      rcases List.mem_cons.1 hp with rfl | hp
      · simp
      · simp only [if_neg (hno p hp)]
        exact hi.ids p hp
    · intro x hx
      by_cases hxo : x = o
      · simp [hxo]
      · simp only [if_neg hxo] at hx ⊢
        exact List.mem_cons_of_mem _ (hi.mem x hx)
    · intro x hx id'
      have := hi.subs x hx id'
      rw [List.mem_append, List.mem_singleton, List.mem_cons, Prod.mk.injEq, Prod.mk.injEq, this]
      constructor
      · rintro (h | ⟨h1, h2⟩)
        · exact Or.inr h
        · exact Or.inl ⟨h2, h1⟩
      · rintro (⟨h1, h2⟩ | h)
        · exact Or.inr ⟨h2, h1⟩
        · exact Or.inl h
    · intro x hx
      have hx : s.closed x = false := hx
      simp only [List.filter_append, List.map_append]
      by_cases hxo : o = x
      · subst hxo
        have : (s.subs.filter (·.1 == o)) = [] := by
          rw [List.filter_eq_nil_iff]
          rintro ⟨a, b⟩ hm hc
          simp at hc
          subst hc
          exact hno _ ((hi.subs a hx b).1 hm) rfl
        simp [this]
      · simpa [hxo] using hi.subsNodup x hx
    · intro x id' hx
      rcases List.mem_append.1 hx with hx | hx
      · exact hi.added x id' hx
      · simp at hx; rw [hx.2]; exact hl
    · intro p hp
      rcases List.mem_cons.1 hp with rfl | hp
      · refine ⟨by simp, ?_⟩
        intro hr hm
        rcases List.mem_append.1 hm with hm | hm
        · exact hf o hr (hi.rem _ _ hm)
        · simp at hm
      · refine ⟨List.mem_append_left _ (hi.known p hp).1, fun hr hm => ?_⟩
        rcases List.mem_append.1 hm with hm | hm
        · exact (hi.known p hp).2 hr hm
        · simp at hm
    · intro x id' hm
      rcases List.mem_append.1 hm with hm | hm
      · exact List.mem_append_left _ (hi.rem x id' hm)
      · simp at hm
    · intro x id' hm hr hnr
      rcases List.mem_append.1 hm with hm | hm
      · exact List.mem_cons_of_mem _ (hi.gone x id' hm hr (fun h => hnr (List.mem_append_left _ h)))
      · simp at hm; simp [hm.1, hm.2]
    · intro x y id' hx hy hr
      rcases List.mem_append.1 hx with hx | hx <;> rcases List.mem_append.1 hy with hy | hy
      · exact hi.uniq x y id' hx hy hr
      · simp at hy; exact absurd (hy.2 ▸ hx) (hf x (hy.2 ▸ hr))
      · simp at hx; exact absurd (hx.2 ▸ hy) (hf y (hx.2 ▸ hr))
      · simp at hx hy; rw [hx.1, hy.1]

/-- The invariant while the handlers of a closing face run: the remaining ones are those of the ids the face still has. -/
structure Closing (s : Ft) (o : Obj) (l : List Nat) : Prop where
  inv : Inv s
  closed : s.closed o = true
  nodup : l.Nodup
  mem : ∀ id, id ∈ l ↔ (id, o) ∈ s.faces

theorem inv_remove {s : Ft} {o : Obj} {id : Nat} {l : List Nat} (hc : Closing s o (id :: l)) :
    ∃ s', s.remove id = some s' ∧ Closing s' o l := by
  have hi := hc.inv
  have hm : (id, o) ∈ s.faces := (hc.mem id).1 (by simp)
  have hg := (get_iff hi.nodup).2 hm
  have hone : ∀ p ∈ s.faces, p.1 = id → p = (id, o) := by
    rintro ⟨a, b⟩ hp rfl
    have h1 := (get_iff hi.nodup).2 hp
    simp only at hg h1
    rw [hg] at h1
    rw [Option.some.inj h1]
  have hnd := List.nodup_cons.1 hc.nodup
  unfold Ft.remove
  rw [hg]
  refine ⟨_, rfl, ⟨⟨hi.last, ?_, ?_, ?_, ?_, ?_, ?_, ?_, ?_, ?_, ?_, ?_⟩, hc.closed, hnd.2, ?_⟩⟩
  · exact (List.Sublist.map _ List.filter_sublist).nodup hi.nodup
  · intro p hp; exact hi.le p (List.mem_filter.1 hp).1
  · intro p hp
    obtain ⟨hp, hne⟩ := List.mem_filter.1 hp
    have : p.2 ≠ o := by
      intro e
      have := hi.ids p hp
      rw [e, hi.ids _ hm] at this
      simp only [ne_eq, decide_not, Bool.not_eq_true', decide_eq_false_iff_not] at hne
      exact hne this.symm
    simp only [if_neg this]
    exact hi.ids p hp
  · intro x hx
    by_cases hxo : x = o
    · simp [hxo] at hx
    · simp only [if_neg hxo] at hx ⊢
      refine List.mem_filter.2 ⟨hi.mem x hx, ?_⟩
      simp only [ne_eq, decide_not, Bool.not_eq_true', decide_eq_false_iff_not]
      intro e
      have := hone _ (hi.mem x hx) e
      exact hxo (by simpa using congrArg Prod.snd this)
  · intro x hx id'
    have hx : s.closed x = false := hx
    have hxo : x ≠ o := fun e => by rw [e, hc.closed] at hx; cases hx
    rw [hi.subs x hx id', List.mem_filter]
    refine ⟨fun h => ⟨h, ?_⟩, fun h => h.1⟩
    simp only [ne_eq, decide_not, Bool.not_eq_true', decide_eq_false_iff_not]
    intro e
    exact hxo (by simpa using congrArg Prod.snd (hone _ h e))
  · exact hi.subsNodup
  · intro x id' hx
    rcases List.mem_append.1 hx with hx | hx
    · exact hi.added x id' hx
    · simp at hx
  · intro p hp
    obtain ⟨hp, hne⟩ := List.mem_filter.1 hp
    refine ⟨List.mem_append_left _ (hi.known p hp).1, fun hr h => ?_⟩
    rcases List.mem_append.1 h with h | h
    · exact (hi.known p hp).2 hr h
    · simp at h hne; exact hne h.2
  · intro x id' h
    rcases List.mem_append.1 h with h | h
    · exact List.mem_append_left _ (hi.rem x id' h)
    · simp at h
      rw [h.1, h.2]
      exact List.mem_append_left _ (hi.known _ hm).1
  · intro x id' h hr hnr
    rcases List.mem_append.1 h with h | h
    · refine List.mem_filter.2 ⟨hi.gone x id' h hr (fun c => hnr (List.mem_append_left _ c)), ?_⟩
      simp only [ne_eq, decide_not, Bool.not_eq_true', decide_eq_false_iff_not]
      intro e
      apply hnr
      have : x = o := hi.uniq x o id' h (e ▸ (hi.known _ hm).1) hr
      rw [this, e]
      simp
    · simp at h
  · intro x y id' hx hy
    rcases List.mem_append.1 hx with hx | hx
    · rcases List.mem_append.1 hy with hy | hy
      · exact hi.uniq x y id' hx hy
      · simp at hy
    · simp at hx
  · intro id'
    rw [List.mem_filter, ← hc.mem id']
    constructor
    · intro h
      refine ⟨List.mem_cons_of_mem _ h, ?_⟩
      simp only [ne_eq, decide_not, Bool.not_eq_true', decide_eq_false_iff_not]
      intro e; exact hnd.1 (e ▸ h)
    · rintro ⟨h, hne⟩
      rcases List.mem_cons.1 h with h | h
      · simp [h] at hne
      · exact h

theorem removeList_spec {o : Obj} : ∀ {l : List Nat} {s : Ft}, Closing s o l → ∃ s', s.removeList l = some s' ∧ Closing s' o []
  | [], s, h => ⟨s, rfl, h⟩
  | id :: l, s, h => by
    obtain ⟨s1, h1, h2⟩ := inv_remove h
    obtain ⟨s2, h3, h4⟩ := removeList_spec h2
    exact ⟨s2, by simp [Ft.removeList, h1, h3], h4⟩

theorem inv_close {s : Ft} (hi : Inv s) (o : Obj) :
    ∃ s', s.close o = some s' ∧ Inv s' ∧ (s.closed o = false → ∀ id, (id, o) ∉ s'.faces) := by
  unfold Ft.close
  split
  · rename_i h
    exact ⟨s, rfl, hi, fun c => by rw [h] at c; cases c⟩
  · rename_i h
    have h : s.closed o = false := by simpa using h
    have hc : Closing { s with closed := fun x => if x = o then true else s.closed x } o ((s.subs.filter (·.1 == o)).map (·.2)) := by
      refine ⟨⟨hi.last, hi.nodup, hi.le, hi.ids, hi.mem, ?_, ?_, hi.added, hi.known, hi.rem, hi.gone, hi.uniq⟩, by simp,
        hi.subsNodup o h, ?_⟩
      · intro x hx
        by_cases hxo : x = o
        · simp [hxo] at hx
        · simp only [if_neg hxo] at hx; exact hi.subs x hx
      · intro x hx
        by_cases hxo : x = o
        · simp [hxo] at hx
        · simp only [if_neg hxo] at hx; exact hi.subsNodup x hx
      · intro id
        rw [← hi.subs o h id, List.mem_map]
        constructor
        · rintro ⟨⟨a, b⟩, h1, h2⟩
          obtain ⟨h1, h3⟩ := List.mem_filter.1 h1
          simp at h3 h2
          rw [← h2, ← h3]; exact h1
        · intro h1
          exact ⟨(o, id), List.mem_filter.2 ⟨h1, by simp⟩, rfl⟩
    obtain ⟨s', h1, h2⟩ := removeList_spec hc
    exact ⟨s', h1, h2.inv, fun _ id hm => by simpa using (h2.mem id).2 hm⟩

theorem inv_last {s : Ft} (hi : Inv s) : Inv { s with last := s.last + 1 } :=
  ⟨Nat.le_succ_of_le hi.last, hi.nodup, fun p hp => ⟨Nat.le_succ_of_le (hi.le p hp).1, (hi.le p hp).2⟩, hi.ids, hi.mem, hi.subs,
    hi.subsNodup, fun o id h => Nat.le_succ_of_le (hi.added o id h), hi.known, hi.rem, hi.gone, hi.uniq⟩

/-- `add` of a face that is not in the table never fails. -/
theorem add_new {s : Ft} (hi : Inv s) {o : Obj} (ho : s.ids o = INVALID_FACEID) :
    ∃ s', s.add o = some s' ∧ Inv s' ∧ s'.faces = (s.last + 1, o) :: s.faces ∧ s'.ids o = s.last + 1 ∧ s'.log = s.log ++ [.added o (s.last + 1)] := by
  have hl := hi.last
  have hg : ¬(Ft.get { s with last := s.last + 1 } (s.last + 1)).isSome = true := by
    rw [Bool.not_eq_true, Option.isSome_eq_false_iff, Option.isNone_iff_eq_none, get_none]
    intro x hx
    exact Nat.not_succ_le_self _ (hi.le _ hx).1
  have hadd : s.add o = { s with last := s.last + 1 }.addImpl o (s.last + 1) := by
    unfold Ft.add
    rw [if_neg (fun h => h.1 ho), if_neg (by omega)]
  rw [hadd]
  have h2 := @inv_addImpl { s with last := s.last + 1 } 
  unfold Ft.addImpl at h2 ⊢
  rw [if_neg hg]
  refine ⟨_, rfl, ?_, rfl, by simp, rfl⟩
  refine h2 (o := o) (id := s.last + 1) (inv_last hi) ho (by simp) (Nat.le_refl _) ?_ (by rw [if_neg hg])
  intro x _ hx
  exact Nat.not_succ_le_self _ (hi.added x _ hx)

theorem inv_step {s s' : Ft} {op : Op} (hi : Inv s) (hok : OpOk op) (h : s.step op = some s') : Inv s' := by
  cases op with
  | add o =>
    by_cases ho : s.ids o = INVALID_FACEID
    · obtain ⟨s1, h1, h2, -⟩ := add_new hi ho
      simp only [Ft.step, h1, Option.some.injEq] at h
      exact h ▸ h2
    · simp only [Ft.step, Ft.add] at h
      rw [if_pos ⟨ho, by rw [(get_iff hi.nodup).2 (hi.mem o ho)]; rfl⟩] at h
      cases h; exact hi
  | addReserved o id =>
    simp only [Ft.step, Ft.addReserved] at h
    split at h
    · rename_i hc
      refine inv_addImpl hi hc.1 hok (Nat.le_trans hc.2 hi.last) ?_ h
      intro x hx; exact absurd hc.2 (Nat.not_le_of_lt hx)
    · cases h
  | close o =>
    obtain ⟨s1, h1, h2, -⟩ := inv_close hi o
    simp only [Ft.step, h1, Option.some.injEq] at h
    exact h ▸ h2

theorem inv_run : ∀ {ops : List Op} {s s' : Ft}, Inv s → (∀ op ∈ ops, OpOk op) → run s ops = some s' → Inv s'
  | [], s, s', hi, _, h => by cases h; exact hi
  | op :: ops, s, s', hi, hok, h => by
    simp only [run, Option.bind_eq_some_iff] at h
    obtain ⟨s1, h1, h2⟩ := h
    exact inv_run (inv_step hi (hok op (by simp)) h1) (fun x hx => hok x (List.mem_cons_of_mem _ hx)) h2

/-! ### Properties -/

/-- A face table that the daemon can have: any history of added and closed faces; reserved ids are not 0. -/
def Reach (ops : List Op) (s : Ft) : Prop := (∀ op ∈ ops, OpOk op) ∧ run init ops = some s

/-- **C35** A face added without a reserved id gets an identifier above the reserved range that no face ever had; adding a face that is in
the table changes nothing. `add` never fails an assertion. -/
theorem C35_fresh {ops : List Op} {s : Ft} (h : Reach ops s) (o : Obj) :
    ((∃ id, s.get id = some o) ∧ s.add o = some s) ∨
    ((∀ id, s.get id ≠ some o) ∧ ∃ s' id, s.add o = some s' ∧ FACEID_RESERVED_MAX < id ∧ (∀ x, Ev.added x id ∉ s.log) ∧
      s'.ids o = id ∧ s'.get id = some o ∧ (∀ id', id' ≠ id → s'.get id' = s.get id')) := by
  have hi := inv_run inv_init h.1 h.2
  by_cases ho : s.ids o = INVALID_FACEID
  · right
    refine ⟨fun id hg => ?_, ?_⟩
    · have hm := (get_iff hi.nodup).1 hg
      exact (hi.le _ hm).2 (by rw [← hi.ids _ hm]; exact ho)
    · obtain ⟨s', h1, h2, h3, h4, -⟩ := add_new hi ho
      refine ⟨s', s.last + 1, h1, Nat.lt_succ_of_le hi.last, fun x hx => Nat.not_succ_le_self _ (hi.added x _ hx), h4,
        (get_iff h2.nodup).2 (by rw [h3]; simp), ?_⟩
      intro id' hne
      unfold Ft.get
      rw [h3, List.find?_cons, show (s.last + 1 == id') = false by simpa using Ne.symm hne]
  · left
    have hg := (get_iff hi.nodup).2 (hi.mem o ho)
    refine ⟨⟨_, hg⟩, ?_⟩
    unfold Ft.add
    rw [if_pos ⟨ho, by rw [hg]; rfl⟩]

/-- **C35** No identifier above the reserved range is ever given to two faces. -/
theorem C35_unique {ops : List Op} {s : Ft} (h : Reach ops s) {o o' : Obj} {id : Nat} (h1 : .added o id ∈ s.log)
    (h2 : .added o' id ∈ s.log) (hr : FACEID_RESERVED_MAX < id) : o = o' :=
  (inv_run inv_init h.1 h.2).uniq o o' id h1 h2 hr

/-- **C35** `get` finds exactly the faces that were added and have not been removed, each under one identifier, which is the
one the face reports. -/
theorem C35_get {ops : List Op} {s : Ft} (h : Reach ops s) (id : Nat) (o : Obj) :
    (s.get id = some o ↔ id ≠ INVALID_FACEID ∧ s.ids o = id) ∧
    (FACEID_RESERVED_MAX < id → (s.get id = some o ↔ Ev.added o id ∈ s.log ∧ Ev.removed o id ∉ s.log)) := by
  have hi := inv_run inv_init h.1 h.2
  rw [get_iff hi.nodup]
  refine ⟨⟨fun hm => ⟨(hi.le _ hm).2, hi.ids _ hm⟩, fun ⟨h0, he⟩ => he ▸ hi.mem o (he ▸ h0)⟩, fun hr => ?_⟩
  exact ⟨fun hm => ⟨(hi.known _ hm).1, (hi.known _ hm).2 hr⟩, fun ⟨ha, hn⟩ => hi.gone o id ha hr hn⟩

/-- **C35** Closing a face removes it, and only it, and never fails an assertion. -/
theorem C35_close {ops : List Op} {s : Ft} (h : Reach ops s) {o : Obj} (ho : s.closed o = false) :
    ∃ s', s.close o = some s' ∧ (∀ id, s'.get id ≠ some o) ∧ ∀ id x, x ≠ o → (s'.get id = some x ↔ s.get id = some x) := by
  have hi := inv_run inv_init h.1 h.2
  obtain ⟨s', h1, h2, h3⟩ := inv_close hi o
  refine ⟨s', h1, fun id hg => h3 ho id ((get_iff h2.nodup).1 hg), fun id x hx => ?_⟩
  rw [get_iff h2.nodup, get_iff hi.nodup]
  have key : ∀ (l : List Nat) (a b : Ft), (∀ id ∈ l, a.get id = some o ∨ a.get id = none) → (a.faces.map (·.1)).Nodup →
      a.removeList l = some b → ((id, x) ∈ b.faces ↔ (id, x) ∈ a.faces) := by
    intro l
    induction l with
    | nil => intro a b _ _ h; cases h; exact Iff.rfl
    | cons i l ih =>
      intro a b hl hn h
      simp only [Ft.removeList, Option.bind_eq_some_iff] at h
      obtain ⟨a1, e1, e2⟩ := h
      unfold Ft.remove at e1
      split at e1
      · cases e1
      · rename_i y hy
        have hyo : y = o := by
          rcases hl i (by simp) with h | h
          · rw [h] at hy; exact (Option.some.inj hy).symm
          · rw [h] at hy; cases hy
        cases e1
        rw [ih _ b ?_ ((List.Sublist.map _ List.filter_sublist).nodup hn) e2, List.mem_filter]
        · refine ⟨fun h => h.1, fun h => ⟨h, ?_⟩⟩
          simp only [ne_eq, decide_not, Bool.not_eq_true', decide_eq_false_iff_not]
          intro e
          have := (get_iff hn).2 h
          rw [e, hy] at this
          exact hx ((Option.some.inj this).symm.trans hyo)
        · intro j hj
          rcases hl j (List.mem_cons_of_mem _ hj) with h | h
          · by_cases hji : j = i
            · right
              rw [get_none]
              intro z hz
              simp [hji] at hz
            · left
              refine (get_iff ((List.Sublist.map _ List.filter_sublist).nodup hn)).2 (List.mem_filter.2 ⟨(get_iff hn).1 h, ?_⟩)
              simp [hji]
          · right
            rw [get_none] at h ⊢
            intro z hz
            exact h z (List.mem_filter.1 hz).1
  unfold Ft.close at h1
  rw [if_neg (by rw [ho]; simp)] at h1
  refine key _ { s with closed := fun x => if x = o then true else s.closed x } _ ?_ hi.nodup h1
  intro i hi'
  obtain ⟨⟨a, b⟩, e1, e2⟩ := List.mem_map.1 hi'
  obtain ⟨e1, e3⟩ := List.mem_filter.1 e1
  simp at e2 e3
  left
  exact (get_iff hi.nodup).2 (by rw [← e2, ← e3]; exact (hi.subs a (e3 ▸ ho) b).1 e1)

/-- **C35** A history can only fail an assertion by giving a reserved id to a face that has an id, or a reserved id in use, or an id that
is not reserved. -/
theorem C35_no_fault {ops : List Op} {s : Ft} (h : Reach ops s) {op : Op} (hf : s.step op = none) :
    ∃ o id, op = .addReserved o id ∧ (s.ids o ≠ INVALID_FACEID ∨ FACEID_RESERVED_MAX < id ∨ ∃ x, s.get id = some x) := by
  have hi := inv_run inv_init h.1 h.2
  cases op with
  | add o =>
    simp only [Ft.step] at hf
    rcases C35_fresh h o with ⟨-, h1⟩ | ⟨-, s', _, h1, -⟩ <;> rw [h1] at hf <;> cases hf
  | close o =>
    obtain ⟨s1, h1, -⟩ := inv_close hi o
    simp only [Ft.step, h1] at hf
    cases hf
  | addReserved o id =>
    refine ⟨o, id, rfl, ?_⟩
    simp only [Ft.step, Ft.addReserved] at hf
    split at hf
    · unfold Ft.addImpl at hf
      split at hf
      · rename_i hg
        exact Or.inr (Or.inr (Option.isSome_iff_exists.1 hg))
      · cases hf
    · rename_i hc
      by_cases h1 : s.ids o = INVALID_FACEID
      · exact Or.inr (Or.inl (Nat.lt_of_not_le fun h => hc ⟨h1, h⟩))
      · exact Or.inl h1

/-- The hypotheses are met: three reserved faces, four faces added, one of them twice, one closed, one reserved face closed. -/
def exOps : List Op :=
  [.addReserved 0 255, .addReserved 1 254, .addReserved 2 1, .add 3, .add 4, .add 3, .close 3, .add 5, .close 2, .add 6]

example : (run init exOps).any (fun s => s.get 256 == none && s.get 257 == some 4 && s.get 258 == some 5 && s.get 259 == some 6 && s.get 1 == none &&
    s.get 254 == some 1 && s.ids 3 == 0 && s.log.contains (.added 3 256) && s.log.contains (.removed 3 256) && s.size == 5) = true := by decide
example : ∀ op ∈ exOps, OpOk op := by simp [exOps, OpOk]

end Verif.Ft
