import Verif.Fe.Lemmas

/-! C125: the notifications about faces and the list of faces agree with the faces there are. -/
namespace Verif.Fe

variable {P : Type}

/-! ### Concrete cases -/

/-- The reserved faces, the manager; a face is made on an interface that is not running and one on a running one; one of them is closed. -/
def before : List (Ev Nat) := [.make 0 7, .addReserved 0 1, .start, .make 1 8, .add 1]

def after : List (Ev Nat) :=
  [.make 2 9, .setState 2 .down, .add 2, .setState 2 .up, .add 2, .setState 1 .down, .setProps 1 5, .setState 1 .closing, .setState 1 .closed]

theorem later_reach {s s' : St P} (hr : Reach s) (h : Later s s') : Reach s' := by
  induction h with
  | refl => exact hr
  | step s' s'' e _ hu hs ih => exact .step s' s'' e ih hu hs

/-- Runs, with the condition on adding checked. -/
def addsOpen (s : St Nat) : Ev Nat → Bool
  | .add o | .addReserved o _ => (s.objs o).all (fun f => f.id != 0 || f.state != .closed)
  | _ => true

def runOk : St Nat → List (Ev Nat) → Option (St Nat)
  | s, [] => some s
  | s, e :: l => if addsOpen s e then (s.step e).bind (fun s => runOk s l) else none

theorem runOk_later (l : List (Ev Nat)) : ∀ {s s0 s' : St Nat}, Later s0 s → runOk s l = some s' → Later s0 s' := by
  induction l with
  | nil =>
    intro s s0 s' h0 h
    injection h with h
    exact h ▸ h0
  | cons e l ih =>
    intro s s0 s' h0 h
    unfold runOk at h
    split at h
    · rename_i hok
      cases hs : s.step e with
      | none => rw [hs] at h; cases h
      | some s1 =>
        rw [hs] at h
        refine ih (.step _ _ _ e h0 ?_ hs) h
        unfold AddsOpen
        unfold addsOpen at hok
        cases e with
        | add o => intro f hf; dsimp only at hok; rw [hf] at hok; simpa using hok
        | addReserved o id => intro f hf; dsimp only at hok; rw [hf] at hok; simpa using hok
        | _ => trivial
    · cases h

/-- A forwarder that has run these. -/
def ran (l : List (Ev Nat)) : St Nat := (runOk init l).getD init

theorem ran_later (l l' : List (Ev Nat)) (h : (runOk init l).isSome = true) (h' : (runOk (ran l) l').isSome = true) :
    Reach (ran l) ∧ Later (ran l) ((runOk (ran l) l').getD init) := by
  obtain ⟨s, hs⟩ := Option.isSome_iff_exists.mp h
  obtain ⟨s', hs'⟩ := Option.isSome_iff_exists.mp h'
  have h1 : ran l = s := by unfold ran; rw [hs]; rfl
  refine ⟨?_, ?_⟩
  · rw [h1]
    exact later_reach .init (runOk_later _ (.refl _) hs)
  · rw [hs']
    exact runOk_later _ (.refl _) hs'

/-! ### Theorems -/

/-- Whoever knows the faces at some moment and reads the notifications from then on knows the faces at any later moment, and the notifications make sense to
them: no face is created twice, none destroyed, up or down that they do not know. Nothing that was sent is taken back. -/
theorem C125_follow (s s' : St P) (hr : Reach s) (hm : s.manager = true) (hl : Later s s') : ∃ l, s'.out = s.out ++ l ∧ Follows s.has l s'.has := by
  have : s'.manager = true ∧ ∃ l, s'.out = s.out ++ l ∧ Follows s.has l s'.has := by
    induction hl with
    | refl => exact ⟨hm, [], (List.append_nil _).symm, .nil _ _ (fun _ => Iff.rfl)⟩
    | step s' s'' e hl hu hs ih =>
      obtain ⟨h1, l, h2, h3⟩ := ih
      obtain ⟨h4, l', h5, h6, -⟩ := step_tells (later_reach hr hl).inv hu h1 hs
      exact ⟨h4, l ++ l', by rw [h5, h2, List.append_assoc], follows_append h3 h6⟩
  exact this.2

example : Reach (ran before) ∧ (ran before).manager = true ∧ Later (ran before) ((runOk (ran before) after).getD init) ∧
    ((runOk (ran before) after).getD init).out =
      [⟨.created, 256, 8⟩, ⟨.created, 257, 9⟩, ⟨.up, 257, 9⟩, ⟨.down, 256, 8⟩, ⟨.destroyed, 256, 5⟩] ∧
    ((runOk (ran before) after).getD init).list = [(257, 9), (1, 7)] := by
  have h := ran_later before after (by decide +kernel) (by decide +kernel)
  exact ⟨h.1, by decide +kernel, h.2, by decide +kernel, by decide +kernel⟩

/-- The dataset tells exactly the faces that are in the table, each once, with the FaceId of the face and its properties. -/
theorem C125_list (s : St P) (hr : Reach s) :
    (∀ id p, (id, p) ∈ s.list ↔ ∃ o f, s.objs o = some f ∧ f.id = id ∧ id ≠ 0 ∧ f.props = p) ∧ (s.list.map (·.1)).Nodup ∧
      (∀ id, s.has id ↔ ∃ p, (id, p) ∈ s.list) := by
  have hi := hr.inv
  have h1 : ∀ id p, (id, p) ∈ s.list ↔ ∃ o f, s.objs o = some f ∧ f.id = id ∧ id ≠ 0 ∧ f.props = p := by
    intro id p
    unfold St.list
    rw [List.mem_filterMap]
    constructor
    · rintro ⟨x, hx, hp⟩
      obtain ⟨f, hf, he⟩ := hi.obj x hx
      rw [hf] at hp
      injection hp with hp
      injection hp with hp1 hp2
      exact ⟨x.2, f, hf, hp1, by rw [← hp1, he]; exact (hi.le x hx).2, hp2⟩
    · rintro ⟨o, f, hf, rfl, h0, rfl⟩
      exact ⟨(f.id, o), hi.mem o f hf h0, by dsimp only; rw [hf]; rfl⟩
  refine ⟨h1, ?_, ?_⟩
  · have : s.list.map (·.1) = s.table.map (·.1) := by
      unfold St.list
      have ho := hi.obj
      generalize s.table = l at ho
      induction l with
      | nil => rfl
      | cons x l ih =>
        obtain ⟨f, hf, he⟩ := ho x (List.mem_cons_self ..)
        rw [List.filterMap_cons, hf, Option.map_some]
        dsimp only
        rw [List.map_cons, List.map_cons, ih (fun y hy => ho y (List.mem_cons_of_mem _ hy)), he]
    rw [this]
    exact hi.nodup
  · intro id
    constructor
    · rintro ⟨o, ho⟩
      obtain ⟨f, hf, he⟩ := hi.obj _ ho
      exact ⟨f.props, (h1 _ _).mpr ⟨o, f, hf, he, (hi.le _ ho).2, rfl⟩⟩
    · rintro ⟨p, hp⟩
      obtain ⟨o, f, hf, rfl, h0, -⟩ := (h1 _ _).mp hp
      exact ⟨o, hi.mem o f hf h0⟩

example : Reach (ran before) ∧ (ran before).list = [(256, 8), (1, 7)] :=
  ⟨(ran_later before [] (by decide +kernel) (by decide +kernel)).1, by decide +kernel⟩

/-- What has been told about one FaceId. If a face with it exists: nothing (it was there before the manager), or its creation and then, in turn, that it went down
and up, and the last of these is the state of the face. If none exists: nothing, or all this followed by one destruction, which is the last ever. -/
theorem C125_life (s : St P) (hr : Reach s) (id : Nat) :
    (∀ o f, s.objs o = some f → f.id = id → id ≠ 0 →
      about id s.out = [] ∨ ∃ b, Tells (about id s.out) b ∧ (f.state = .up → b = true) ∧ (f.state = .down → b = false)) ∧
    (¬ s.has id → about id s.out = [] ∨ about id s.out = [.destroyed] ∨ ∃ l b, Tells l b ∧ about id s.out = l ++ [.destroyed]) := by
  refine ⟨?_, hr.inv.gone id⟩
  rintro o f hf rfl h0
  exact hr.inv.told o f hf h0

example : about 257 ((runOk (ran before) after).getD init).out = [.created, .up] ∧ about 256 ((runOk (ran before) after).getD init).out = [.created, .down, .destroyed] ∧
    about 1 ((runOk (ran before) after).getD init).out = [] := by decide +kernel

/-- Tells what a reader may not conclude: that a face that has been created, and about which nothing else was told, is up. The face is on an Ethernet interface
that is not running (ethernet-transport.cpp:57-58). -/
theorem C125_created_down : ∃ s : St Nat, Reach s ∧ (∃ o f, s.objs o = some f ∧ f.id = 256 ∧ f.state = .down) ∧ about 256 s.out = [.created] :=
  ⟨ran [.start, .make 2 9, .setState 2 .down, .add 2], (ran_later _ [] (by decide +kernel) (by decide +kernel)).1,
    ⟨2, ⟨256, .down, 9⟩, by decide +kernel, rfl, rfl⟩, by decide +kernel⟩

/-- Each notification is sent when a face with this FaceId is in the table, or in the step that puts it there, and has the properties of this face at that
moment. -/
theorem C125_says (s s' : St P) (e : Ev P) (hr : Reach s) (hm : s.manager = true) (hu : AddsOpen s e) (hs : s.step e = some s') :
    ∃ l, s'.out = s.out ++ l ∧ ∀ n ∈ l, ∃ o f, ((n.id, o) ∈ s.table ∨ (n.id, o) ∈ s'.table) ∧ s.objs o = some f ∧ n.props = f.props := by
  obtain ⟨-, l, h1, -, h2⟩ := step_tells hr.inv hu hm hs
  exact ⟨l, h1, h2⟩

example : Reach (ran before) ∧ (ran before).manager = true ∧ AddsOpen (ran before) (.setState 1 .down) ∧
    (((ran before).step (.setState 1 .down)).map (·.out)) = some [⟨.created, 256, 8⟩, ⟨.down, 256, 8⟩] :=
  ⟨(ran_later before [] (by decide +kernel) (by decide +kernel)).1, by decide +kernel, trivial, by decide +kernel⟩

/-- A face that is told in the list is not closed, and the handlers that the manager has connected are those of faces in the list: none is left behind by a face
that is gone, and none is there twice. -/
theorem C125_alive (s : St P) (hr : Reach s) :
    (∀ o f, s.objs o = some f → f.id ≠ 0 → f.state ≠ .closed) ∧
    (∀ x ∈ s.subs, x.manager = true → ∃ f, s.objs x.obj = some f ∧ f.id = x.id ∧ f.id ≠ 0 ∧ f.state ≠ .closed) ∧
    (∀ x ∈ s.subs, ∀ y ∈ s.subs, x.manager = true → y.manager = true → x.id = y.id → x.obj = y.obj) := by
  have hi := hr.inv
  refine ⟨hi.alive, ?_, hi.own⟩
  intro x hx hm
  obtain ⟨f, hf, he⟩ := hi.obj _ (hi.conns x hx hm)
  have h0 : f.id ≠ 0 := by rw [he]; exact (hi.le _ (hi.conns x hx hm)).2
  exact ⟨f, hf, he, h0, hi.alive _ f hf h0⟩

example : (ran before).subs = [⟨0, 1, false⟩, ⟨1, 256, false⟩, ⟨1, 256, true⟩] := by decide +kernel

end Verif.Fe
