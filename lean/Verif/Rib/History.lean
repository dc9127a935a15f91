import Verif.Rib.Check

/-
What holds after all histories of RIB updates.
-/
namespace Verif.Rib

open Spec (own ownInherit captures inheritedFrom view)

/-- A registration that dereferences a null pointer (fib-updater.cpp:459-468). -/
def Crashes (R : Name → List Route) (u : Update) : Prop :=
  u.action = .register ∧ ∃ old ∈ R u.name, old.same u.route = true ∧
    ∃ c, own (Spec.setRoute (R u.name) u.route) u.route.face = some c ∧ old.cost < c ∧ c < u.route.cost ∧
      ownInherit (Spec.setRoute (R u.name) u.route) u.route.face = none

theorem forCostChange_error {t : List Entry} {e : Entry} {r old : Route} (hown : own e.routes r.face ≠ none) (f : Fault) :
    forCostChange t e r old = .error f ↔
      f = .nullPointer ∧ ∃ c, own e.routes r.face = some c ∧ old.cost < c ∧ c < r.cost ∧ ownInherit e.routes r.face = none := by
  have h1 := lowestCost_eq e r.face
  have h2 := lowestCI_eq e r.face
  unfold forCostChange
  dsimp only
  cases hl : e.lowestCost r.face with
  | none => rw [hl] at h1; exact absurd h1.symm hown
  | some l =>
    rw [hl] at h1
    rw [← h1]
    dsimp only [Option.map_some]
    by_cases hc : r.cost ≤ l.cost
    · rw [if_pos hc]
      constructor
      · intro h; cases h
      · rintro ⟨_, c, hc1, _, hc2, _⟩
        cases hc1
        omega
    · rw [if_neg hc]
      by_cases ho : old.cost < l.cost
      · rw [if_pos ho]
        cases hp : e.lowestCI r.face with
        | none =>
          rw [hp] at h2
          constructor
          · intro h
            cases h
            exact ⟨rfl, l.cost, rfl, ho, by omega, h2.symm⟩
          · rintro ⟨rfl, _⟩; rfl
        | some p =>
          rw [hp] at h2
          constructor
          · intro h; cases h
          · rintro ⟨_, c, _, _, _, hn⟩
            rw [hn] at h2; cases h2
      · rw [if_neg ho]
        constructor
        · intro h; cases h
        · rintro ⟨_, c, hc1, hc2, _⟩
          cases hc1
          exact absurd hc2 ho

theorem map_error {α β : Type} {x : Except Fault α} {g : α → β} {f : Fault} : x.map g = .error f ↔ x = .error f := by
  cases x with
  | error e => exact ⟨fun h => by cases h; rfl, fun h => by cases h; rfl⟩
  | ok a => exact ⟨(fun h => by cases h), (fun h => by cases h)⟩

theorem own_mem {l : List Route} {r : Route} (h : r ∈ l) : own l r.face ≠ none := fun hn => own_none.1 hn r h rfl

theorem emits_error {k : Nat} {b : Rib} (h : RInv k b) (tie : List Route → Nat) (u : Update) (f : Fault) :
    emits tie b.table u = .error f ↔ f = .nullPointer ∧ Crashes b.routes u := by
  unfold emits Crashes
  cases ha : u.action with
  | unregister => exact ⟨(fun h => by cases h), (fun h => by cases h.2.1)⟩
  | removeFace => exact ⟨(fun h => by cases h), (fun h => by cases h.2.1)⟩
  | register =>
    dsimp only
    unfold forRegistration
    cases hg : get b.table u.name with
    | none =>
      rw [routes_none hg]
      exact ⟨(fun h => by cases h), (fun h => by obtain ⟨_, _, _, h, _⟩ := h; cases h)⟩
    | some e =>
      rw [routes_get hg]
      dsimp only
      have hu := h.keys u.name e hg
      cases hf : e.findRoute u.route with
      | none =>
        constructor
        · intro h; cases h
        · rintro ⟨_, _, old, ho, hs, _⟩
          exact absurd hs (List.find?_eq_none.1 hf old ho)
      | some old =>
        have hos := findRoute_same hf
        have hom := findRoute_mem hf
        have hre := updatedEntry_routes (r := u.route) hom hos
        have huniq : ∀ x ∈ e.routes, x.same u.route = true → x = old := fun x hx hs =>
          keys_unique hu hx hom (same_trans hs (by rw [same_comm]; exact hos))
        have hmem : u.route ∈ Spec.setRoute e.routes u.route := (mem_setRoute_old hom hos).2 (.inl rfl)
        dsimp only
        unfold forUpdatedRoute
        have key : ∀ (cond : Prop), (cond ↔ u.route.cost ≠ old.cost) → ((f = .nullPointer ∧ ∃ c, own (Spec.setRoute e.routes u.route) u.route.face = some c ∧ old.cost < c ∧ c < u.route.cost ∧
            ownInherit (Spec.setRoute e.routes u.route) u.route.face = none ∧ cond) ↔
            (f = .nullPointer ∧ Action.register = Action.register ∧ ∃ old ∈ e.routes, old.same u.route = true ∧
              ∃ c, own (Spec.setRoute e.routes u.route) u.route.face = some c ∧ old.cost < c ∧ c < u.route.cost ∧
              ownInherit (Spec.setRoute e.routes u.route) u.route.face = none)) := by
          intro cond hcond
          constructor
          · rintro ⟨h1, c, h2, h3, h4, h5, _⟩
            exact ⟨h1, rfl, old, hom, hos, c, h2, h3, h4, h5⟩
          · rintro ⟨h1, _, x, hx, hs, c, h2, h3, h4, h5⟩
            rw [huniq x hx hs] at h3
            exact ⟨h1, c, h2, h3, h4, h5, hcond.2 (by omega)⟩
        by_cases hsame : u.route.ci = old.ci ∧ u.route.capture = old.capture ∧ u.route.cost = old.cost
        · rw [if_pos hsame, ← key False ⟨fun h => h.elim, fun h => absurd hsame.2.2 h⟩]
          exact ⟨(fun h => by cases h), (fun h => by obtain ⟨_, _, _, _, _, _, h⟩ := h; exact h.elim)⟩
        · rw [if_neg hsame]
          by_cases hcost : u.route.cost ≠ old.cost
          · rw [if_pos hcost, map_error]
            rw [forCostChange_error (by rw [hre]; exact own_mem hmem), hre, ← key True ⟨fun _ => hcost, fun _ => trivial⟩]
            simp only [and_true]
          · rw [if_neg hcost, ← key False ⟨fun h => h.elim, fun h => absurd h hcost⟩]
            exact ⟨(fun h => by cases h), (fun h => by obtain ⟨_, _, _, _, _, _, h⟩ := h; exact h.elim)⟩

theorem step_rinv {k : Nat} {s : Sys} (h : RInv k s.rib) (tie : List Route → Nat) (o : Op) :
    match s.step tie o with
    | .error f => f = .nullPointer ∧ ∃ u, o = .update u ∧ Crashes s.rib.routes u
    | .ok s' => RInv (k + 1) s'.rib := by
  cases o with
  | create f =>
    show RInv (k + 1) (if s.face f = .unborn then _ else s : Sys).rib
    split <;> exact h.mono (Nat.le_succ k)
  | destroy f =>
    show RInv (k + 1) (if s.face f = .alive then _ else s : Sys).rib
    split <;> exact h.mono (Nat.le_succ k)
  | update u =>
    have hu := update_cases (tie := tie) (u := u) h
    show match s.update tie u with | .error f => _ | .ok s' => _
    cases hE : emits tie s.rib.table u with
    | error f =>
      rw [hE] at hu
      dsimp only at hu
      rw [hu]
      obtain ⟨h1, h2⟩ := (emits_error h tie u f).1 hE
      exact ⟨h1, u, rfl, h2⟩
    | ok E =>
      rw [hE] at hu
      obtain ⟨s', h1, _, _, h2⟩ := hu
      rw [h1]
      rcases h2 with ⟨h2, _⟩ | ⟨_, _, _, h2, _⟩
      · show RInv (k + 1) s'.rib
        rw [h2]; exact h.mono (Nat.le_succ k)
      · exact h2

theorem run_rinv {k : Nat} {s s' : Sys} (h : RInv k s.rib) {tie : List Route → Nat} {ops : List Op} (hr : s.run tie ops = .ok s') :
    RInv (k + ops.length) s'.rib := by
  induction ops generalizing k s with
  | nil => rw [← Except.ok.inj hr]; exact h
  | cons o l ih =>
    have hs := step_rinv h tie o
    unfold Sys.run at hr
    cases hso : s.step tie o with
    | error f => rw [hso] at hr; cases hr
    | ok s1 =>
      rw [hso] at hr hs
      have := ih hs hr
      rw [List.length_cons, show k + (l.length + 1) = k + 1 + l.length by omega]
      exact this

theorem run_error {k : Nat} {s : Sys} (h : RInv k s.rib) {tie : List Route → Nat} {ops : List Op} {f : Fault} (hr : s.run tie ops = .error f) :
    f = .nullPointer ∧ ∃ pre u post s', ops = pre ++ .update u :: post ∧ s.run tie pre = .ok s' ∧ Crashes s'.rib.routes u := by
  induction ops generalizing k s with
  | nil => cases hr
  | cons o l ih =>
    have hs := step_rinv h tie o
    unfold Sys.run at hr
    cases hso : s.step tie o with
    | error g =>
      rw [hso] at hr hs
      have hr : Except.error (α := Sys) g = .error f := hr
      cases hr
      obtain ⟨h1, u, h2, h3⟩ := hs
      exact ⟨h1, [], u, l, s, by rw [h2]; rfl, rfl, h3⟩
    | ok s1 =>
      rw [hso] at hr hs
      obtain ⟨h1, pre, u, post, s', h2, h3, h4⟩ := ih hs hr
      refine ⟨h1, o :: pre, u, post, s', by rw [h2]; rfl, ?_, h4⟩
      unfold Sys.run
      rw [hso]; exact h3

/-! ### Removal of faces -/

theorem update_removeFace {k : Nat} {s : Sys} (h : RInv k s.rib) (tie : List Route → Nat) {u : Update} (ha : u.action = .removeFace) :
    ∃ s', s.update tie u = .ok s' ∧ s'.face = s.face ∧ RInv (k + 1) s'.rib ∧ ∀ m, s'.rib.routes m = Spec.after s.rib.routes u m := by
  have hE : emits tie s.rib.table u = .ok (forUnregistration tie s.rib.table u.name u.route) := by unfold emits; rw [ha]
  have hp := plan_eq tie s.rib.table u
  rw [hE] at hp
  obtain ⟨b1, b', c1, c2, c3, c4, _⟩ := commit_ok h hE
  have hp : plan tie s.rib.table u = .ok { planOf u.route.face (forUnregistration tie s.rib.table u.name u.route) with batch := [] } := by
    rw [hp, ha]; rfl
  refine ⟨{ s with rib := b', fib := (planOf u.route.face (forUnregistration tie s.rib.table u.name u.route)).other.foldl (applyFib s.face) s.fib },
    ?_, rfl, c3, c4⟩
  unfold Sys.update
  rw [hp]
  dsimp only
  rw [planOf_inherited, c2]
  rfl

theorem run_removals {k : Nat} {s : Sys} (h : RInv k s.rib) (tie : List Route → Nat) (us : List Update) (ha : ∀ u ∈ us, u.action = .removeFace) :
    ∃ s', s.run tie (us.map .update) = .ok s' ∧
      ∀ m, s'.rib.routes m = (s.rib.routes m).filter (fun x => !us.any (fun u => decide (u.name = m) && x.same u.route)) := by
  induction us generalizing k s with
  | nil =>
    refine ⟨s, rfl, fun m => ?_⟩
    symm
    rw [List.filter_eq_self]
    intro x _; rfl
  | cons u l ih =>
    obtain ⟨s1, h1, _, h2, h3⟩ := update_removeFace h tie (ha u List.mem_cons_self)
    obtain ⟨s2, h4, h5⟩ := ih h2 (fun u hu => ha u (List.mem_cons_of_mem _ hu))
    refine ⟨s2, ?_, fun m => ?_⟩
    · rw [List.map_cons]
      have h1 : s.step tie (.update u) = .ok s1 := h1
      unfold Sys.run
      rw [h1]; exact h4
    · rw [h5, h3]
      by_cases hm : m = u.name
      · subst hm
        rw [after_erase (by rw [ha u List.mem_cons_self]; exact fun hc => by cases hc)]
        unfold Spec.dropRoute
        rw [List.filter_filter]
        refine List.filter_congr (fun x _ => ?_)
        rw [List.any_cons]
        have : (x.face == u.route.face && x.origin == u.route.origin) = x.same u.route := rfl
        rw [this]
        simp [Bool.and_comm]
      · rw [after_other hm]
        refine List.filter_congr (fun x _ => ?_)
        rw [List.any_cons]
        have : decide (u.name = m) = false := decide_eq_false (fun h => hm h.symm)
        rw [this]
        simp

/-- `beginRemoveFailedFaces` (rib.cpp:348-358) with `enqueueRemoveFace` (rib.cpp:360-369): the updates put into the queue; the removed faces are those for
which `dead` holds. Also `beginRemoveFace` (rib.cpp:338-346), for one face. An entry in m_faceEntries that is not in the table any more has no routes. -/
def faceRemovals (b : Rib) (dead : Nat → Bool) : List Update :=
  (b.faceEntries.filter (fun p => dead p.1)).flatMap (fun p =>
    (b.table.filter (fun e => e.id == p.2)).flatMap (fun e =>
      (e.routes.filter (fun r => r.face == p.1)).map (fun r => ⟨.removeFace, e.name, r⟩)))

theorem mem_faceRemovals {b : Rib} {dead : Nat → Bool} {u : Update} (h : u ∈ faceRemovals b dead) :
    u.action = .removeFace ∧ dead u.route.face = true := by
  unfold faceRemovals at h
  obtain ⟨p, hp, h⟩ := List.mem_flatMap.1 h
  obtain ⟨e, _, h⟩ := List.mem_flatMap.1 h
  obtain ⟨r, hr, rfl⟩ := List.mem_map.1 h
  refine ⟨rfl, ?_⟩
  have h1 : r.face = p.1 := by simpa using (List.mem_filter.1 hr).2
  show dead r.face = true
  rw [h1]
  exact (List.mem_filter.1 hp).2

theorem faceRemovals_complete {k : Nat} {b : Rib} (h : RInv k b) {dead : Nat → Bool} {m : Name} {x : Route} (hx : x ∈ b.routes m) (hd : dead x.face = true) :
    (⟨.removeFace, m, x⟩ : Update) ∈ faceRemovals b dead := by
  cases hg : get b.table m with
  | none => rw [routes_none hg] at hx; cases hx
  | some e =>
    rw [routes_get hg] at hx
    unfold faceRemovals
    refine List.mem_flatMap.2 ⟨(x.face, e.id), List.mem_filter.2 ⟨h.faces m e x hg hx, hd⟩, List.mem_flatMap.2 ⟨e, List.mem_filter.2 ⟨?_, by simp⟩, ?_⟩⟩
    · exact List.mem_of_find?_eq_some hg
    · refine List.mem_map.2 ⟨x, List.mem_filter.2 ⟨hx, by simp⟩, ?_⟩
      rw [get_name hg]

/-! ### Capture -/

/-- No registration changes the capture flag of a route that is there. -/
def KeepsCapture (tie : List Route → Nat) : Sys → List Op → Prop
  | _, [] => True
  | s, o :: l =>
    (match o with
     | .update u => u.action = .register → ∀ old ∈ s.rib.routes u.name, old.face = u.route.face → old.origin = u.route.origin → old.capture = u.route.capture
     | _ => True) ∧
    match s.step tie o with
    | .error _ => True
    | .ok s => KeepsCapture tie s l

theorem run_capOk {k : Nat} {s s' : Sys} (h : RInv k s.rib) (hc : CapOk s.rib) {tie : List Route → Nat} {ops : List Op} (hl : k + ops.length < W)
    (hk : KeepsCapture tie s ops) (hr : s.run tie ops = .ok s') : CapOk s'.rib := by
  induction ops generalizing k s with
  | nil => rw [← Except.ok.inj hr]; exact hc
  | cons o l ih =>
    rw [List.length_cons] at hl
    have hs := step_rinv h tie o
    obtain ⟨hk1, hk2⟩ := hk
    unfold Sys.run at hr
    cases hso : s.step tie o with
    | error f => rw [hso] at hr; cases hr
    | ok s1 =>
      rw [hso] at hr hs hk2
      refine ih hs ?_ (by omega) hk2 hr
      cases o with
      | create f =>
        have : s1 = _ := (Except.ok.inj hso).symm
        rw [this]; split <;> exact hc
      | destroy f =>
        have : s1 = _ := (Except.ok.inj hso).symm
        rw [this]; split <;> exact hc
      | update u =>
        have hu := update_cases (tie := tie) (u := u) h
        have hso : s.update tie u = .ok s1 := hso
        cases hE : emits tie s.rib.table u with
        | error f => rw [hE] at hu; dsimp only at hu; rw [hu] at hso; cases hso
        | ok E =>
          rw [hE] at hu
          obtain ⟨s2, h1, _, _, h2⟩ := hu
          rw [h1] at hso
          rw [← Except.ok.inj hso]
          rcases h2 with ⟨h2, _⟩ | ⟨b1, h2, _, _, _, h5, _⟩
          · rw [h2]; exact hc
          · intro n e' he'
            cases hg : get b1.table n with
            | none => rw [h5.1 n hg] at he'; cases he'
            | some e =>
              obtain ⟨l, hl⟩ := h5.2 n e hg
              rw [hl] at he'
              rw [← Option.some.inj he']
              exact (base_entry (by omega) h hc h2 (fun hreg old ho hos => hk1 hreg old ho (same_iff.1 hos).1 (same_iff.1 hos).2) hg).1

end Verif.Rib
