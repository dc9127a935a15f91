import Verif.Rib.Sync

/-
Whether a history is benign can be computed: only finitely many names have routes.
-/
namespace Verif.Rib

open Spec (own ownInherit captures inheritedFrom view)

/-- `Regular`, for the names in a list. -/
def RegularOn (S : List Name) (R : Name → List Route) : Prop :=
  (∀ n ∈ S, ∀ r ∈ R n, ∀ r' ∈ R n, r.face = r'.face → r.ci = true → r'.ci = true → r.cost = r'.cost) ∧
  (∀ n ∈ S, ∀ n' ∈ S, n <+: n' → n' ≠ n → (∃ x ∈ S, n <+: x ∧ x ≠ n ∧ x <+: n' ∧ captures (R x) = true) ∨
    ∀ r ∈ R n, r.ci = true → ∀ r' ∈ R n', r'.face = r.face → r'.ci = true)

set_option synthInstance.maxSize 4000 in
set_option synthInstance.maxHeartbeats 400000 in
instance (S : List Name) (R : Name → List Route) : Decidable (RegularOn S R) := by unfold RegularOn; infer_instance

theorem RegularOn.regular {S : List Name} {R : Name → List Route} (h : RegularOn S R) (hS : ∀ n, n ∉ S → R n = []) : Regular R := by
  have hin : ∀ (n : Name) (r : Route), r ∈ R n → n ∈ S := by
    intro n r hr
    apply Decidable.byContradiction
    intro hn
    rw [hS n hn] at hr
    cases hr
  refine ⟨fun n r r' hr hr' => h.1 n (hin n r hr) r hr r' hr', fun n n' r r' h1 h2 hr hci hr' hf hx => ?_⟩
  rcases h.2 n (hin n r hr) n' (hin n' r' hr') h1 h2 with ⟨x, _, a1, a2, a3, a4⟩ | hall
  · rw [hx x a1 a2 a3] at a4; cases a4
  · exact hall r hr hci r' hr' hf

def RegisterOn (R : Name → List Route) (n : Name) (r : Route) : Prop :=
  (∀ old ∈ R n, old.same r = true → old.capture = r.capture) ∧
  (∀ old ∈ R n, old.same r = true → old.ci = true → r.ci = false → inheritedFrom R n r.face n.length = none) ∧
  (∀ old ∈ R n, old.same r = true → ∀ x ∈ R n, x.face = r.face → x.same r = false → x.cost = r.cost ∧ x.ci = r.ci) ∧
  ((∀ x ∈ R n, x.same r = false) → R n ≠ [] → captures (R n) = false → r.capture = true →
    ∀ x ∈ R n, inheritedFrom R n x.face n.length = none)

set_option synthInstance.maxSize 4000 in
set_option synthInstance.maxHeartbeats 400000 in
instance (R : Name → List Route) (n : Name) (r : Route) : Decidable (RegisterOn R n r) := by unfold RegisterOn; infer_instance

theorem RegisterOn.benign {R : Name → List Route} {n : Name} {r : Route} (h : RegisterOn R n r) : BenignRegister R n r := by
  refine ⟨h.1, h.2.1, h.2.2.1, fun h1 h2 h3 h4 f => ?_⟩
  cases ho : own (R n) f with
  | none => exact .inr rfl
  | some c =>
    rw [own_eq, minBy_some] at ho
    obtain ⟨⟨x, hx, hp, _⟩, _⟩ := ho
    have hp : x.face = f := by simpa using hp
    left
    rw [← hp]
    exact h.2.2.2 h1 h2 h3 h4 x hx

def EraseOn (S : List Name) (R : Name → List Route) (n : Name) (r : Route) : Prop :=
  (∀ old ∈ R n, old.same r = true → ∀ x ∈ R n, x.face = r.face → x.cost = old.cost ∧ x.ci = old.ci) ∧
  (∀ old ∈ R n, old.same r = true → (old.ci = true ∨ old.capture = true) → captures (Spec.dropRoute (R n) r) = false →
    ∀ x ∈ R n, x.face ≠ r.face → inheritedFrom R n x.face n.length = none ∨ ownInherit (R n) x.face = none ∨
      inheritedFrom R n x.face n.length = ownInherit (R n) x.face) ∧
  (∀ old ∈ R n, old.same r = true → old.capture = true → Spec.dropRoute (R n) r = [] →
    (∀ m ∈ S, n <+: m → m ≠ n → R m = []) ∨ ∀ m ∈ S, ∀ x ∈ R m, inheritedFrom R n x.face n.length = none)

set_option synthInstance.maxSize 4000 in
set_option synthInstance.maxHeartbeats 400000 in
instance (S : List Name) (R : Name → List Route) (n : Name) (r : Route) : Decidable (EraseOn S R n r) := by unfold EraseOn; infer_instance

theorem EraseOn.benign {S : List Name} {R : Name → List Route} (hS : ∀ n, n ∉ S → R n = []) {n : Name} {r : Route} (h : EraseOn S R n r) :
    BenignErase R n r := by
  refine ⟨h.1, fun old h1 h2 h3 h4 f hf => ?_, fun old h1 h2 h3 h4 => ?_⟩
  · cases ho : ownInherit (R n) f with
    | none => exact .inr (.inl rfl)
    | some c =>
      have ho' := ho
      rw [ownInherit_eq, minBy_some] at ho'
      obtain ⟨⟨x, hx, hp, _⟩, _⟩ := ho'
      simp only [Bool.and_eq_true, beq_iff_eq] at hp
      have := h.2.1 old h1 h2 h3 h4 x hx (by rw [hp.1]; exact hf)
      rw [hp.1, ho] at this
      exact this
  · rcases h.2.2 old h1 h2 h3 h4 with ha | ha
    · left
      intro m hm1 hm2
      by_cases hm : m ∈ S
      · exact ha m hm hm1 hm2
      · exact hS m hm
    · right
      intro f
      apply Decidable.byContradiction
      intro hne
      obtain ⟨j, _, ⟨x, hx, hxf, _⟩, _⟩ := inh_source hne
      by_cases hm : n.take j ∈ S
      · exact hne (by rw [← hxf]; exact ha _ hm x hx)
      · rw [hS _ hm] at hx; cases hx

def names (b : Rib) : List Name := b.table.map (·.name)

theorem names_none {b : Rib} {n : Name} (h : n ∉ names b) : b.routes n = [] := by
  apply routes_none
  unfold Rib.get
  rw [List.find?_eq_none]
  intro e he hn
  apply h
  rw [← (show e.name = n by simpa using hn)]
  exact List.mem_map.2 ⟨e, he, rfl⟩

def BenignOn (s : Sys) : Op → Prop
  | .create _ => True
  | .destroy _ => True
  | .update u =>
    RegularOn (u.name :: names s.rib) (Spec.after s.rib.routes u) ∧
    match u.action with
    | .register => RegisterOn s.rib.routes u.name u.route
    | .unregister => EraseOn (names s.rib) s.rib.routes u.name u.route
    | .removeFace => EraseOn (names s.rib) s.rib.routes u.name u.route ∧ s.face u.route.face = .gone

instance (s : Sys) (o : Op) : Decidable (BenignOn s o) := by
  cases o with
  | create f => exact isTrue trivial
  | destroy f => exact isTrue trivial
  | update u =>
    obtain ⟨a, n, r⟩ := u
    cases a <;> (unfold BenignOn; dsimp only; infer_instance)

theorem BenignOn.benign {s : Sys} {o : Op} (h : BenignOn s o) : Benign s o := by
  cases o with
  | create f => exact trivial
  | destroy f => exact trivial
  | update u =>
    obtain ⟨h1, h2⟩ := h
    refine ⟨h1.regular (fun n hn => ?_), ?_⟩
    · rw [List.mem_cons, not_or] at hn
      rw [after_other hn.1]
      exact names_none hn.2
    · cases ha : u.action with
      | register => rw [ha] at h2; exact h2.benign
      | unregister => rw [ha] at h2; exact h2.benign (fun n hn => names_none hn)
      | removeFace => rw [ha] at h2; exact ⟨h2.1.benign (fun n hn => names_none hn), h2.2⟩

/-- Whether all operations are benign where they happen. -/
def benignRun (tie : List Route → Nat) : Sys → List Op → Bool
  | _, [] => true
  | s, o :: l =>
    decide (BenignOn s o) &&
    match s.step tie o with
    | .error _ => true
    | .ok s => benignRun tie s l

theorem benignRun_sound {tie : List Route → Nat} {s : Sys} {l : List Op} (h : benignRun tie s l = true) : BenignRun tie s l := by
  induction l generalizing s with
  | nil => trivial
  | cons o l ih =>
    unfold benignRun at h
    rw [Bool.and_eq_true, decide_eq_true_eq] at h
    refine ⟨h.1.benign, ?_⟩
    cases hs : s.step tie o with
    | error f => exact trivial
    | ok s' =>
      rw [hs] at h
      exact ih h.2

end Verif.Rib
