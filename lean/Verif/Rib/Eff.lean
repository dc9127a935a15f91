import Verif.Rib.View
import Verif.Rib.Benign

/-
When the emitted updates bring the FIB from one set of routes to another.
-/
namespace Verif.Rib

open Spec (own ownInherit captures inheritedFrom view)

structure Good (k : Nat) (b : Rib) : Prop where
  rinv : RInv k b
  cap : CapOk b
  reg : Regular b.routes
  inhr : ∀ (n : Name) (e : Entry) (f : Nat), get b.table n = some e → own e.routes f = none → view b.routes n f ≠ none → e.hasInherited f = true

/-- Some inheritable route to the face reaches the names below. -/
def Reach (R : Name → List Route) (n : Name) (f : Nat) : Prop :=
  (∃ r ∈ R n, r.face = f ∧ r.ci = true) ∨ (captures (R n) = false ∧ inh R n f ≠ none)

theorem inh_source {R : Name → List Route} {n : Name} {f k : Nat} (h : inheritedFrom R n f k ≠ none) :
    ∃ j, j < k ∧ (∃ r ∈ R (n.take j), r.face = f ∧ r.ci = true) ∧ ∀ i, j < i → i < k → captures (R (n.take i)) = false := by
  induction k with
  | zero => exact absurd rfl h
  | succ k ih =>
    unfold inheritedFrom at h
    cases ho : ownInherit (R (n.take k)) f with
    | some c =>
      refine ⟨k, Nat.lt_succ_self k, ?_, fun i a1 a2 => by omega⟩
      rw [ownInherit_eq, minBy_some] at ho
      obtain ⟨⟨r, hr, hp, _⟩, _⟩ := ho
      simp only [Bool.and_eq_true, beq_iff_eq] at hp
      exact ⟨r, hr, hp⟩
    | none =>
      rw [ho] at h
      dsimp only at h
      cases hc : captures (R (n.take k)) with
      | true => rw [hc] at h; exact absurd rfl h
      | false =>
        rw [hc] at h
        obtain ⟨j, h1, h2, h3⟩ := ih h
        refine ⟨j, by omega, h2, fun i a1 a2 => ?_⟩
        by_cases hi : i = k
        · rw [hi]; exact hc
        · exact h3 i a1 (by omega)

theorem reach_own {R : Name → List Route} (hR : Regular R) {n m : Name} {f : Nat} (hr : Reach R n f) (h1 : n <+: m) (h2 : m ≠ n) (ho : Open R n m f) :
    own (R m) f = none := by
  rw [own_none]
  intro r' hr' hf
  have hm := (ho m h1 h2 (List.prefix_refl m)).2
  rw [ownInherit_none] at hm
  have hci := hm r' hr' hf
  have : r'.ci = true := by
    rcases hr with ⟨r, hrn, hrf, hrc⟩ | ⟨hc, hi⟩
    · exact hR.below n m r r' h1 h2 hrn hrc hr' (hf.trans hrf.symm) (fun x a1 a2 a3 => (ho x a1 a2 a3).1)
    · obtain ⟨j, j1, ⟨r, hrn, hrf, hrc⟩, j3⟩ := inh_source hi
      have hl : (n.take j).length = j := by rw [List.length_take]; omega
      have hpn : n.take j <+: n := List.take_prefix j n
      refine hR.below (n.take j) m r r' (hpn.trans h1) ?_ hrn hrc hr' (hf.trans hrf.symm) (fun x a1 a2 a3 => ?_)
      · intro hc'
        have := length_lt_of_prefix h1 h2
        rw [hc'] at this
        omega
      · have hxl := length_lt_of_prefix a1 a2
        rcases Nat.lt_trichotomy x.length n.length with h | h | h
        · have : x = n.take x.length := (take_prefix (prefix_comparable a3 h1 (by omega))).symm
          rw [this]
          exact j3 x.length (by omega) h
        · have : x = n := prefix_eq_of_length (prefix_comparable a3 h1 (by omega)) (by omega)
          rw [this]; exact hc
        · exact (ho x (prefix_comparable h1 a3 (by omega)) (fun hc' => by rw [hc'] at h; omega) a3).1
  rw [this] at hci
  cases hci

theorem openBelow_iff {k : Nat} {b : Rib} (h : Good k b) {n m : Name} {f : Nat} : OpenBelow b.table n m f ↔ Open b.routes n m f := by
  constructor
  · intro ho x a1 a2 a3
    cases hg : get b.table x with
    | none => rw [routes_none hg]; exact ⟨rfl, rfl⟩
    | some e =>
      obtain ⟨h1, h2⟩ := ho x e a1 a2 a3 hg
      rw [routes_get hg]
      rw [hasCapture_of_count (h.cap x e hg)] at h1
      exact ⟨h1, hasCI_iff.1 h2⟩
  · intro ho x e a1 a2 a3 hg
    obtain ⟨h1, h2⟩ := ho x a1 a2 a3
    rw [routes_get hg] at h1 h2
    exact ⟨by rw [hasCapture_of_count (h.cap x e hg)]; exact h1, hasCI_iff.2 h2⟩

/-- What a list of emissions does: `A` gives what names below get, `D` what is taken from them, `S` what happens to the name itself. -/
structure Eff (b : Rib) (n : Name) (E : List Emit) (A : Nat → Option Nat) (D : Nat → Bool) (S : Nat → Option (Option Nat)) : Prop where
  closed : ∀ (m : Name) (f : Nat), n <+: m → m ≠ n → ¬ Open b.routes n m f → lastFib E m f = none
  opened : ∀ (m : Name) (e : Entry) (f : Nat), n <+: m → m ≠ n → get b.table m = some e → Open b.routes n m f →
    lastFib E m f = (if own e.routes f = none then (A f).map some else none).or (if e.hasInherited f = true ∧ D f = true then some none else none)
  outside : ∀ (m : Name) (f : Nat), m ≠ n → (¬ n <+: m ∨ get b.table m = none) → lastFib E m f = none
  self : ∀ f, lastFib E n f = S f

theorem Eff.congr {b : Rib} {n : Name} {E : List Emit} {A A' : Nat → Option Nat} {D D' : Nat → Bool} {S S' : Nat → Option (Option Nat)} (h : Eff b n E A D S)
    (hA : ∀ f, A f = A' f) (hD : ∀ f, D f = D' f) (hS : ∀ f, S f = S' f) : Eff b n E A' D' S' := by
  have hA : A = A' := funext hA
  have hD : D = D' := funext hD
  have hS : S = S' := funext hS
  subst hA hD hS
  exact h

theorem Eff.selfOnly {b : Rib} {n : Name} {E : List Emit} {S : Nat → Option (Option Nat)} (h : ∀ m f, m ≠ n → lastFib E m f = none)
    (hS : ∀ f, lastFib E n f = S f) : Eff b n E (fun _ => none) (fun _ => false) S :=
  ⟨fun m f _ h2 _ => h m f h2, (fun m e f _ h2 _ _ => by rw [h m f h2]; simp), fun m f h1 _ => h m f h1, hS⟩

theorem Eff.nil (b : Rib) (n : Name) : Eff b n [] (fun _ => none) (fun _ => false) (fun _ => none) := Eff.selfOnly (fun _ _ _ => rfl) (fun _ => rfl)

theorem Eff.mod {k : Nat} {b : Rib} (h : Good k b) {n : Name} {C : List Name} (hC : IsChildren b.table n C) {adds : List Route} (hu : Uniq adds) (removes : List Route) :
    Eff b n (modifyChildren b.table C adds removes) (fun f => (rsFind adds f).map (·.cost)) (fun f => (rsFind removes f).isSome) (fun _ => none) := by
  have hl := modifyChildren_last h.rinv.tree hC (removes := removes) hu
  refine ⟨fun m f _ _ h3 => ?_, fun m e f h1 h2 h3 h4 => ?_, fun m f h1 h2 => ?_, fun f => ?_⟩
  · rw [hl, if_neg]
    rintro ⟨_, _, ho⟩
    exact h3 ((openBelow_iff h).1 ho)
  · rw [hl, if_pos ⟨h1, h2, (openBelow_iff h).2 h4⟩]
    unfold blk
    rw [h3]
    dsimp only
    congr 1
    cases hf : e.hasFace f with
    | false =>
      rw [if_pos (hasFace_iff.1 hf)]
      simp only [Bool.not_false, if_true]
      cases rsFind adds f <;> rfl
    | true =>
      rw [if_neg (fun hc : own e.routes f = none => by rw [hasFace_iff.2 hc] at hf; cases hf)]
      rfl
  · rw [hl]
    split
    · rename_i hc
      rcases h2 with h2 | h2
      · exact absurd hc.1 h2
      · unfold blk; rw [h2]
    · rfl
  · rw [hl, if_neg (fun hc => hc.2.1 rfl)]

/-- More is given afterwards. -/
theorem Eff.adds {b : Rib} {n : Name} {E1 E2 : List Emit} {A1 A2 : Nat → Option Nat} {D1 : Nat → Bool} {S1 S2 : Nat → Option (Option Nat)}
    (h1 : Eff b n E1 A1 D1 S1) (h2 : Eff b n E2 A2 (fun _ => false) S2) : Eff b n (E1 ++ E2) (fun f => (A2 f).or (A1 f)) D1 (fun f => (S2 f).or (S1 f)) := by
  refine ⟨fun m f a1 a2 a3 => ?_, fun m e f a1 a2 a3 a4 => ?_, fun m f a1 a2 => ?_, fun f => ?_⟩
  · have x1 := h1.closed m f a1 a2 a3
    have x2 := h2.closed m f a1 a2 a3
    unfold lastFib at x1 x2
    rw [lastFib, last_append, x1, x2]; rfl
  · have x1 := h1.opened m e f a1 a2 a3 a4
    have x2 := h2.opened m e f a1 a2 a3 a4
    unfold lastFib at x1 x2
    rw [lastFib, last_append, x1, x2]
    simp only [Bool.false_eq_true, and_false, if_false, Option.or_none]
    split
    · cases A2 f <;> rfl
    · rfl
  · have x1 := h1.outside m f a1 a2
    have x2 := h2.outside m f a1 a2
    unfold lastFib at x1 x2
    rw [lastFib, last_append, x1, x2]; rfl
  · have x1 := h1.self f
    have x2 := h2.self f
    unfold lastFib at x1 x2
    rw [lastFib, last_append, x1, x2]

/-- Something is done to the name itself before. -/
theorem Eff.before {b : Rib} {n : Name} {E1 E2 : List Emit} {A : Nat → Option Nat} {D : Nat → Bool} {S1 S2 : Nat → Option (Option Nat)}
    (h1 : Eff b n E1 (fun _ => none) (fun _ => false) S1) (h2 : Eff b n E2 A D S2) : Eff b n (E1 ++ E2) A D (fun f => (S2 f).or (S1 f)) := by
  refine ⟨fun m f a1 a2 a3 => ?_, fun m e f a1 a2 a3 a4 => ?_, fun m f a1 a2 => ?_, fun f => ?_⟩
  · have x1 := h1.closed m f a1 a2 a3
    have x2 := h2.closed m f a1 a2 a3
    unfold lastFib at x1 x2
    rw [lastFib, last_append, x1, x2]; rfl
  · have x1 := h1.opened m e f a1 a2 a3 a4
    have x2 := h2.opened m e f a1 a2 a3 a4
    unfold lastFib at x1 x2
    rw [lastFib, last_append, x1, x2]
    simp
  · have x1 := h1.outside m f a1 a2
    have x2 := h2.outside m f a1 a2
    unfold lastFib at x1 x2
    rw [lastFib, last_append, x1, x2]; rfl
  · have x1 := h1.self f
    have x2 := h2.self f
    unfold lastFib at x1 x2
    rw [lastFib, last_append, x1, x2]

/-- Conditions for the names below. -/
structure PassOk (R R' : Name → List Route) (n : Name) (A : Nat → Option Nat) (D : Nat → Bool) : Prop where
  add : ∀ f c, A f = some c → pass R' n f = some c
  reach : ∀ f, D f = true → Reach R n f
  remove : ∀ f, A f = none → D f = true → pass R' n f = none
  keep : ∀ f, A f = none → D f = false → pass R' n f = pass R n f

theorem view_nil {R : Name → List Route} {m : Name} {f : Nat} (h : R m = []) : view R m f = none := by
  unfold view; rw [if_pos h]

theorem Eff.correct {k : Nat} {b : Rib} (h : Good k b) {n : Name} {R' : Name → List Route} (hR : ∀ x, x ≠ n → R' x = b.routes x) {E : List Emit}
    {A : Nat → Option Nat} {D : Nat → Bool} {S : Nat → Option (Option Nat)} (hE : Eff b n E A D S)
    (hP : (∃ m, n <+: m ∧ m ≠ n ∧ b.routes m ≠ []) → PassOk b.routes R' n A D)
    (hS : ∀ f, (S f).getD (view b.routes n f) = view R' n f) (m : Name) (f : Nat) :
    (lastFib E m f).getD (view b.routes m f) = view R' m f := by
  by_cases hmn : m = n
  · rw [hmn, hE.self f]
    exact hS f
  by_cases hpre : n <+: m
  · cases hg : get b.table m with
    | none =>
      rw [hE.outside m f hmn (.inr hg)]
      have := routes_none hg
      rw [view_nil (R := R') (by rw [hR m hmn]; exact this)]
      exact view_nil this
    | some e =>
      have hre := routes_get hg
      have hne : b.routes m ≠ [] := by rw [hre]; exact h.rinv.nonempty m e hg
      have hP := hP ⟨m, hpre, hmn, hne⟩
      by_cases ho : Open b.routes n m f
      · rw [hE.opened m e f hpre hmn hg ho]
        by_cases hown : own e.routes f = none
        · have hown' : own (b.routes m) f = none := by rw [hre]; exact hown
          rw [if_pos hown, view_open hpre hmn hne hown' ho]
          have hv' : view R' m f = pass R' n f := by
            refine view_open hpre hmn (by rw [hR m hmn]; exact hne) (by rw [hR m hmn]; exact hown') (fun x a1 a2 a3 => ?_)
            rw [hR x a2]; exact ho x a1 a2 a3
          rw [hv']
          cases hA : A f with
          | some c => rw [hP.add f c hA]; rfl
          | none =>
            simp only [Option.map_none, Option.none_or]
            cases hD : D f with
            | true =>
              rw [hP.remove f hA hD]
              by_cases hi : e.hasInherited f = true
              · rw [if_pos ⟨hi, rfl⟩]; rfl
              · rw [if_neg (fun hc => hi hc.1)]
                show pass b.routes n f = none
                rw [← view_open hpre hmn hne hown' ho]
                apply Decidable.byContradiction
                intro hv
                exact hi (h.inhr m e f hg hown hv)
            | false =>
              rw [hP.keep f hA hD]
              simp
        · rw [if_neg hown, Option.none_or]
          rw [view_closed hR hpre hmn (fun hc => hown (by rw [← hre]; exact hc.1))]
          rw [if_neg]
          · rfl
          · rintro ⟨_, hD⟩
            apply hown
            rw [← hre]
            exact reach_own h.reg (hP.reach f hD) hpre hmn ho
      · rw [hE.closed m f hpre hmn ho, view_closed hR hpre hmn (fun hc => ho hc.2)]; rfl
  · rw [hE.outside m f hmn (.inl hpre), view_outside hR hpre]; rfl

/-! ### Inherited route records -/

/-- The records are right afterwards. -/
def InhOk (b : Rib) (R' : Name → List Route) (E : List Emit) : Prop :=
  ∀ (m : Name) (f : Nat), R' m ≠ [] → own (R' m) f = none → view R' m f ≠ none →
    lastInh E m f = some true ∨ (lastInh E m f = none ∧ ∃ e, get b.table m = some e ∧ e.hasInherited f = true)

abbrev PairedAt (m : Name) (f : Nat) (E : List Emit) : Prop := lastInh E m f = (lastFib E m f).map Option.isSome

theorem PairedAt.append {m : Name} {f : Nat} {a c : List Emit} (h1 : PairedAt m f a) (h2 : PairedAt m f c) : PairedAt m f (a ++ c) := by
  unfold PairedAt lastInh lastFib at *
  rw [last_append, last_append, h1, h2]
  cases last (hitFib m f) c <;> rfl

theorem PairedAt.fib {n m : Name} {g f : Nat} {c : Option Nat} (h : ¬ (n = m ∧ g = f)) : PairedAt m f [.fib n g c] := by
  simp [PairedAt, lastInh, lastFib, last, hitInh, hitFib, h]

theorem inhOk_at {k : Nat} {b : Rib} (h : Good k b) {R' : Name → List Route} {E : List Emit} {m : Name} {f : Nat} (hp : PairedAt m f E)
    (hc : (lastFib E m f).getD (view b.routes m f) = view R' m f) (ho : own (b.routes m) f = none) (hv : view R' m f ≠ none) :
    lastInh E m f = some true ∨ (lastInh E m f = none ∧ ∃ e, get b.table m = some e ∧ e.hasInherited f = true) := by
  unfold PairedAt at hp
  cases hl : lastFib E m f with
  | some v =>
    rw [hl] at hp hc
    have hc : v = view R' m f := hc
    left
    rw [hp]
    cases v with
    | none => exact absurd hc.symm hv
    | some c => rfl
  | none =>
    rw [hl] at hp hc
    have hc : view b.routes m f = view R' m f := hc
    right
    refine ⟨hp, ?_⟩
    cases hg : get b.table m with
    | none =>
      rw [view_nil (routes_none hg)] at hc
      exact absurd hc.symm hv
    | some e =>
      exact ⟨e, rfl, h.inhr m e f hg (by rw [← routes_get hg]; exact ho) (by rw [hc]; exact hv)⟩

/-- What an update has to achieve. -/
structure Correct (b : Rib) (R' : Name → List Route) (E : List Emit) : Prop where
  fib : ∀ m f, (lastFib E m f).getD (view b.routes m f) = view R' m f
  inh : InhOk b R' E

end Verif.Rib
