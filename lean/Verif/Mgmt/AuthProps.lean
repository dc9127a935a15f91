import Verif.Mgmt.Auth

/-! C63: which management commands are accepted. -/
namespace Verif.Auth
variable {Cert : Type}

/-! ### Specification -/

/-- The configuration grants module `m` to a command: some section lists the module, and is open to anybody or names a
certificate whose owner made this well-formed, fresh, correctly signed command. -/
def Granted (load : String → Option Cert) (cfg : List Sec) (m : Mod) (c : Cmd Cert) : Prop :=
  ∃ s ∈ cfg, (∃ ms, s.privileges = some ms ∧ m ∈ ms) ∧
    (s.certfile = some "any" ∨
     ∃ file cert, s.certfile = some file ∧ file ≠ "any" ∧ load file = some cert ∧ c.formed = true ∧ c.fresh = true ∧ c.signedBy cert = true)

/-- The configuration is acceptable: it has sections, all of them `authorize` with a certfile that is `any` or can be loaded and
with privileges for modules that exist. -/
def Acceptable (load : String → Option Cert) (exist : Mod → Prop) (cfg : List Sec) : Prop :=
  cfg ≠ [] ∧ ∀ s ∈ cfg, s.name = "authorize" ∧ (∃ file, s.certfile = some file ∧ (file = "any" ∨ (load file).isSome)) ∧
    ∃ ms, s.privileges = some ms ∧ ∀ m ∈ ms, exist m

/-- The module has been declared. -/
def Declared (v : Vals Cert) (m : Mod) : Prop := (v m).isSome

/-! ### Lemmas -/

/-- A validator accepts a command. -/
def Acc (x : Validator Cert) (c : Cmd Cert) : Prop :=
  match x with
  | .all => True
  | .anchors l => c.formed = true ∧ c.fresh = true ∧ ∃ a ∈ l, c.signedBy a = true

theorem authorize_iff (v : Vals Cert) (m : Mod) (c : Cmd Cert) :
    authorize v m c = some .accepted ↔ ∃ x, v m = some (some x) ∧ Acc x c := by
  unfold authorize Acc
  cases h : v m with
  | none => simp
  | some y =>
    cases y with
    | none => simp
    | some x =>
      cases x with
      | all => simp
      | anchors l =>
        cases h2 : c.formed <;> simp [List.any_eq_true]

/-- Whether a subject's owner made the command. -/
def Who.ok (w : Who Cert) (c : Cmd Cert) : Prop :=
  match w with
  | .anybody => True
  | .owner a => c.formed = true ∧ c.fresh = true ∧ c.signedBy a = true

/-- All declared modules have a validator (true after the reset). -/
def Set (v : Vals Cert) : Prop := ∀ m, v m ≠ some none

theorem put_set {v : Vals Cert} (h : Set v) (m : Mod) (x : Validator Cert) : Set (put v m (some x)) := by
  intro m'; unfold put; split
  · simp
  · exact h m'

theorem grantAll_spec (w : Who Cert) : ∀ (ms : List Mod) (v : Vals Cert), Set v →
    Set (grantAll false w v ms).1 ∧ (∀ m, Declared (grantAll false w v ms).1 m ↔ Declared v m) ∧
    ((grantAll false w v ms).2 = true ↔ ∀ m ∈ ms, Declared v m) ∧
    ∀ m c, (authorize (grantAll false w v ms).1 m c = some .accepted →
        authorize v m c = some .accepted ∨ (m ∈ ms ∧ w.ok c)) ∧
      (authorize v m c = some .accepted → authorize (grantAll false w v ms).1 m c = some .accepted) ∧
      ((grantAll false w v ms).2 = true → m ∈ ms → w.ok c → authorize (grantAll false w v ms).1 m c = some .accepted) := by
  intro ms
  induction ms with
  | nil => intro v hv; simp [grantAll, hv]
  | cons m0 ms ih =>
    intro v hv
    unfold grantAll
    cases hm : v m0 with
    | none =>
      refine ⟨hv, fun _ => Iff.rfl, ?_, fun m c => ⟨Or.inl, id, fun h => by cases h⟩⟩
      simp [Declared, hm]
    | some x =>
      cases x with
      | none => exact absurd hm (hv m0)
      | some x =>
        simp only [Bool.false_eq_true, if_false]
        -- the validator put in place
        obtain ⟨y, hy, hacc⟩ : ∃ y, grant w (some x) = some y ∧
            ∀ c, Acc y c ↔ Acc x c ∨ w.ok c := by
          cases w with
          | anybody => exact ⟨.all, rfl, fun c => by simp [Acc, Who.ok]⟩
          | owner a =>
            cases x with
            | all => exact ⟨.all, rfl, fun c => by simp [Acc, Who.ok]⟩
            | anchors l =>
              refine ⟨.anchors (l ++ [a]), rfl, fun c => ?_⟩
              simp only [Acc, Who.ok, List.mem_append, List.mem_singleton]
              constructor
              · rintro ⟨h1, h2, b, hb | rfl, h3⟩
                · exact Or.inl ⟨h1, h2, b, hb, h3⟩
                · exact Or.inr ⟨h1, h2, h3⟩
              · rintro (⟨h1, h2, b, hb, h3⟩ | ⟨h1, h2, h3⟩)
                · exact ⟨h1, h2, b, Or.inl hb, h3⟩
                · exact ⟨h1, h2, a, Or.inr rfl, h3⟩
        rw [hy]
        obtain ⟨i1, i2, i3, i4⟩ := ih (put v m0 (some y)) (put_set hv m0 y)
        have hd : ∀ m, Declared (put v m0 (some y)) m ↔ Declared v m := by
          intro m; unfold Declared put; split
          · next h => subst h; simp [hm]
          · rfl
        have ha : ∀ m c, authorize (put v m0 (some y)) m c = some .accepted ↔ authorize v m c = some .accepted ∨ (m = m0 ∧ w.ok c) := by
          intro m c
          rw [authorize_iff, authorize_iff]
          unfold put
          split
          · next h =>
            subst h
            rw [hm]
            constructor
            · rintro ⟨z, hz, h⟩
              cases hz
              rcases (hacc c).1 h with h | h
              · exact Or.inl ⟨x, rfl, h⟩
              · exact Or.inr ⟨rfl, h⟩
            · rintro (⟨z, hz, h⟩ | ⟨-, h⟩)
              · cases hz; exact ⟨y, rfl, (hacc c).2 (Or.inl h)⟩
              · exact ⟨y, rfl, (hacc c).2 (Or.inr h)⟩
          · next h => simp [h]
        refine ⟨i1, fun m => (i2 m).trans (hd m), ?_, fun m c => ⟨?_, ?_, ?_⟩⟩
        · rw [i3]
          simp only [hd, List.mem_cons, forall_eq_or_imp]
          exact ⟨fun h => ⟨by simp [Declared, hm], h⟩, fun h => h.2⟩
        · intro h
          rcases (i4 m c).1 h with h | ⟨h1, h2⟩
          · rcases (ha m c).1 h with h | ⟨h1, h2⟩
            · exact Or.inl h
            · exact Or.inr ⟨by simp [h1], h2⟩
          · exact Or.inr ⟨by simp [h1], h2⟩
        · intro h; exact (i4 m c).2.1 ((ha m c).2 (Or.inl h))
        · intro h1 h2 h3
          rcases List.mem_cons.1 h2 with h2 | h2
          · exact (i4 m c).2.1 ((ha m c).2 (Or.inr ⟨h2, h3⟩))
          · exact (i4 m c).2.2 h1 h2 h3

theorem grantAll_dry (w : Who Cert) : ∀ (ms : List Mod) (v : Vals Cert),
    (grantAll true w v ms).1 = v ∧ ((grantAll true w v ms).2 = true ↔ ∀ m ∈ ms, Declared v m) := by
  intro ms v
  induction ms with
  | nil => simp [grantAll]
  | cons m0 ms ih =>
    unfold grantAll
    cases hm : v m0 with
    | none => simp [Declared, hm]
    | some x => simp only [if_true]; simp [ih, Declared, hm]

/-- One section is acceptable. -/
def SecOk (load : String → Option Cert) (exist : Mod → Prop) (s : Sec) : Prop :=
  s.name = "authorize" ∧ (∃ file, s.certfile = some file ∧ (file = "any" ∨ (load file).isSome)) ∧
    ∃ ms, s.privileges = some ms ∧ ∀ m ∈ ms, exist m

theorem sec_cases (load : String → Option Cert) (exist : Mod → Prop) (s : Sec) :
    (¬ SecOk load exist s ∧ ∀ dry v ss, (∀ m, Declared v m ↔ exist m) → (grantSecs load dry v (s :: ss)).2 = false ∧
       ((grantSecs load dry v (s :: ss)).1 = v ∨ ∃ w ms, s.privileges = some ms ∧ (grantSecs load dry v (s :: ss)).1 = (grantAll dry w v ms).1 ∧
          ((∃ f a, s.certfile = some f ∧ f ≠ "any" ∧ load f = some a ∧ w = .owner a) ∨ s.certfile = some "any" ∧ w = .anybody))) ∨
    (SecOk load exist s ∧ ∃ w ms, s.privileges = some ms ∧ (∀ m ∈ ms, exist m) ∧
      ((∃ f a, s.certfile = some f ∧ f ≠ "any" ∧ load f = some a ∧ w = .owner a) ∨ s.certfile = some "any" ∧ w = .anybody) ∧
      ∀ dry v ss, (grantSecs load dry v (s :: ss)) =
        if (grantAll dry w v ms).2 = true then grantSecs load dry (grantAll dry w v ms).1 ss else grantAll dry w v ms) := by
  by_cases h1 : s.name ≠ "authorize"
  · exact Or.inl ⟨fun h => h1 h.1, fun dry v ss _ => by unfold grantSecs; simp [h1]⟩
  replace h1 : s.name = "authorize" := Classical.not_not.1 h1
  cases h2 : s.certfile with
  | none => exact Or.inl ⟨(fun h => by obtain ⟨f, hf, -⟩ := h.2.1; rw [h2] at hf; cases hf), fun dry v ss _ => by unfold grantSecs; simp [h1, h2]⟩
  | some file =>
    cases h3 : (if file = "any" then some (Who.anybody) else (load file).map Who.owner) with
    | none =>
      refine Or.inl ⟨fun h => ?_, fun dry v ss _ => by unfold grantSecs; simp [h1, h2, h3]⟩
      obtain ⟨f, hf, h⟩ := h.2.1
      rw [h2] at hf; cases hf
      rcases h with h | h
      · rw [if_pos h] at h3; cases h3
      · split at h3
        · cases h3
        · cases h4 : load file with
          | none => rw [h4] at h; cases h
          | some a => rw [h4] at h3; cases h3
    | some w =>
      have hw : (∃ f a, some file = some f ∧ f ≠ "any" ∧ load f = some a ∧ w = .owner a) ∨ some file = some "any" ∧ w = .anybody := by
        split at h3
        · next h => cases h3; exact Or.inr ⟨by rw [h], rfl⟩
        · next h =>
          cases h4 : load file with
          | none => rw [h4] at h3; cases h3
          | some a => rw [h4] at h3; cases h3; exact Or.inl ⟨file, a, rfl, h, h4, rfl⟩
      have hfile : file = "any" ∨ (load file).isSome := by
        rcases hw with ⟨f, a, h, -, h', -⟩ | ⟨h, -⟩
        · cases h; exact Or.inr (by rw [h']; rfl)
        · cases h; exact Or.inl rfl
      cases h5 : s.privileges with
      | none => exact Or.inl ⟨(fun h => by obtain ⟨f, hf, -⟩ := h.2.2; rw [h5] at hf; cases hf), fun dry v ss _ => by unfold grantSecs; simp [h1, h2, h3, h5]⟩
      | some ms =>
        have hstep : ∀ dry v ss, (grantSecs load dry v (s :: ss)) =
            if (grantAll dry w v ms).2 = true then grantSecs load dry (grantAll dry w v ms).1 ss else grantAll dry w v ms := by
          intro dry v ss
          rw [grantSecs]
          simp [h1, h2, h3, h5]
        by_cases h6 : ∀ m ∈ ms, exist m
        · exact Or.inr ⟨⟨h1, ⟨file, h2, hfile⟩, ms, h5, h6⟩, w, ms, rfl, h6, hw, hstep⟩
        · refine Or.inl ⟨fun h => ?_, fun dry v ss hd => ?_⟩
          · obtain ⟨ms', hms, h⟩ := h.2.2
            rw [h5] at hms; cases hms
            exact h6 h
          · have hb : (grantAll dry w v ms).2 = false := by
              have hne : ¬ ∀ m ∈ ms, Declared v m := fun h => h6 (fun m hm => (hd m).1 (h m hm))
              cases hx : (grantAll dry w v ms).2 with
              | false => rfl
              | true =>
                exfalso; apply hne
                cases dry with
                | true => exact (grantAll_dry w ms v).2.1 hx
                | false =>
                  clear hstep hd
                  revert hx
                  clear h5 hne h6
                  induction ms generalizing v with
                  | nil => simp
                  | cons m0 ms ih =>
                    intro hx
                    unfold grantAll at hx
                    cases hm : v m0 with
                    | none => rw [hm] at hx; cases hx
                    | some x =>
                      rw [hm] at hx
                      simp only [Bool.false_eq_true, if_false] at hx
                      have := ih _ hx
                      intro m h
                      rcases List.mem_cons.1 h with rfl | h
                      · simp [Declared, hm]
                      · have := this m h
                        unfold Declared put at this
                        unfold Declared
                        split at this
                        · next he => subst he; simp [hm]
                        · exact this
            rw [hstep, hb]
            exact ⟨by simp [hb], Or.inr ⟨w, ms, rfl, by simp, hw⟩⟩

theorem grantSecs_dry (load : String → Option Cert) : ∀ (cfg : List Sec) (v : Vals Cert),
    (grantSecs load true v cfg).1 = v ∧ ((grantSecs load true v cfg).2 = true ↔ ∀ s ∈ cfg, SecOk load (Declared v) s) := by
  intro cfg v
  induction cfg with
  | nil => simp [grantSecs]
  | cons s ss ih =>
    rcases sec_cases load (Declared v) s with ⟨h1, h2⟩ | ⟨h1, w, ms, hp, he, hw, hs⟩
    · obtain ⟨h3, h4⟩ := h2 true v ss (fun _ => Iff.rfl)
      refine ⟨?_, ?_⟩
      · rcases h4 with h4 | ⟨w, ms, -, h4, -⟩
        · exact h4
        · rw [h4, (grantAll_dry w ms v).1]
      · rw [h3]; simp [h1]
    · obtain ⟨g1, g2⟩ := grantAll_dry w ms v
      rw [hs, if_pos (g2.2 he), g1]
      exact ⟨ih.1, by rw [ih.2]; simp [h1]⟩

theorem granted_cons (load : String → Option Cert) (s : Sec) (ss : List Sec) (m : Mod) (c : Cmd Cert) :
    Granted load (s :: ss) m c ↔ Granted load [s] m c ∨ Granted load ss m c := by
  unfold Granted; simp [List.mem_cons, or_and_right, exists_or]

theorem granted_one (load : String → Option Cert) (s : Sec) (m : Mod) (c : Cmd Cert) (w : Who Cert) (ms : List Mod) (hp : s.privileges = some ms)
    (hw : (∃ f a, s.certfile = some f ∧ f ≠ "any" ∧ load f = some a ∧ w = .owner a) ∨ s.certfile = some "any" ∧ w = .anybody) :
    Granted load [s] m c ↔ m ∈ ms ∧ w.ok c := by
  unfold Granted
  simp only [List.mem_singleton, exists_eq_left]
  rcases hw with ⟨f, a, h1, h2, h3, rfl⟩ | ⟨h1, rfl⟩
  · constructor
    · rintro ⟨⟨ms', h4, h5⟩, h6 | ⟨f', a', h6, h7, h8, h9⟩⟩
      · rw [h1] at h6; cases h6; exact absurd rfl h2
      · rw [h1] at h6; cases h6
        rw [h3] at h8; cases h8
        rw [hp] at h4; cases h4
        exact ⟨h5, h9⟩
    · rintro ⟨h4, h5⟩
      exact ⟨⟨ms, hp, h4⟩, Or.inr ⟨f, a, h1, h2, h3, h5⟩⟩
  · constructor
    · rintro ⟨⟨ms', h4, h5⟩, -⟩
      rw [hp] at h4; cases h4
      exact ⟨h5, trivial⟩
    · rintro ⟨h4, -⟩
      exact ⟨⟨ms, hp, h4⟩, Or.inl h1⟩

theorem grantSecs_spec (load : String → Option Cert) : ∀ (cfg : List Sec) (v : Vals Cert), Set v →
    Set (grantSecs load false v cfg).1 ∧ (∀ m, Declared (grantSecs load false v cfg).1 m ↔ Declared v m) ∧
    ((grantSecs load false v cfg).2 = true ↔ ∀ s ∈ cfg, SecOk load (Declared v) s) ∧
    ∀ m c, (authorize (grantSecs load false v cfg).1 m c = some .accepted → authorize v m c = some .accepted ∨ Granted load cfg m c) ∧
      (authorize v m c = some .accepted → authorize (grantSecs load false v cfg).1 m c = some .accepted) ∧
      ((grantSecs load false v cfg).2 = true → Granted load cfg m c → authorize (grantSecs load false v cfg).1 m c = some .accepted) := by
  intro cfg
  induction cfg with
  | nil => intro v hv; simp [grantSecs, hv, Granted]
  | cons s ss ih =>
    intro v hv
    rcases sec_cases load (Declared v) s with ⟨h1, h2⟩ | ⟨h1, w, ms, hp, he, hw, hs⟩
    · obtain ⟨h3, h4⟩ := h2 false v ss (fun _ => Iff.rfl)
      rcases h4 with h4 | ⟨w, ms, hp, h4, hw⟩
      · rw [h4, h3]
        exact ⟨hv, fun _ => Iff.rfl, by simp [h1], fun m c => ⟨Or.inl, id, fun h => by cases h⟩⟩
      · obtain ⟨g1, g2, g3, g4⟩ := grantAll_spec w ms v hv
        rw [h4, h3]
        refine ⟨g1, g2, by simp [h1], fun m c => ⟨fun h => ?_, (g4 m c).2.1, fun h => by cases h⟩⟩
        rcases (g4 m c).1 h with h | h
        · exact Or.inl h
        · exact Or.inr ((granted_cons ..).2 (Or.inl ((granted_one load s m c w ms hp hw).2 h)))
    · obtain ⟨g1, g2, g3, g4⟩ := grantAll_spec w ms v hv
      obtain ⟨i1, i2, i3, i4⟩ := ih _ g1
      have hd : (Declared (grantAll false w v ms).1) = Declared v := funext fun m => propext (g2 m)
      rw [hs, if_pos (g3.2 he)]
      refine ⟨i1, fun m => (i2 m).trans (g2 m), ?_, fun m c => ⟨fun h => ?_, fun h => ?_, fun h hg => ?_⟩⟩
      · rw [i3, hd]; simp [h1]
      · rcases (i4 m c).1 h with h | h
        · rcases (g4 m c).1 h with h | h
          · exact Or.inl h
          · exact Or.inr ((granted_cons ..).2 (Or.inl ((granted_one load s m c w ms hp hw).2 h)))
        · exact Or.inr ((granted_cons ..).2 (Or.inr h))
      · exact (i4 m c).2.1 ((g4 m c).2.1 h)
      · rcases (granted_cons ..).1 hg with hg | hg
        · obtain ⟨hm, hc⟩ := (granted_one load s m c w ms hp hw).1 hg
          exact (i4 m c).2.1 ((g4 m c).2.2 (g3.2 he) hm hc)
        · exact (i4 m c).2.2 h hg

theorem reset_set (v : Vals Cert) : Set (reset v) := by
  intro m; unfold reset; cases v m <;> simp

theorem reset_declared (v : Vals Cert) (m : Mod) : Declared (reset v) m ↔ Declared v m := by
  unfold Declared reset; cases v m <;> simp

theorem reset_rejects (v : Vals Cert) (m : Mod) (c : Cmd Cert) : authorize (reset v) m c ≠ some .accepted := by
  rw [Ne, authorize_iff]
  rintro ⟨x, h1, h2⟩
  unfold reset at h1
  cases h : v m with
  | none => rw [h] at h1; cases h1
  | some y => rw [h] at h1; cases h1; simp [Acc] at h2

/-! ### Properties -/

/-- C63. After a configuration file has been processed successfully, whatever the state before, a command for a declared module
is accepted iff this file grants the module to anybody or to the signer: nothing granted earlier survives. -/
theorem C63_accepts (load : String → Option Cert) (v : Vals Cert) (cfg : List Sec) (hok : (processConfig load v cfg false).2 = true)
    (m : Mod) (hm : Declared v m) (c : Cmd Cert) :
    authorize (processConfig load v cfg false).1 m c = some .accepted ↔ Granted load cfg m c := by
  have hne : cfg ≠ [] := by rintro rfl; cases hok
  unfold processConfig at *
  simp only [Bool.false_eq_true, if_false, hne] at *
  obtain ⟨-, -, -, h⟩ := grantSecs_spec load cfg (reset v) (reset_set v)
  exact ⟨fun hh => ((h m c).1 hh).resolve_left (reset_rejects v m c), (h m c).2.2 hok⟩

/-- C63. A file is processed successfully iff it is acceptable, in a dry run as in a real one; so a file that passes the dry run
does not fail afterwards. -/
theorem C63_acceptable (load : String → Option Cert) (v : Vals Cert) (cfg : List Sec) (dryRun : Bool) :
    (processConfig load v cfg dryRun).2 = true ↔ Acceptable load (Declared v) cfg := by
  unfold processConfig Acceptable
  by_cases hne : cfg = []
  · simp [hne]
  · simp only [hne, if_false, ne_eq, not_false_eq_true, true_and]
    cases dryRun with
    | true => simp only [if_true]; exact (grantSecs_dry load cfg v).2
    | false =>
      simp only [Bool.false_eq_true, if_false]
      rw [(grantSecs_spec load cfg (reset v) (reset_set v)).2.2.1]
      have : Declared (reset v) = Declared v := funext fun m => propext (reset_declared v m)
      rw [this]; rfl

/-- C63. A dry run changes nothing. -/
theorem C63_dry_run (load : String → Option Cert) (v : Vals Cert) (cfg : List Sec) : (processConfig load v cfg true).1 = v := by
  unfold processConfig
  simp only [if_true]
  split
  · rfl
  · exact (grantSecs_dry load cfg v).1

/-- C63. Whatever becomes of a file, nothing is accepted afterwards that the file does not grant: also a file with a mistake in it
revokes the earlier grants. -/
theorem C63_fails_closed (load : String → Option Cert) (v : Vals Cert) (cfg : List Sec) (m : Mod) (c : Cmd Cert)
    (h : authorize (processConfig load v cfg false).1 m c = some .accepted) : Granted load cfg m c := by
  unfold processConfig at h
  simp only [Bool.false_eq_true, if_false] at h
  split at h
  · exact absurd h (reset_rejects v m c)
  · exact ((((grantSecs_spec load cfg (reset v) (reset_set v)).2.2.2 m c).1 h)).resolve_left (reset_rejects v m c)

theorem step_declared (load : String → Option Cert) (v : Vals Cert) (e : Ev) (m : Mod) :
    Declared (step load v e) m ↔ Declared v m ∨ e = .declare m := by
  cases e with
  | declare m' =>
    simp only [step, declare]
    cases h : v m' with
    | some x =>
      dsimp only
      constructor
      · exact Or.inl
      · rintro (h' | h')
        · exact h'
        · cases h'; simp [Declared, h]
    | none =>
      simp only [Declared, put, Ev.declare.injEq]
      by_cases hh : m = m'
      · subst hh; simp
      · simp [hh, Ne.symm hh, eq_comm (a := m') (b := m)]
  | config cfg dry =>
    simp only [step, reduceCtorEq, or_false]
    cases dry with
    | true => rw [C63_dry_run]
    | false =>
      unfold processConfig
      simp only [Bool.false_eq_true, if_false]
      split
      · exact reset_declared v m
      · exact ((grantSecs_spec load cfg (reset v) (reset_set v)).2.1 m).trans (reset_declared v m)

/-- The last file that was processed for real in a history. -/
def lastConfig : List Ev → Option (List Sec)
  | [] => none
  | e :: es => (lastConfig es).or (match e with | .config cfg false => some cfg | _ => none)

/-- C63. Over any history of declarations and configuration files: commands of a declared module are always answered; a command is
accepted only if the last file processed for real grants it, so without such a file every command is rejected. -/
theorem C63_history (load : String → Option Cert) (evs : List Ev) (m : Mod) (c : Cmd Cert) :
    (authorize (run load evs) m c = none ↔ Ev.declare m ∉ evs) ∧
    (authorize (run load evs) m c = some .accepted → ∃ cfg, lastConfig evs = some cfg ∧ Granted load cfg m c) := by
  unfold run
  have key : ∀ (evs : List Ev) (v : Vals Cert),
      (Declared (evs.foldl (step load) v) m ↔ Declared v m ∨ Ev.declare m ∈ evs) ∧
      (authorize (evs.foldl (step load) v) m c = some .accepted →
        (∃ cfg, lastConfig evs = some cfg ∧ Granted load cfg m c) ∨ lastConfig evs = none ∧ authorize v m c = some .accepted) := by
    intro evs
    induction evs with
    | nil => intro v; simp [lastConfig]
    | cons e es ih =>
      intro v
      obtain ⟨h1, h2⟩ := ih (step load v e)
      refine ⟨?_, fun h => ?_⟩
      · rw [List.foldl_cons, h1, step_declared]
        simp only [List.mem_cons, eq_comm (a := Ev.declare m)]
        constructor
        · rintro ((h | h) | h) <;> simp [h]
        · rintro (h | h | h) <;> simp [h]
      · rcases h2 h with ⟨cfg, h3, h4⟩ | ⟨h3, h4⟩
        · exact Or.inl ⟨cfg, by simp [lastConfig, h3], h4⟩
        · simp only [lastConfig, h3, Option.none_or]
          cases e with
          | declare m' =>
            refine Or.inr ⟨rfl, ?_⟩
            simp only [step, declare] at h4
            cases hx : v m' with
            | some x => rw [hx] at h4; exact h4
            | none =>
              rw [hx] at h4
              rw [authorize_iff] at h4 ⊢
              obtain ⟨x, h5, h6⟩ := h4
              by_cases hmm : m = m'
              · simp [put, hmm] at h5
              · simp only [put, if_neg hmm] at h5
                exact ⟨x, h5, h6⟩
          | config cfg dry =>
            cases dry with
            | true => rw [step, C63_dry_run] at h4; exact Or.inr ⟨rfl, h4⟩
            | false => exact Or.inl ⟨cfg, rfl, C63_fails_closed load v cfg m c h4⟩
  obtain ⟨k1, k2⟩ := key evs (fun _ => none)
  refine ⟨?_, fun h => ?_⟩
  · have : authorize (evs.foldl (step load) fun _ => none) m c = none ↔ ¬ Declared (evs.foldl (step load) fun _ => none) m := by
      unfold authorize Declared
      cases h : (evs.foldl (step load) (fun _ => none)) m with
      | none => simp
      | some x => cases x with
        | none => simp
        | some x => cases x with
          | all => simp
          | anchors l => 
            by_cases h1 : c.formed = false
            · simp [h1]
            · by_cases h2 : c.fresh = true ∧ l.any c.signedBy = true
              · simp only [if_neg h1, if_pos h2]; simp
              · simp only [if_neg h1, if_neg h2]; simp
    rw [this, k1]; simp [Declared]
  · rcases k2 h with h | ⟨-, h⟩
    · exact h
    · simp [authorize] at h

/-- C63. A command that is not accepted gets a 403 response, unless it has no usable signature, in which case it may be ignored. -/
theorem C63_rejects (v : Vals Cert) (m : Mod) (hm : Declared v m) (c : Cmd Cert) (h : authorize v m c ≠ some .accepted) :
    authorize v m c = some .status403 ∨ c.formed = false ∧ authorize v m c = some .silent := by
  unfold authorize at *
  cases hv : v m with
  | none => simp [Declared, hv] at hm
  | some x =>
    rw [hv] at h
    cases x with
    | none => exact Or.inl rfl
    | some x =>
      cases x with
      | all => exact absurd rfl h
      | anchors l =>
        simp only at h ⊢
        cases hf : c.formed with
        | false => simp
        | true =>
          by_cases hh : c.fresh = true ∧ l.any c.signedBy = true
          · simp only [hf, Bool.true_eq_false, if_false, if_pos hh] at h
            exact absurd rfl h
          · simp only [Bool.true_eq_false, if_false, if_neg hh, true_or]

/- Two certificates; `faces` granted to the first, `rib` to anybody; then a reload that grants only `faces` to the second. -/
def exLoad : String → Option Nat := fun f => if f = "one.cert" then some 1 else if f = "two.cert" then some 2 else none
def exCmd (n : Nat) : Cmd Nat := ⟨true, true, (· == n)⟩
def exCfg1 : List Sec := [⟨"authorize", some "one.cert", some ["faces"]⟩, ⟨"authorize", some "any", some ["rib"]⟩]
def exCfg2 : List Sec := [⟨"authorize", some "two.cert", some ["faces"]⟩]
def exBad : List Sec := [⟨"authorize", some "two.cert", some ["faces"]⟩, ⟨"authorize", some "gone.cert", some ["rib"]⟩]
def exV (evs : List Ev) : Vals Nat := run exLoad (.declare "faces" :: .declare "rib" :: .declare "cs" :: evs)
example : (processConfig exLoad (exV []) exCfg1 false).2 = true := by decide +kernel
example : authorize (exV [.config exCfg1 false]) "faces" (exCmd 1) = some .accepted ∧
    authorize (exV [.config exCfg1 false]) "faces" (exCmd 2) = some .status403 ∧
    authorize (exV [.config exCfg1 false]) "rib" (exCmd 7) = some .accepted ∧
    authorize (exV [.config exCfg1 false]) "cs" (exCmd 1) = some .status403 := by decide +kernel
example : authorize (exV [.config exCfg1 false, .config exCfg2 false]) "faces" (exCmd 1) = some .status403 ∧
    authorize (exV [.config exCfg1 false, .config exCfg2 false]) "rib" (exCmd 7) = some .status403 ∧
    authorize (exV [.config exCfg1 false, .config exCfg2 false]) "faces" (exCmd 2) = some .accepted := by decide +kernel
example : (processConfig exLoad (exV [.config exCfg1 false]) exBad false).2 = false ∧
    authorize (exV [.config exCfg1 false, .config exBad false]) "rib" (exCmd 7) = some .status403 := by decide +kernel
example : authorize (exV []) "faces" (exCmd 1) = some .status403 ∧
    authorize (exV [.config exCfg1 false]) "faces" ⟨false, true, fun _ => true⟩ = some .silent := by decide +kernel

end Verif.Auth
