import Verif.Cf.Lemmas

/-! Lemmas about whole files. -/
namespace Verif.Cf

variable {Cert F : Type} {e : Env Cert F} {d : Name} {s s' : St Cert F}

theorem privInit_frame (p : Priv.St) (u g : Option Priv.Entry) (us gs : Nat) :
    (Priv.init p u g us gs).1.euid = p.euid ∧ (Priv.init p u g us gs).1.egid = p.egid ∧ (Priv.init p u g us gs).1.privUid = p.privUid ∧
    (Priv.init p u g us gs).1.privGid = p.privGid ∧ (Priv.init p u g us gs).1.outcomes = p.outcomes := by
  unfold Priv.init
  dsimp only
  split
  · simp
  · split <;> simp

theorem privInit_ok (p q : Priv.St) (u g : Option Priv.Entry) (us gs : Nat) :
    (Priv.init p u g us gs).2 = (Priv.init q u g us gs).2 := by
  unfold Priv.init
  dsimp only
  cases g with
  | none =>
    dsimp only
    cases u with
    | none => rfl
    | some u => dsimp only; cases Priv.lookup u Priv.maxBuffer us <;> rfl
  | some g =>
    dsimp only
    cases Priv.lookup g Priv.maxBuffer gs with
    | none => rfl
    | some _ =>
      dsimp only
      cases u with
      | none => rfl
      | some u => dsimp only; cases Priv.lookup u Priv.maxBuffer us <;> rfl

theorem general_priv (e : Env Cert F) (n : Node) (s : St Cert F) :
    (generalSection e n s).1.priv.euid = s.priv.euid ∧ (generalSection e n s).1.priv.egid = s.priv.egid ∧
    (generalSection e n s).1.priv.privUid = s.priv.privUid ∧ (generalSection e n s).1.priv.privGid = s.priv.privGid ∧
    (generalSection e n s).1.priv.outcomes = s.priv.outcomes := by
  unfold generalSection
  split
  · exact ⟨rfl, rfl, rfl, rfl, rfl⟩
  · exact privInit_frame ..

/-- Everything that section `tables` may change. -/
def tab (s : St Cert F) := (s.cs, s.tb, s.fw.unsolicited, s.fw.regions, s.configured)

theorem tab_ext (h : tab s = tab s') : s.cs = s'.cs ∧ s.tb = s'.tb ∧ s.fw.unsolicited = s'.fw.unsolicited ∧
    s.fw.regions = s'.fw.regions ∧ s.configured = s'.configured := by simpa [tab] using h

theorem general_frame (e : Env Cert F) (n : Node) (s : St Cert F) : tab (generalSection e n s).1 = tab s ∧
    (generalSection e n s).1.fw = s.fw ∧ (generalSection e n s).1.auth = s.auth ∧ (generalSection e n s).1.face = s.face := by
  unfold generalSection
  split <;> simp [tab]

theorem forwarder_frame (e : Env Cert F) (n : Node) (dry : Bool) (s : St Cert F) : tab (forwarderSection e n dry s).1 = tab s ∧
    (forwarderSection e n dry s).1.auth = s.auth ∧ (forwarderSection e n dry s).1.face = s.face ∧ (forwarderSection e n dry s).1.priv = s.priv := by
  unfold forwarderSection
  split
  · simp [tab]
  · cases dry <;> simp [tab]

theorem auth_frame (e : Env Cert F) (n : Node) (dry : Bool) (s : St Cert F) : tab (authSection e n dry s).1 = tab s ∧
    (authSection e n dry s).1.fw = s.fw ∧ (authSection e n dry s).1.face = s.face ∧ (authSection e n dry s).1.priv = s.priv := by
  simp [authSection, tab]

theorem face_frame (e : Env Cert F) (n : Node) (dry : Bool) (s : St Cert F) : tab (faceSection e n dry s).1 = tab s ∧
    (faceSection e n dry s).1.fw = s.fw ∧ (faceSection e n dry s).1.auth = s.auth ∧ (faceSection e n dry s).1.priv = s.priv := by
  simp [faceSection, tab]

/-- No section makes an assertion fail; sections other than the one concerned leave a component alone. -/
theorem section1_frame (hr : Running e d s) (name : String) (n : Node) :
    ∃ s' ok, section1 e name n false s = some (s', ok) ∧ Running e d s' ∧ (name ≠ "tables" → tab s' = tab s) ∧
      (name ≠ "forwarder" → s'.fw.defaultHopLimit = s.fw.defaultHopLimit) ∧ (name ≠ "authorizations" → s'.auth = s.auth) ∧
      (name ≠ "general" → s'.priv = s.priv) ∧ (name ≠ "face_system" → s'.face = s.face) := by
  have keep : ∀ s' : St Cert F, tab s' = tab s → Running e d s' := by
    intro s' h
    obtain ⟨h1, h2, -⟩ := tab_ext h
    exact ⟨by rw [h1]; exact hr.cs, by rw [h2]; exact hr.tb⟩
  unfold section1
  by_cases h1 : name = "general"
  · rw [if_pos h1]
    obtain ⟨a, b, c, f⟩ := general_frame e n s
    exact ⟨_, _, rfl, keep _ a, fun _ => a, fun _ => congrArg Fw.Config.defaultHopLimit b, fun _ => c, fun h => absurd h1 h, fun _ => f⟩
  rw [if_neg h1]
  by_cases h2 : name = "forwarder"
  · rw [if_pos h2]
    obtain ⟨a, c, f, p⟩ := forwarder_frame e n false s
    exact ⟨_, _, rfl, keep _ a, fun _ => a, fun h => absurd h2 h, fun _ => c, fun _ => p, fun _ => f⟩
  rw [if_neg h2]
  by_cases h3 : name = "tables"
  · rw [if_pos h3]
    obtain ⟨s', ok, a1, a2, a3, -⟩ := tables_real hr n
    exact ⟨s', ok, a1, a2, fun h => absurd h3 h, fun _ => a3.hop, fun _ => a3.auth, fun _ => a3.priv, fun _ => a3.face⟩
  rw [if_neg h3]
  by_cases h4 : name = "authorizations"
  · rw [if_pos h4]
    obtain ⟨a, b, f, p⟩ := auth_frame e n false s
    exact ⟨_, _, rfl, keep _ a, fun _ => a, fun _ => congrArg Fw.Config.defaultHopLimit b, fun h => absurd h4 h, fun _ => p, fun _ => f⟩
  rw [if_neg h4]
  by_cases h5 : name = "face_system"
  · rw [if_pos h5]
    obtain ⟨a, b, c, p⟩ := face_frame e n false s
    exact ⟨_, _, rfl, keep _ a, fun _ => a, fun _ => congrArg Fw.Config.defaultHopLimit b, fun _ => c, fun _ => p, fun h => absurd h5 h⟩
  rw [if_neg h5]
  split
  · exact ⟨s, true, rfl, hr, fun _ => rfl, fun _ => rfl, fun _ => rfl, fun _ => rfl, fun _ => rfl⟩
  · exact ⟨s, false, rfl, hr, fun _ => rfl, fun _ => rfl, fun _ => rfl, fun _ => rfl, fun _ => rfl⟩

/-- The same for a file. -/
theorem process_frame (l : List (String × Node)) : ∀ {s : St Cert F}, Running e d s →
    ∃ s' ok, process e l false s = some (s', ok) ∧ Running e d s' ∧ ((∀ x ∈ l, x.1 ≠ "tables") → tab s' = tab s) ∧
      ((∀ x ∈ l, x.1 ≠ "forwarder") → s'.fw.defaultHopLimit = s.fw.defaultHopLimit) ∧ ((∀ x ∈ l, x.1 ≠ "authorizations") → s'.auth = s.auth) ∧
      ((∀ x ∈ l, x.1 ≠ "general") → s'.priv = s.priv) ∧ ((∀ x ∈ l, x.1 ≠ "face_system") → s'.face = s.face) := by
  induction l with
  | nil => intro s hr; exact ⟨s, true, rfl, hr, fun _ => rfl, fun _ => rfl, fun _ => rfl, fun _ => rfl, fun _ => rfl⟩
  | cons x l ih =>
    intro s hr
    obtain ⟨s1, ok, a1, a2, a3, a4, a5, a6, a7⟩ := section1_frame hr x.1 x.2
    cases ok with
    | false =>
      refine ⟨s1, false, by simp only [process, a1], a2, fun h => a3 (h x (by simp)), fun h => a4 (h x (by simp)), fun h => a5 (h x (by simp)),
        fun h => a6 (h x (by simp)), fun h => a7 (h x (by simp))⟩
    | true =>
      obtain ⟨s2, ok, b1, b2, b3, b4, b5, b6, b7⟩ := ih a2
      refine ⟨s2, ok, by simp only [process, a1]; exact b1, b2, fun h => ?_, fun h => ?_, fun h => ?_, fun h => ?_, fun h => ?_⟩
      · rw [b3 (fun y hy => h y (by simp [hy])), a3 (h x (by simp))]
      · rw [b4 (fun y hy => h y (by simp [hy])), a4 (h x (by simp))]
      · rw [b5 (fun y hy => h y (by simp [hy])), a5 (h x (by simp))]
      · rw [b6 (fun y hy => h y (by simp [hy])), a6 (h x (by simp))]
      · rw [b7 (fun y hy => h y (by simp [hy])), a7 (h x (by simp))]

theorem process_append (dry : Bool) (b : List (String × Node)) : ∀ (a : List (String × Node)) (s s' : St Cert F),
    process e (a ++ b) dry s = some (s', true) → ∃ s1, process e a dry s = some (s1, true) ∧ process e b dry s1 = some (s', true) := by
  intro a
  induction a with
  | nil => intro s s' h; exact ⟨s, rfl, h⟩
  | cons x a ih =>
    intro s s' h
    simp only [List.cons_append, process] at h ⊢
    cases hs : section1 e x.1 x.2 dry s with
    | none => rw [hs] at h; cases h
    | some r =>
      obtain ⟨s1, ok⟩ := r
      rw [hs] at h
      cases ok with
      | false => cases h
      | true => exact ih s1 s' h

/-- A successful run, split at one section that occurs once. -/
theorem process_split {file : List (String × Node)} (hr : Running e d s) (hn : file.Pairwise (fun a b => a.1 ≠ b.1))
    (hok : process e file false s = some (s', true)) {name : String} {n : Node} (hx : (name, n) ∈ file) :
    ∃ a b s1 s2, (∀ x ∈ a, x.1 ≠ name) ∧ (∀ x ∈ b, x.1 ≠ name) ∧ process e a false s = some (s1, true) ∧ Running e d s1 ∧
      section1 e name n false s1 = some (s2, true) ∧ Running e d s2 ∧ process e b false s2 = some (s', true) := by
  obtain ⟨a, b, rfl⟩ := List.append_of_mem hx
  rw [List.pairwise_append, List.pairwise_cons] at hn
  obtain ⟨s1, h1, h2⟩ := process_append false _ a s s' hok
  obtain ⟨t1, ok1, c1, c2, -⟩ := process_frame (e := e) (d := d) a hr
  rw [h1] at c1; cases c1
  simp only [process] at h2
  cases hs : section1 e name n false s1 with
  | none => rw [hs] at h2; cases h2
  | some r =>
    obtain ⟨s2, ok⟩ := r
    rw [hs] at h2
    cases ok with
    | false => cases h2
    | true =>
      obtain ⟨t2, ok2, e1, e2, -⟩ := section1_frame c2 name n
      rw [hs] at e1; cases e1
      exact ⟨a, b, s1, s2, fun x hx => hn.2.2 x hx (name, n) (by simp), fun x hx => Ne.symm (hn.2.1.1 x hx), h1, c2, hs, e2, h2⟩

theorem TablesDone.congr {s t s' t' : St Cert F} {n : Node} (h : TablesDone e n s s') (h1 : tab t = tab s) (h2 : tab t' = tab s') : TablesDone e n t t' := by
  obtain ⟨a1, a2, a3, a4, a5⟩ := tab_ext h1
  obtain ⟨b1, b2, b3, b4, b5⟩ := tab_ext h2
  refine ⟨?_, ?_, ?_, ?_, ?_, ?_, ?_, ?_, ?_, ?_⟩
  · rw [b1]; exact h.limit
  · rw [b1]; exact h.size
  · rw [a1, b1]; exact h.kept
  · rw [a1, b1]; exact h.policy
  · rw [a1, b1]; exact h.flags
  · rw [b3]; exact h.unsolicited
  · rw [b2]; exact h.chosen
  · rw [a2, b2]; exact h.unchosen
  · rw [a4, b4]; exact h.regions
  · rw [b5]; exact h.configured

theorem readHopLimit_spec (e : Env Cert F) : ∀ (l : List (String × Node)) (h0 h : Nat), readHopLimit e l h0 = some h →
    (l = [] ∧ h = h0) ∨ ∃ a x, l = a ++ [x] ∧ e.num 255 x.2.value = some h := by
  intro l
  induction l with
  | nil => intro h0 h hh; simp only [readHopLimit, Option.some.injEq] at hh; exact Or.inl ⟨rfl, hh.symm⟩
  | cons x l ih =>
    intro h0 h hh
    simp only [readHopLimit] at hh
    split at hh
    · cases hx : e.num 255 x.2.value with
      | none => rw [hx] at hh; cases hh
      | some h1 =>
        rw [hx] at hh
        rcases ih h1 h hh with ⟨rfl, rfl⟩ | ⟨a, y, rfl, hy⟩
        · exact Or.inr ⟨[], x, rfl, hx⟩
        · exact Or.inr ⟨x :: a, y, rfl, hy⟩
    · cases hh

/-- A dry run of one section. -/
theorem section1_dry (e : Env Cert F) (name : String) (n : Node) (s : St Cert F) :
    ∃ s' ok, section1 e name n true s = some (s', ok) ∧ s'.cs = s.cs ∧ s'.tb = s.tb ∧ s'.fw = s.fw ∧ s'.auth = s.auth ∧ s'.configured = s.configured ∧
      (name ≠ "general" → s'.priv = s.priv) ∧ (name ≠ "face_system" → s'.face = s.face) ∧
      s'.priv.euid = s.priv.euid ∧ s'.priv.egid = s.priv.egid ∧ s'.priv.privUid = s.priv.privUid ∧ s'.priv.privGid = s.priv.privGid ∧
      s'.priv.outcomes = s.priv.outcomes ∧
      (s'.face = s.face ∨ ∃ f, s'.face = (e.faceSystem n true f).1 ∧ f = s.face) := by
  unfold section1
  by_cases h1 : name = "general"
  · rw [if_pos h1]
    obtain ⟨a, b, c, f⟩ := general_frame e n s
    obtain ⟨t1, t2, -, -, t5⟩ := tab_ext a
    refine ⟨(generalSection e n s).1, (generalSection e n s).2, rfl, t1, t2, b, c, t5, fun h => absurd h1 h, fun _ => f, ?_⟩
    obtain ⟨p1, p2, p3, p4, p5⟩ := general_priv e n s
    exact ⟨p1, p2, p3, p4, p5, Or.inl f⟩
  rw [if_neg h1]
  by_cases h2 : name = "forwarder"
  · rw [if_pos h2]
    unfold forwarderSection
    split <;> exact ⟨s, _, rfl, rfl, rfl, rfl, rfl, rfl, fun _ => rfl, fun _ => rfl, rfl, rfl, rfl, rfl, rfl, Or.inl rfl⟩
  rw [if_neg h2]
  by_cases h3 : name = "tables"
  · rw [if_pos h3]
    obtain ⟨ok, h, _⟩ := tables_dry e n s
    rw [h]
    exact ⟨s, ok, rfl, rfl, rfl, rfl, rfl, rfl, fun _ => rfl, fun _ => rfl, rfl, rfl, rfl, rfl, rfl, Or.inl rfl⟩
  rw [if_neg h3]
  by_cases h4 : name = "authorizations"
  · rw [if_pos h4]
    exact ⟨_, _, rfl, rfl, rfl, rfl, Auth.C63_dry_run e.load s.auth _, rfl, fun _ => rfl, fun _ => rfl, rfl, rfl, rfl, rfl, rfl, Or.inl rfl⟩
  rw [if_neg h4]
  by_cases h5 : name = "face_system"
  · rw [if_pos h5]
    exact ⟨_, _, rfl, rfl, rfl, rfl, rfl, rfl, fun _ => rfl, fun h => absurd h5 h, rfl, rfl, rfl, rfl, rfl, Or.inr ⟨s.face, rfl, rfl⟩⟩
  rw [if_neg h5]
  split <;> exact ⟨s, _, rfl, rfl, rfl, rfl, rfl, rfl, fun _ => rfl, fun _ => rfl, rfl, rfl, rfl, rfl, rfl, Or.inl rfl⟩

theorem authorizes_iff (e : Env Cert F) (n : Node) (m : String) (c : Auth.Cmd Cert) :
    Auth.Granted e.load (n.kids.map authSec) m c ↔ Authorizes e n m c := by
  unfold Auth.Granted Authorizes
  simp only [first_iff, List.mem_map]
  constructor
  · rintro ⟨_, ⟨x, hx, rfl⟩, ⟨ms, h1, h2⟩, h3⟩
    simp only [authSec, Option.map_eq_some_iff] at h1 h3
    obtain ⟨p, hp, rfl⟩ := h1
    obtain ⟨y, hy, hym⟩ := List.mem_map.1 h2
    refine ⟨x, hx, ⟨p, hp, y, hy, hym⟩, ?_⟩
    rcases h3 with ⟨f, hf, hv⟩ | ⟨file, cert, ⟨f, hf, rfl⟩, h4, h5⟩
    · exact ⟨f, hf, Or.inl hv⟩
    · exact ⟨f, hf, Or.inr ⟨cert, h4, h5⟩⟩
  · rintro ⟨x, hx, ⟨p, hp, y, hy, hym⟩, f, hf, h3⟩
    refine ⟨authSec x, ⟨x, hx, rfl⟩, ⟨p.kids.map (·.1), by simp [authSec, hp], List.mem_map.2 ⟨y, hy, hym⟩⟩, ?_⟩
    rcases h3 with h3 | ⟨cert, h4, h5⟩
    · exact Or.inl (by simp [authSec, hf, h3])
    · exact Or.inr ⟨f.value, cert, by simp [authSec, hf], h4, h5⟩

theorem lookup_found {x : Priv.Entry} : ∀ {fuel size id : Nat}, Priv.lookup x fuel size = some id → ∃ need, x = .found id need := by
  intro fuel
  induction fuel with
  | zero => intro size id h; simp [Priv.lookup] at h
  | succ k ih =>
    intro size id h
    rw [Priv.lookup.eq_def] at h
    dsimp only at h
    cases x with
    | missing => cases h
    | failure => cases h
    | found i need =>
      dsimp only at h
      split at h
      · split at h
        · cases h
        · exact ih h
      · cases h; exact ⟨need, rfl⟩

theorem readIdentity_spec : ∀ (l : List (String × Node)) (u g u' g' : String), readIdentity l u g = some (u', g') →
    ((∀ y ∈ l, y.1 ≠ "user") ∧ u' = u ∨ u' ≠ "" ∧ ∃ b x a, l = b ++ ("user", x) :: a ∧ (∀ y ∈ a, y.1 ≠ "user") ∧ x.value = u') ∧
    ((∀ y ∈ l, y.1 ≠ "group") ∧ g' = g ∨ g' ≠ "" ∧ ∃ b x a, l = b ++ ("group", x) :: a ∧ (∀ y ∈ a, y.1 ≠ "group") ∧ x.value = g') := by
  intro l
  induction l with
  | nil =>
    intro u g u' g' h
    simp only [readIdentity, Option.some.injEq, Prod.mk.injEq] at h
    obtain ⟨rfl, rfl⟩ := h
    exact ⟨Or.inl ⟨by simp, rfl⟩, Or.inl ⟨by simp, rfl⟩⟩
  | cons z l ih =>
    obtain ⟨k, z⟩ := z
    intro u g u' g' h
    rw [readIdentity] at h
    dsimp only at h
    by_cases h1 : k = "user"
    · rw [if_pos h1] at h
      by_cases h2 : z.value = ""
      · rw [if_pos h2] at h; cases h
      · rw [if_neg h2] at h
        obtain ⟨a, b⟩ := ih _ _ _ _ h
        subst h1
        constructor
        · rcases a with ⟨a1, rfl⟩ | ⟨a0, b', x, a', rfl, a2, a3⟩
          · exact Or.inr ⟨h2, [], z, l, rfl, a1, rfl⟩
          · exact Or.inr ⟨a0, ("user", z) :: b', x, a', rfl, a2, a3⟩
        · rcases b with ⟨a1, rfl⟩ | ⟨a0, b', x, a', rfl, a2, a3⟩
          · refine Or.inl ⟨?_, rfl⟩
            intro y hy
            rcases List.mem_cons.1 hy with rfl | hy
            · simp
            · exact a1 y hy
          · exact Or.inr ⟨a0, ("user", z) :: b', x, a', rfl, a2, a3⟩
    · rw [if_neg h1] at h
      by_cases h3 : k = "group"
      · rw [if_pos h3] at h
        by_cases h2 : z.value = ""
        · rw [if_pos h2] at h; cases h
        · rw [if_neg h2] at h
          obtain ⟨b, a⟩ := ih _ _ _ _ h
          subst h3
          constructor
          · rcases b with ⟨a1, rfl⟩ | ⟨a0, b', x, a', rfl, a2, a3⟩
            · refine Or.inl ⟨?_, rfl⟩
              intro y hy
              rcases List.mem_cons.1 hy with rfl | hy
              · simp
              · exact a1 y hy
            · exact Or.inr ⟨a0, ("group", z) :: b', x, a', rfl, a2, a3⟩
          · rcases a with ⟨a1, rfl⟩ | ⟨a0, b', x, a', rfl, a2, a3⟩
            · exact Or.inr ⟨h2, [], z, l, rfl, a1, rfl⟩
            · exact Or.inr ⟨a0, ("group", z) :: b', x, a', rfl, a2, a3⟩
      · rw [if_neg h3] at h
        obtain ⟨a, b⟩ := ih _ _ _ _ h
        constructor
        · rcases a with ⟨a1, rfl⟩ | ⟨a0, b', x, a', rfl, a2, a3⟩
          · refine Or.inl ⟨?_, rfl⟩
            intro y hy
            rcases List.mem_cons.1 hy with rfl | hy
            · exact h1
            · exact a1 y hy
          · exact Or.inr ⟨a0, (k, z) :: b', x, a', rfl, a2, a3⟩
        · rcases b with ⟨a1, rfl⟩ | ⟨a0, b', x, a', rfl, a2, a3⟩
          · refine Or.inl ⟨?_, rfl⟩
            intro y hy
            rcases List.mem_cons.1 hy with rfl | hy
            · exact h3
            · exact a1 y hy
          · exact Or.inr ⟨a0, (k, z) :: b', x, a', rfl, a2, a3⟩

/-- A section that fails in a dry run, whatever the state, makes the dry run fail. -/
theorem process_dry_fails (e : Env Cert F) {x : String × Node} (hx : ∀ s : St Cert F, ∃ s', section1 e x.1 x.2 true s = some (s', false)) :
    ∀ (file : List (String × Node)) (s : St Cert F), x ∈ file → ∃ s', process e file true s = some (s', false) := by
  intro file
  induction file with
  | nil => intro s h; cases h
  | cons y l ih =>
    intro s h
    obtain ⟨s1, ok, a0, -⟩ := section1_dry e y.1 y.2 s
    cases ok with
    | false => exact ⟨s1, by simp only [process, a0]⟩
    | true =>
      rcases List.mem_cons.1 h with rfl | h
      · obtain ⟨s2, h2⟩ := hx s
        rw [a0] at h2; cases h2
      · obtain ⟨s2, h2⟩ := ih s1 h
        exact ⟨s2, by simp only [process, a0]; exact h2⟩

end Verif.Cf
