import Verif.Mgmt.Priv

/-! C67: the identity of the process after `PrivilegeHelper` operations. -/
namespace Verif.Priv

/-- The process runs as the configured user and group. -/
def Normal (s : St) : Prop := s.euid = s.normalUid ∧ s.egid = s.normalGid
/-- The process runs as the user and group it was started with. -/
def Privileged (s : St) : Prop := s.euid = s.privUid ∧ s.egid = s.privGid
/-- The remembered identities are the same. -/
def SameConfig (s t : St) : Prop :=
  t.normalUid = s.normalUid ∧ t.normalGid = s.normalGid ∧ t.privUid = s.privUid ∧ t.privGid = s.privGid

instance (s : St) : Decidable (Normal s) := inferInstanceAs (Decidable (_ ∧ _))
instance (s : St) : Decidable (Privileged s) := inferInstanceAs (Decidable (_ ∧ _))

theorem seteuid_spec (s : St) (u : Nat) : SameConfig s (seteuid s u).1 ∧ (seteuid s u).1.egid = s.egid ∧
    ((seteuid s u).2 = true ∧ (seteuid s u).1.euid = u ∧ s.outcomes.head? ≠ some false ∨
     (seteuid s u).2 = false ∧ (seteuid s u).1.euid = s.euid ∧ s.outcomes.head? = some false) ∧
    (seteuid s u).1.outcomes = s.outcomes.tail := by
  unfold seteuid SameConfig
  cases h : s.outcomes with
  | nil => simp
  | cons b l => cases b <;> simp

theorem setegid_spec (s : St) (u : Nat) : SameConfig s (setegid s u).1 ∧ (setegid s u).1.euid = s.euid ∧
    ((setegid s u).2 = true ∧ (setegid s u).1.egid = u ∧ s.outcomes.head? ≠ some false ∨
     (setegid s u).2 = false ∧ (setegid s u).1.egid = s.egid ∧ s.outcomes.head? = some false) ∧
    (setegid s u).1.outcomes = s.outcomes.tail := by
  unfold setegid SameConfig
  cases h : s.outcomes with
  | nil => simp
  | cons b l => cases b <;> simp

/-- C67. `drop` ends in one of two ways: it returns, and then the configured user and group are in effect; or it raises an
error, exactly when it had something to do and one of its system calls was refused. -/
theorem C67_drop (s : St) : SameConfig s (drop s).1 ∧
    ((drop s).2 = .returned ∧ Normal (drop s).1 ∨ (drop s).2 = .error) ∧
    ((drop s).2 = .error ↔ ¬ Normal s ∧ false ∈ s.outcomes.take 2) := by
  obtain ⟨a1, a2, a3, a4⟩ := setegid_spec s s.normalGid
  obtain ⟨b1, b2, b3, b4⟩ := seteuid_spec (setegid s s.normalGid).1 (setegid s s.normalGid).1.normalUid
  unfold drop
  by_cases h : s.euid = s.normalUid ∧ s.egid = s.normalGid
  · simp [h, Normal, SameConfig]
  · simp only [if_neg h]
    rw [a4] at b3
    have ht : false ∈ s.outcomes.take 2 ↔ s.outcomes.head? = some false ∨ s.outcomes.tail.head? = some false := by
      match s.outcomes with
      | [] => simp
      | [b] => cases b <;> simp
      | b :: c :: l => cases b <;> cases c <;> simp
    rw [ht]
    unfold SameConfig Normal at *
    grind

/-- C67. `raise` ends in one of two ways: it returns, and then the user and group the process was started with are in effect; or
it raises an error, exactly when it had something to do and one of its system calls was refused. -/
theorem C67_raise (s : St) : SameConfig s (raise s).1 ∧
    ((raise s).2 = .returned ∧ Privileged (raise s).1 ∨ (raise s).2 = .error) ∧
    ((raise s).2 = .error ↔ ¬ Privileged s ∧ false ∈ s.outcomes.take 2) := by
  obtain ⟨a1, a2, a3, a4⟩ := seteuid_spec s s.privUid
  obtain ⟨b1, b2, b3, b4⟩ := setegid_spec (seteuid s s.privUid).1 (seteuid s s.privUid).1.privGid
  unfold raise
  by_cases h : s.euid = s.privUid ∧ s.egid = s.privGid
  · simp [h, Privileged, SameConfig]
  · simp only [if_neg h]
    rw [a4] at b3
    have ht : false ∈ s.outcomes.take 2 ↔ s.outcomes.head? = some false ∨ s.outcomes.tail.head? = some false := by
      match s.outcomes with
      | [] => simp
      | [b] => cases b <;> simp
      | b :: c :: l => cases b <;> cases c <;> simp
    rw [ht]
    unfold SameConfig Privileged at *
    grind

/-- C67. `runElevated` runs the function with the privileged identity, and unless it ends with the helper's own error the
configured identity is in effect afterwards, whether the function returned or threw, and the function's own ending is passed on. -/
theorem C67_elevated (f : St → St × End) (hf : ∀ t, SameConfig t (f t).1) (s : St) :
    (runElevated f s).2 = .error ∨
    ∃ t, Privileged t ∧ SameConfig s t ∧ (runElevated f s).2 = (f t).2 ∧ Normal (runElevated f s).1 ∧ SameConfig s (runElevated f s).1 := by
  obtain ⟨a1, a2, -⟩ := C67_raise s
  unfold runElevated
  rcases a2 with ⟨h, hp⟩ | h
  · obtain ⟨b1, b2, -⟩ := C67_drop (f (raise s).1).1
    have hf := hf (raise s).1
    have hc : SameConfig s (drop (f (raise s).1).1).1 := by unfold SameConfig at *; omega
    simp only [h]
    rcases b2 with ⟨h2, hn⟩ | h2
    · right
      refine ⟨(raise s).1, hp, a1, ?_, ?_, ?_⟩ <;> cases h3 : (f (raise s).1).2 <;> simp only [h2, if_true] <;> assumption
    · left
      cases h3 : (f (raise s).1).2 <;> simp [h2]
  · left; simp only [h]

/-- C67. The function given to `runElevated` is only ever run with the privileged identity: what it does otherwise is irrelevant. -/
theorem C67_elevated_only (f g : St → St × End) (h : ∀ t, Privileged t → f t = g t) (s : St) : runElevated f s = runElevated g s := by
  unfold runElevated
  rcases (C67_raise s).2.1 with ⟨h1, hp⟩ | h1
  · simp only [h1, h _ hp]
  · simp only [h1]

theorem lookup_spec (e : Entry) (id : Nat) : ∀ fuel size, 0 < size → maxBuffer < size * 2 ^ fuel →
    (lookup e fuel size = some id ↔ ∃ need k, e = .found id need ∧ need ≤ size * 2 ^ k ∧ (k = 0 ∨ size * 2 ^ k ≤ maxBuffer)) ∨ fuel = 0 := by
  intro fuel
  induction fuel with
  | zero => intros; exact Or.inr rfl
  | succ fuel ih =>
    intro size h0 hf
    left
    cases e with
    | missing => simp [lookup]
    | failure => simp [lookup]
    | found id' need =>
      unfold lookup
      dsimp only
      by_cases h1 : size < need
      · rw [if_pos h1]
        by_cases h2 : maxBuffer < size * 2
        · rw [if_pos h2]
          constructor
          · intro h; cases h
          · rintro ⟨n, k, hk, h3, h4⟩
            cases hk
            rcases k with - | k
            · simp at h3; omega
            · have : size * 2 ≤ size * 2 ^ (k + 1) := Nat.mul_le_mul_left _ (Nat.le_self_pow (by omega) 2)
              omega
        · rw [if_neg h2]
          have := ih (size * 2) (by omega) (by rw [Nat.mul_assoc, ← Nat.pow_succ']; exact hf)
          rcases this with h | h
          · rw [h]
            constructor
            · rintro ⟨n, k, hk, h3, h4⟩
              refine ⟨n, k + 1, hk, ?_, Or.inr ?_⟩
              · rw [Nat.pow_succ', ← Nat.mul_assoc]; exact h3
              · rw [Nat.pow_succ', ← Nat.mul_assoc]
                rcases h4 with rfl | h4
                · omega
                · exact h4
            · rintro ⟨n, k, hk, h3, h4⟩
              cases hk
              rcases k with - | k
              · simp at h3; omega
              · rw [Nat.pow_succ', ← Nat.mul_assoc] at h3 h4
                exact ⟨need, k, rfl, h3, Or.inr (by omega)⟩
          · subst h; simp at hf; omega
      · rw [if_neg h1]
        constructor
        · intro h; cases h; exact ⟨need, 0, rfl, by omega, Or.inl rfl⟩
        · rintro ⟨n, k, hk, -, -⟩; cases hk; rfl

/-- What the account database says about a name, as far as the buffer limit lets the process read it: the id of an existing
entry that fits into the first buffer or into one doubled from it of at most 16384 octets. -/
def Known (size : Nat) (e : Entry) (id : Nat) : Prop :=
  ∃ need k, e = .found id need ∧ need ≤ size * 2 ^ k ∧ (k = 0 ∨ size * 2 ^ k ≤ 16384)

/-- C67. `initialize` returns normally iff every name given is known, and then the configured identity consists of the ids of the
names given (and is left as it was where no name is given). Otherwise it raises an error. The effective identity is not changed. -/
theorem C67_initialize (s : St) (user group : Option Entry) (userSize groupSize : Nat) (hu : 0 < userSize) (hg : 0 < groupSize) :
    let r := init s user group userSize groupSize
    r.1.euid = s.euid ∧ r.1.egid = s.egid ∧ r.1.privUid = s.privUid ∧ r.1.privGid = s.privGid ∧
    (r.2 = .returned ∨ r.2 = .error) ∧
    (r.2 = .returned ↔ (∀ e, user = some e → ∃ id, Known userSize e id) ∧ ∀ e, group = some e → ∃ id, Known groupSize e id) ∧
    (r.2 = .returned → (∀ e, user = some e → Known userSize e r.1.normalUid) ∧ (user = none → r.1.normalUid = s.normalUid) ∧
      (∀ e, group = some e → Known groupSize e r.1.normalGid) ∧ (group = none → r.1.normalGid = s.normalGid)) := by
  have key : ∀ e size id, 0 < size → (lookup e maxBuffer size = some id ↔ Known size e id) := by
    intro e size id h
    have h2 : maxBuffer < size * 2 ^ maxBuffer :=
      Nat.lt_of_lt_of_le Nat.lt_two_pow_self (Nat.le_mul_of_pos_left _ h)
    rcases lookup_spec e id maxBuffer size h h2 with h3 | h3
    · exact h3
    · cases h3
  have hG : ∀ e id, lookup e maxBuffer groupSize = some id ↔ Known groupSize e id := fun e id => key e groupSize id hg
  have hU : ∀ e id, lookup e maxBuffer userSize = some id ↔ Known userSize e id := fun e id => key e userSize id hu
  have nG : ∀ e, lookup e maxBuffer groupSize = none → ∀ id, ¬ Known groupSize e id := by
    intro e h id hk; rw [← hG, h] at hk; cases hk
  have nU : ∀ e, lookup e maxBuffer userSize = none → ∀ id, ¬ Known userSize e id := by
    intro e h id hk; rw [← hU, h] at hk; cases hk
  unfold init
  cases group with
  | none =>
    cases user with
    | none => simp
    | some u =>
      cases h : lookup u maxBuffer userSize with
      | none => simp only [h]; simp [nU u h]
      | some uid => simp only [h]; simp [(hU u uid).1 h]; exact ⟨uid, (hU u uid).1 h⟩
  | some g =>
    cases h' : lookup g maxBuffer groupSize with
    | none => simp only [h']; simp [nG g h']
    | some gid =>
      cases user with
      | none => simp only [h']; simp [(hG g gid).1 h']; exact ⟨gid, (hG g gid).1 h'⟩
      | some u =>
        cases h : lookup u maxBuffer userSize with
        | none => simp only [h', h]; simp [nU u h]
        | some uid =>
          simp only [h', h]
          simp [(hU u uid).1 h, (hG g gid).1 h']
          exact ⟨⟨uid, (hU u uid).1 h⟩, ⟨gid, (hG g gid).1 h'⟩⟩

/-- C67. What is left undone on an error: `raise` refused half-way leaves the privileged user in effect (the error is meant to end
the program). -/
theorem C67_half_raised : ∃ s : St, Normal s ∧ (raise s).2 = .error ∧ (raise s).1.euid = s.privUid ∧ s.privUid ≠ s.normalUid ∧
    ∀ f, runElevated f s = raise s :=
  ⟨⟨1000, 1000, 0, 0, 1000, 1000, [true, false]⟩, by decide, by decide, by decide, by decide, fun _ => rfl⟩

/- A root process configured to run as 1000:2000: initialize, drop, then a function that throws run elevated. -/
def exStart : St := start 0 0 []
def exInit : St := (init exStart (some (.found 1000 900)) (some (.found 2000 3000)) 1024 1024).1
example : (init exStart (some (.found 1000 900)) (some (.found 2000 3000)) 1024 1024).2 = .returned ∧
    Normal (drop exInit).1 ∧ (drop exInit).1.euid = 1000 ∧ (drop exInit).1.egid = 2000 := by decide +kernel
example : (runElevated (fun t => (t, .exception)) (drop exInit).1).2 = .exception ∧
    Normal (runElevated (fun t => (t, .exception)) (drop exInit).1).1 := by decide +kernel
example : (drop { exInit with outcomes := [true, false] }).2 = .error := by decide +kernel
example : (init exStart (some (.found 1000 20000)) none 1024 1024).2 = .error := by decide +kernel
example : Known 1024 (.found 2000 3000) 2000 := ⟨3000, 2, rfl, by decide, Or.inr (by decide)⟩

end Verif.Priv
