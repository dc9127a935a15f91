import Verif.Nfdc.Strategy
import Verif.Name.Lemmas
import Verif.Mgmt.TblCmdProps

/-! Property C114: `nfdc strategy`. -/
namespace Verif.Nfdc.Strategy
open Verif Verif.Tb Verif.TblCmd

variable {e : Env} {d : Name} {s : Sys}

/-- The loop ends with an element of the dataset (or its start) that is a prefix of the name, and no shorter than any other that is. -/
theorem longestMatch_spec (ds : List (Name × Option Name)) (p : Name) : ∀ m : Name × Option Name,
    (longestMatch ds p m = m ∨ longestMatch ds p m ∈ ds ∧ (longestMatch ds p m).1 <+: p) ∧ m.1.length ≤ (longestMatch ds p m).1.length ∧
    (∀ x ∈ ds, x.1 <+: p → x.1.length ≤ (longestMatch ds p m).1.length) ∧
    ((∃ x ∈ ds, x.1 <+: p ∧ m.1.length ≤ x.1.length) → longestMatch ds p m ∈ ds ∧ (longestMatch ds p m).1 <+: p) := by
  induction ds with
  | nil => intro m; exact ⟨Or.inl rfl, Nat.le_refl _, by simp, by simp⟩
  | cons a ds ih =>
    intro m
    by_cases h : a.1.isPrefixOf p && decide (a.1.length ≥ m.1.length)
    · have he : longestMatch (a :: ds) p m = longestMatch ds p a := by
        show longestMatch ds p (if _ then a else m) = _
        rw [if_pos h]
      simp only [Bool.and_eq_true, Name.isPrefixOf_iff, decide_eq_true_eq] at h
      obtain ⟨h1, h2, h3, h4⟩ := ih a
      rw [he]
      have hm : longestMatch ds p a ∈ a :: ds ∧ (longestMatch ds p a).1 <+: p := by
        rcases h1 with h1 | h1
        · rw [h1]; exact ⟨by simp, h.1⟩
        · exact ⟨by simp [h1.1], h1.2⟩
      refine ⟨Or.inr hm, by omega, fun x hx hp => ?_, fun _ => hm⟩
      rcases List.mem_cons.1 hx with rfl | hx
      · exact h2
      · exact h3 x hx hp
    · have he : longestMatch (a :: ds) p m = longestMatch ds p m := by
        show longestMatch ds p (if _ then a else m) = _
        rw [if_neg h]
      simp only [Bool.and_eq_true, Name.isPrefixOf_iff, decide_eq_true_eq] at h
      obtain ⟨h1, h2, h3, h4⟩ := ih m
      rw [he]
      refine ⟨h1.imp id (fun k => ⟨by simp [k.1], k.2⟩), h2, fun x hx hp => ?_, ?_⟩
      · rcases List.mem_cons.1 hx with rfl | hx
        · have : ¬ x.1.length ≥ m.1.length := fun k => h ⟨hp, k⟩
          omega
        · exact h3 x hx hp
      · rintro ⟨x, hx, hp, hl⟩
        rcases List.mem_cons.1 hx with rfl | hx
        · exact absurd ⟨hp, hl⟩ h
        · have := h4 ⟨x, hx, hp, hl⟩
          exact ⟨by simp [this.1], this.2⟩

/-- The names of two prefixes of the same name of the same length are equal. -/
theorem longest_unique {A : Name → Prop} {n m m' : Name} (h : LongestPrefix A n m) (h' : LongestPrefix A n m') : m = m' := by
  have h1 := h.2.2 m' h'.1 h'.2.1
  have h2 := h'.2.2 m h.1 h.2.1
  exact (List.prefix_of_prefix_length_le h.1 h'.1 h2).eq_of_length_le h1

/-- **C114 (show).** `nfdc strategy show` prints, if NFD answers, the strategy that forwards Interests with this name, and the prefix for which it was chosen: the
longest with a choice. Otherwise the exit code is 1. -/
theorem C114_show (h : TblCmd.Reached e d s) (name : Name) :
    (∃ m inst, (Strategy.show e .answered s name).printed = some (m, some inst) ∧ (Strategy.show e .answered s name).exitCode = 0 ∧
      scEffective e s.tb name = some inst ∧ scAt e s.tb m = some inst ∧ LongestPrefix (fun m => (scAt e s.tb m).isSome) name m) ∧
    ∀ fate, fate ≠ .answered → (Strategy.show e fate s name).printed = none ∧ (Strategy.show e fate s name).exitCode = 1 := by
  refine ⟨?_, fun fate hf => ?_⟩
  · obtain ⟨hroot, m, inst, h1, h2, h3⟩ := C21_effective h.good.tb name
    obtain ⟨-, hl⟩ := C86_list h
    have hmem := (hl m inst).2 h2
    obtain ⟨-, -, h6, h7⟩ := longestMatch_spec (listChoices e s) name ([], none)
    have h8 := h7 ⟨_, hmem, h3.1, Nat.zero_le _⟩
    have h9 := h6 _ hmem h3.1
    have : longestMatch (listChoices e s) name ([], none) = (m, some inst) := by
      generalize hx : longestMatch (listChoices e s) name ([], none) = x at *
      obtain ⟨m', o⟩ := x
      have ho : o = scAt e s.tb m' := by
        have := h8.1
        unfold listChoices at this
        rw [List.mem_map] at this
        obtain ⟨n, -, hn⟩ := this
        cases hn; rfl
      have hsome : o.isSome := by
        have := h8.1
        unfold listChoices at this
        obtain ⟨-, h2⟩ := mem_full h.good.tb TblCmd.hasSc (fun x => x.sc.isSome) rfl (fun _ _ => rfl)
        rw [List.mem_map] at this
        obtain ⟨n, hn, hn'⟩ := this
        rw [h2] at hn
        cases hn'; exact hn
      have hm : m' = m := by
        refine longest_unique (A := fun m => (scAt e s.tb m).isSome) (n := name) ⟨h8.2, by show (scAt e s.tb m').isSome; rw [← ho]; exact hsome, fun m'' hp ha => ?_⟩ h3
        exact Nat.le_trans (h3.2.2 m'' hp ha) h9
      rw [ho, hm, h2]
    exact ⟨m, inst, by show some _ = _; rw [this], rfl, h1, h2, h3⟩
  · cases fate with
    | answered => exact absurd rfl hf
    | lost => exact ⟨rfl, rfl⟩
    | refused c => exact ⟨rfl, rfl⟩

theorem reached_step {x : Ev} {s' : Sys} (h : TblCmd.Reached e d s) (hx : TblCmd.step e s x = some s') : TblCmd.Reached e d s' := by
  obtain ⟨t, evs, h1, h2⟩ := h
  refine ⟨t, evs ++ [x], h1, ?_⟩
  have : ∀ evs s0, TblCmd.run e s0 evs = some s → TblCmd.run e s0 (evs ++ [x]) = some s' := by
    intro evs
    induction evs with
    | nil => intro s0 h0; simp only [TblCmd.run, Option.some.injEq] at h0; subst h0; simp [TblCmd.run, hx]
    | cons y ys ih =>
      intro s0 h0
      simp only [TblCmd.run, List.cons_append, Option.bind_eq_some_iff] at h0 ⊢
      obtain ⟨s1, h3, h4⟩ := h0
      exact ⟨s1, h3, ih s1 h4⟩
  exact this evs _ h2

/-- **C114 (set).** `nfdc strategy set`, if NFD answers: the exit code is 0 exactly if the strategy can be used for this prefix, 7 exactly if NFD does not know it,
and 1 otherwise. With 0, what is printed is then the choice for this prefix, `nfdc strategy show` shows it, and the choices for other prefixes are as before; with
another exit code nothing is printed and nothing has changed. -/
theorem C114_set (h : TblCmd.Reached e d s) (p st : Name) :
    ∃ r, set e .answered s p st = some r ∧
      (r.exitCode = 0 ↔ p.length ≤ 32 ∧ ∃ inst, e.create st = .ok inst) ∧ (r.exitCode = 7 ↔ p.length ≤ 32 ∧ e.create st = .notRegistered) ∧
      (r.exitCode = 0 ∨ r.exitCode = 7 ∨ r.exitCode = 1) ∧ (r.exitCode ≠ 0 → r.printed = none ∧ r.sys = s) ∧
      (r.exitCode = 0 → ∃ inst, e.create st = .ok inst ∧ r.printed = some (p, some inst) ∧ scAt e r.sys.tb p = some inst ∧
        (∀ m, m ≠ p → scAt e r.sys.tb m = scAt e s.tb m) ∧ (Strategy.show e .answered r.sys p).printed = some (p, some inst) ∧
        scEffective e r.sys.tb p = some inst) := by
  obtain ⟨s', code, body, h1, h2, h3, h4, h5, h6⟩ := C86_set h p st
  have hr : TblCmd.Reached e d s' := reached_step (x := .setStrategy p st) h (by show Option.map _ _ = _; rw [h1]; rfl)
  by_cases hc : code = 200
  · have hlen : p.length ≤ 32 := by
      have : code ≠ 414 := by omega
      have := mt h2.2 this
      omega
    have hok : ∃ inst, e.create st = .ok inst := by
      cases hk : e.create st with
      | ok inst => exact ⟨inst, rfl⟩
      | notRegistered => have := h3.2 ⟨hlen, hk⟩; omega
      | exception => have := h4.2 ⟨hlen, hk⟩; omega
    obtain ⟨inst, hk⟩ := hok
    obtain ⟨g1, g2, g3, g4⟩ := h6 inst hlen hk
    have hsh : (Strategy.show e .answered s' p).printed = some (p, some inst) ∧ scEffective e s'.tb p = some inst := by
      obtain ⟨⟨m, i, k1, -, k3, k4, k5⟩, -⟩ := C114_show hr p
      have : m = p := longest_unique k5 ⟨List.prefix_refl _, by show (scAt e s'.tb p).isSome; rw [g3]; rfl, fun m' hm _ => hm.length_le⟩
      subst this
      rw [g3] at k4
      cases k4
      exact ⟨k1, k3⟩
    refine ⟨⟨s', 0, some (p, body), true⟩, ?_, ⟨fun _ => ⟨hlen, inst, hk⟩, fun _ => rfl⟩, ⟨fun k => (by cases k), fun k => ?_⟩, Or.inl rfl, fun k => absurd rfl k,
      fun _ => ⟨inst, hk, by rw [g2], g3, g4, hsh⟩⟩
    · unfold set; dsimp only; rw [h1]; simp [hc]
    · rw [hk] at k; cases k.2
  · have hno : ¬ (p.length ≤ 32 ∧ ∃ inst, e.create st = .ok inst) := fun ⟨k1, inst, k2⟩ => hc (h6 inst k1 k2).1
    refine ⟨⟨s', setFailure code, none, true⟩, by unfold set; dsimp only; rw [h1]; simp [hc], ⟨fun k => ?_, fun k => absurd k hno⟩, ?_, ?_,
      fun _ => ⟨rfl, (h5 hc).1⟩, fun k => ?_⟩
    · unfold setFailure at k; dsimp only at k; split at k <;> cases k
    · rw [← h3]; unfold setFailure; dsimp only; split <;> simp_all
    · unfold setFailure; dsimp only; split <;> simp
    · unfold setFailure at k; dsimp only at k; split at k <;> cases k

/-- **C114 (set).** Without an answer `nfdc strategy set` prints nothing and does not exit with 0. The command may still have been carried out. -/
theorem C114_set_unanswered (h : TblCmd.Reached e d s) (p st : Name) :
    (∀ code, set e (.refused code) s p st = some ⟨s, if code = 404 then 7 else 1, none, true⟩) ∧
    ∃ r r', set e .lost s p st = some r ∧ set e .answered s p st = some r' ∧ r.exitCode = 1 ∧ r.printed = none ∧ r.sys = r'.sys := by
  refine ⟨fun _ => rfl, ?_⟩
  obtain ⟨s', code, body, h1, -⟩ := C86_set h p st
  unfold set
  rw [h1]
  refine ⟨_, _, rfl, rfl, rfl, rfl, ?_⟩
  dsimp only
  split <;> rfl

/-- **C114 (unset).** For the root, `nfdc strategy unset` sends nothing and exits with 2. For another prefix, if NFD answers, it exits with 0; this prefix has no choice
then, the others are as before, and `nfdc strategy show` shows for it what it showed for the prefix one component shorter. -/
theorem C114_unset (h : TblCmd.Reached e d s) (p : Name) :
    (p = [] → ∀ fate, unset e fate s p = some ⟨s, 2, none, false⟩) ∧
    (p ≠ [] → ∃ r, unset e .answered s p = some r ∧ r.exitCode = 0 ∧ r.printed = some (p, none) ∧ scAt e r.sys.tb p = none ∧
      (∀ m, m ≠ p → scAt e r.sys.tb m = scAt e s.tb m) ∧ scEffective e r.sys.tb p = scEffective e s.tb p.dropLast ∧
      (Strategy.show e .answered r.sys p).printed = (Strategy.show e .answered s p.dropLast).printed) := by
  refine ⟨fun hp fate => by subst hp; rfl, fun hp => ?_⟩
  obtain ⟨s', h1, h2, h3, -⟩ := C86_unset h p hp
  have hr : TblCmd.Reached e d s' := reached_step (x := .unsetStrategy p) h (by show Option.map _ _ = _; rw [h1]; rfl)
  have hne : p.isEmpty = false := by cases p <;> simp_all
  refine ⟨⟨s', 0, some (p, none), true⟩, by unfold unset; simp [hne, h1], rfl, rfl, h2, h3, ?_⟩
  obtain ⟨⟨m, i, k1, -, k3, k4, k5⟩, -⟩ := C114_show hr p
  obtain ⟨⟨m', i', k1', -, k3', k4', k5'⟩, -⟩ := C114_show h p.dropLast
  have hlt : p.dropLast.length < p.length := by cases p with | nil => exact absurd rfl hp | cons a l => simp
  have hm : m ≠ p := by intro hm; rw [hm, h2] at k4; cases k4
  have hmp : ∀ q : Name, q <+: p → q ≠ p → q <+: p.dropLast := by
    intro q hq hqp
    have h5 : q.length ≤ p.dropLast.length := by
      have := hq.length_le
      have h6 : q.length ≠ p.length := fun h6 => hqp (hq.eq_of_length h6)
      simp; omega
    exact List.prefix_of_prefix_length_le hq (List.dropLast_prefix p) h5
  have hm' : ∀ q : Name, q <+: p.dropLast → q ≠ p := by
    intro q hq hqp
    have := hq.length_le
    rw [hqp] at this; omega
  have : m = m' := by
    refine longest_unique (A := fun m => (scAt e s.tb m).isSome) (n := p.dropLast) ⟨hmp m k5.1 hm, ?_, fun q hq ha => ?_⟩ k5'
    · show (scAt e s.tb m).isSome
      rw [← h3 m hm, k4]; rfl
    · refine k5.2.2 q (hq.trans (List.dropLast_prefix p)) ?_
      show (scAt e s'.tb q).isSome
      rw [h3 q (hm' q hq)]; exact ha
  subst this
  rw [h3 m hm, k4'] at k4
  cases k4
  exact ⟨k3.trans k3'.symm, k1.trans k1'.symm⟩

/-- C114: choices for `/1` and the root; a strategy that is unknown; a prefix without a choice of its own. -/
example : (exStart.bind (fun s => TblCmd.run exEnv s exEvs)).any (fun s =>
    (Strategy.show exEnv .answered s [gc 1, gc 2]).printed.any (fun x => x.1 == [gc 1]) &&
    (Strategy.show exEnv .answered s [gc 2]).printed.any (fun x => x.1 == []) &&
    (set exEnv .answered s [gc 1] [gc 9]).any (fun r => r.exitCode == 7) && (set exEnv .answered s [gc 1, gc 2] st2).any (fun r => r.exitCode == 0) &&
    (unset exEnv .answered s [gc 1]).any (fun r => (Strategy.show exEnv .answered r.sys [gc 1]).printed.any (fun x => x.1 == []))) = true := by
  decide +kernel

end Verif.Nfdc.Strategy
