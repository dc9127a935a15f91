import Verif.Nfdc.CsConfig
import Verif.Cs.Props

/-! Property C115: `nfdc cs config`. -/
namespace Verif.Nfdc.CsConfig
open Verif Verif.Cs

theorem request_fields (capacity : Option Nat) (admit serve : Option Bool) :
    (request capacity admit serve).capacity = capacity ∧
    (request capacity admit serve).hasFlagBit bitAdmit = admit.isSome ∧ (request capacity admit serve).hasFlagBit bitServe = serve.isSome ∧
    (∀ v, admit = some v → (request capacity admit serve).getFlagBit bitAdmit = v) ∧ (∀ v, serve = some v → (request capacity admit serve).getFlagBit bitServe = v) := by
  have e1 : (request capacity admit serve).mask = (request none admit serve).mask := by cases admit <;> cases serve <;> rfl
  have e2 : (request capacity admit serve).flags = (request none admit serve).flags := by cases admit <;> cases serve <;> rfl
  have e3 : (request capacity admit serve).capacity = capacity := by cases admit <;> cases serve <;> rfl
  unfold Params.hasFlagBit Params.getFlagBit
  rw [e1, e2]
  refine ⟨e3, ?_⟩
  clear e1 e2 e3
  rcases admit with _ | (_ | _) <;> rcases serve with _ | (_ | _) <;>
    exact ⟨by decide, by decide, fun v h => (by cases h <;> decide), fun v h => (by cases h <;> decide)⟩

theorem body_fields (n : Nat) (a b : Bool) :
    ((({ capacity := some n } : Params).setFlagBit bitAdmit a false).setFlagBit bitServe b false).capacity = some n ∧
    ((({ capacity := some n } : Params).setFlagBit bitAdmit a false).setFlagBit bitServe b false).getFlagBit bitAdmit = a ∧
    ((({ capacity := some n } : Params).setFlagBit bitAdmit a false).setFlagBit bitServe b false).getFlagBit bitServe = b := by
  have e : ((({ capacity := some n } : Params).setFlagBit bitAdmit a false).setFlagBit bitServe b false).flags =
      ((({} : Params).setFlagBit bitAdmit a false).setFlagBit bitServe b false).flags := rfl
  unfold Params.getFlagBit
  rw [e]
  refine ⟨rfl, ?_⟩
  clear e
  cases a <;> cases b <;> decide

theorem nodup_table {s : Cs} {log : List Key} (hi : Inv s log) : s.table.Nodup := by
  have := keys_nodup hi.sorted
  unfold List.Nodup keys at this
  unfold List.Nodup
  rw [List.pairwise_map] at this
  exact this.imp (fun h h' => h (by rw [h']))

theorem length_le_of_subset {α : Type} [DecidableEq α] : ∀ {l l' : List α}, l.Nodup → (∀ x ∈ l, x ∈ l') → l.length ≤ l'.length := by
  intro l
  induction l with
  | nil => intro l' _ _; exact Nat.zero_le _
  | cons a l ih =>
    intro l' hn hs
    rw [List.nodup_cons] at hn
    have ha := hs a (by simp)
    have := ih (l' := l'.erase a) hn.2 (fun x hx => (List.mem_erase_of_ne (fun h : x = a => hn.1 (h ▸ hx))).2 (hs x (by simp [hx])))
    rw [List.length_erase_of_mem ha] at this
    have : 0 < l'.length := List.length_pos_of_mem ha
    simp only [List.length_cons]; omega

/-- Changing the capacity drops as many packets as needed and no more. -/
theorem setLimit_spec {s : Cs} {log : List Key} (hi : Inv s log) (n : Nat) :
    ∃ s', s.setLimit n = some s' ∧ Inv s' log ∧ s'.limit = n ∧ s'.admit = s.admit ∧ s'.serve = s.serve ∧ s'.now = s.now ∧ (∀ e ∈ s'.table, e ∈ s.table) ∧
      s'.table.length = min s.table.length n := by
  obtain ⟨s', ev, h1, h2, h3, h4, h5, h6, -, h8, h9, -⟩ := evict_spec (s := { s with limit := n }) (log := log) hi.sorted hi.pol
  have hsub : ∀ e ∈ s'.table, e ∈ s.table := fun e he => ((h8 e).1 he).1
  have hle := length_le_of_subset (nodup_table h2) hsub
  have hcap := h2.cap
  rw [h3] at hcap
  refine ⟨s', h1, h2, h3, h5, h6, h4, hsub, ?_⟩
  rcases h9 with h9 | h9
  · subst h9
    have := length_le_of_subset (nodup_table hi) (fun e he => (h8 e).2 ⟨he, by simp⟩)
    dsimp only at hcap
    omega
  · rw [h9]; dsimp only at h9 hcap ⊢; omega


theorem changeConfig_spec {s : Cs} {log : List Key} (hi : Inv s log) (capacity : Option Nat) (admit serve : Option Bool) :
    ∃ s' b, changeConfig s (request capacity admit serve) = some (s', b) ∧ b.capacity = some s'.limit ∧ b.getFlagBit bitAdmit = s'.admit ∧ b.getFlagBit bitServe = s'.serve ∧
      Inv s' log ∧ s'.limit = capacity.getD s.limit ∧ s'.admit = admit.getD s.admit ∧ s'.serve = serve.getD s.serve ∧ s'.now = s.now ∧
      (∀ e ∈ s'.table, e ∈ s.table) ∧ s'.table.length = min s.table.length s'.limit ∧ (capacity = none → s'.table = s.table) := by
  obtain ⟨q1, q2, q3, q4, q5⟩ := request_fields capacity admit serve
  have h0 : ∃ s0, setCapacity s capacity = some s0 ∧ Inv s0 log ∧ s0.limit = capacity.getD s.limit ∧
      s0.admit = s.admit ∧ s0.serve = s.serve ∧ s0.now = s.now ∧ (∀ e ∈ s0.table, e ∈ s.table) ∧ s0.table.length = min s.table.length s0.limit ∧
      (capacity = none → s0.table = s.table) := by
    cases capacity with
    | none => exact ⟨s, rfl, hi, rfl, rfl, rfl, rfl, fun _ h => h, by have := hi.cap; omega, fun _ => rfl⟩
    | some n =>
      obtain ⟨s', h1, h2, h3, h4, h5, h6, h7, h8⟩ := setLimit_spec hi n
      exact ⟨s', h1, h2, h3, h4, h5, h6, h7, by rw [h3]; exact h8, fun h => (by cases h)⟩
  obtain ⟨s0, h1, h2, h3, h4, h5, h6, h7, h8, h9⟩ := h0
  unfold changeConfig
  rw [q1, h1, q2, q3]
  simp only [Option.map_some]
  refine ⟨_, _, rfl, ?_⟩
  obtain ⟨b1, b2, b3⟩ := body_fields
    (if serve.isSome = true then { (if admit.isSome = true then { s0 with admit := (request capacity admit serve).getFlagBit bitAdmit } else s0) with
      serve := (request capacity admit serve).getFlagBit bitServe } else
      (if admit.isSome = true then { s0 with admit := (request capacity admit serve).getFlagBit bitAdmit } else s0) : Cs).limit
    (if serve.isSome = true then { (if admit.isSome = true then { s0 with admit := (request capacity admit serve).getFlagBit bitAdmit } else s0) with
      serve := (request capacity admit serve).getFlagBit bitServe } else
      (if admit.isSome = true then { s0 with admit := (request capacity admit serve).getFlagBit bitAdmit } else s0) : Cs).admit
    (if serve.isSome = true then { (if admit.isSome = true then { s0 with admit := (request capacity admit serve).getFlagBit bitAdmit } else s0) with
      serve := (request capacity admit serve).getFlagBit bitServe } else
      (if admit.isSome = true then { s0 with admit := (request capacity admit serve).getFlagBit bitAdmit } else s0) : Cs).serve
  refine ⟨b1, b2, b3, ?_⟩
  have hinv : ∀ a b, Inv { s0 with admit := a, serve := b } log := fun a b => ⟨h2.sorted, h2.cap, h2.pol⟩
  cases admit with
  | none =>
    cases serve with
    | none => exact ⟨h2, h3, h4, h5, h6, h7, h8, h9⟩
    | some v => exact ⟨hinv s0.admit _, h3, h4, q5 v rfl, h6, h7, h8, h9⟩
  | some w =>
    cases serve with
    | none => exact ⟨hinv _ s0.serve, h3, q4 w rfl, h5, h6, h7, h8, h9⟩
    | some v => exact ⟨hinv _ _, h3, q4 w rfl, q5 v rfl, h6, h7, h8, h9⟩

/-- **C115.** `nfdc cs config`, at any point of the life of the store, if NFD answers: it exits with 0 and prints the configuration in force; what the user gave is in
force and what they did not give is as it was; the store keeps the packets it had, down to the new capacity and no further. Without an answer nothing is printed and the
exit code is 1; the command may then have been carried out, or not. -/
theorem C115_config (n : Nat) (ops : List Op) (hw : ∀ op ∈ ops, OpWF op) (s : Cs) (hr : (init n).run ops = some s) (capacity : Option Nat)
    (admit serve : Option Bool) :
    ∃ r, config .answered s capacity admit serve = some r ∧ r.exitCode = 0 ∧ r.printed = some (r.cs.limit, r.cs.admit, r.cs.serve) ∧
      r.cs.limit = capacity.getD s.limit ∧ r.cs.admit = admit.getD s.admit ∧ r.cs.serve = serve.getD s.serve ∧
      (∀ e ∈ r.cs.table, e ∈ s.table) ∧ r.cs.table.length = min s.table.length r.cs.limit ∧
      config .lost s capacity admit serve = some ⟨r.cs, 1, none⟩ ∧ config .refused s capacity admit serve = some ⟨s, 1, none⟩ := by
  obtain ⟨s1, log, h, -, hi⟩ := run_inv (n := n) hw
  rw [hr] at h; simp only [Option.some.injEq] at h; subst h
  obtain ⟨s', b, h1, h2, h3, h4, h5, h6, h7, h8, h9, h10, h11, -⟩ := changeConfig_spec hi capacity admit serve
  refine ⟨⟨s', 0, some (s'.limit, s'.admit, s'.serve)⟩, ?_, rfl, rfl, h6, h7, h8, h10, h11, ?_, rfl⟩
  · unfold config; simp [h1, h2, h3, h4]
  · unfold config; simp [h1]

/-- **C115.** What it takes effect on, without a capacity: the packets in the store stay, whatever the switches. -/
theorem C115_switches_keep (n : Nat) (ops : List Op) (hw : ∀ op ∈ ops, OpWF op) (s : Cs) (hr : (init n).run ops = some s) (admit serve : Option Bool) :
    ∃ r, config .answered s none admit serve = some r ∧ r.cs.table = s.table := by
  obtain ⟨s1, log, h, -, hi⟩ := run_inv (n := n) hw
  rw [hr] at h; simp only [Option.some.injEq] at h; subst h
  obtain ⟨s', b, h1, h2, h3, h4, -, -, -, -, -, -, -, h12⟩ := changeConfig_spec hi none admit serve
  exact ⟨⟨s', 0, some (s'.limit, s'.admit, s'.serve)⟩, by unfold config; simp [h1, h2, h3, h4], h12 rfl⟩

/-- **C115.** The command is a sequence of operations on the store: so what is proved of all histories (C01–C08, C66–C68) holds after it as well. -/
theorem C115_history (s : Cs) (capacity : Option Nat) (admit serve : Option Bool) {r : Result} (h : config .answered s capacity admit serve = some r) :
    ∃ ops : List Op, s.run ops = some r.cs ∧ ∀ op ∈ ops, OpWF op := by
  obtain ⟨q1, q2, q3, q4, q5⟩ := request_fields capacity admit serve
  have hrun : s.run (((capacity.map Op.setLimit).toList ++ (admit.map Op.enableAdmit).toList) ++ (serve.map Op.enableServe).toList) = some r.cs := by
    unfold config changeConfig at h
    rw [q1, q2, q3] at h
    simp only [Option.map_map, Option.map_eq_some_iff] at h
    obtain ⟨s0, h1, h2⟩ := h
    subst h2
    rw [run_append, run_append]
    have hc : s.run (capacity.map Op.setLimit).toList = some s0 := by
      cases capacity with
      | none => exact h1
      | some n => simp only [Option.map_some, Option.toList_some, Cs.run, Cs.step]; have h1 : s.setLimit n = some s0 := h1; rw [h1]; rfl
    rw [hc]
    simp only [Option.bind_some]
    cases admit with
    | none =>
      cases serve with
      | none => rfl
      | some v =>
        simp only [Option.map_none, Option.toList_none, Option.map_some, Option.toList_some, Cs.run, Cs.step, Function.comp_apply, Option.isSome_none,
          Option.isSome_some, q5 v rfl]
        rfl
    | some w =>
      cases serve with
      | none =>
        simp only [Option.map_none, Option.toList_none, Option.map_some, Option.toList_some, Cs.run, Cs.step, Function.comp_apply, Option.isSome_none,
          Option.isSome_some, q4 w rfl]
        rfl
      | some v =>
        simp only [Option.map_none, Option.toList_none, Option.map_some, Option.toList_some, Cs.run, Cs.step, Function.comp_apply, Option.isSome_none,
          Option.isSome_some, q4 w rfl, q5 v rfl]
        rfl
  refine ⟨_, hrun, fun op ho => ?_⟩
  simp only [List.mem_append, Option.mem_toList, Option.map_eq_some_iff] at ho
  rcases ho with (⟨_, _, rfl⟩ | ⟨_, _, rfl⟩) | ⟨_, _, rfl⟩ <;> trivial

/-- C115: a store with two packets; the capacity becomes 1 and serving is switched off. -/
example : ((init 2).run sampleOps).any (fun s => s.table.length == 2 &&
    (config .answered s (some 1) none (some false)).any (fun r => r.printed == some (1, true, false) && r.cs.table.length == 1)) = true := by decide +kernel

end Verif.Nfdc.CsConfig
