import Verif.Tables.ScOk
import Verif.Tables.Example

/-! Properties C21 and C22: which strategy is in charge, and what happens to its information when that changes. -/
namespace Verif.Tb

open Nt (maxDepth tblOf)

/-! ### C21: the effective strategy -/

/-- **C21.** The root always has a strategy, and `findEffectiveStrategy` answers for every name with the strategy of the longest prefix
that has one. -/
theorem C21_effective {e : Env} {d : Name} {s : Tables} (h : Reachable e d s) (name : Name) :
    (scAt e s []).isSome ∧
    ∃ m inst, scEffective e s name = some inst ∧ scAt e s m = some inst ∧ LongestPrefix (fun m => (scAt e s m).isSome) name m := by
  have hi := h.inv
  exact ⟨hi.root, scEffective_spec hi.tree hi.root name⟩

/-- **C21.** For a live PIT entry the answer is that for its Interest's name, and for a measurements entry that for its name. -/
theorem C21_effective_entries {e : Env} {d : Name} {s : Tables} (h : Reachable e d s) :
    (∀ p, Live e s p → scEffectivePit e s p.interest.name = scEffective e s p.interest.name) ∧
    (∀ n m, measAt e s n = some m → scEffectiveMeas e s n = scEffective e s n) := by
  have hi := h.inv
  refine ⟨?_, ?_⟩
  · rintro p ⟨n, hp⟩
    refine scEffectivePit_eq hi.tree ?_
    rw [(hi.node n).place p hp]
    intro hh; rw [hh] at hp; simp at hp
  · intro n m hm
    have hm' : (view e s n).meas = some m := hm
    exact scEffectiveMeas_eq hi.tree (by rw [hm']; rfl)

/-- **C21.** `insert` always answers; a name deeper than the limit, a strategy that is not registered or one that rejects its
parameters changes nothing at all; otherwise exactly the given prefix gets the new instance. -/
theorem C21_insert {e : Env} {d : Name} {s : Tables} (h : Reachable e d s) (p st : Name) :
    ∃ s' r, scInsert e s p st = some (s', r) ∧
      (r = .depthExceeded ↔ maxDepth < p.length) ∧
      (r = .exception ↔ p.length ≤ maxDepth ∧ e.create st = .exception) ∧
      (r = .notRegistered ↔ p.length ≤ maxDepth ∧ e.create st = .notRegistered) ∧
      (r ≠ .ok → s' = s) ∧
      (∀ inst, p.length ≤ maxDepth → e.create st = .ok inst → r = .ok ∧ scAt e s' p = some inst ∧ ∀ m, m ≠ p → scAt e s' m = scAt e s m) := by
  have hi := h.inv
  obtain ⟨s', r, hs⟩ := scInsert_ok hi p st
  refine ⟨s', r, hs, ?_⟩
  have hsc := scInsert_sc hi hs
  rcases scInsert_fwd hi.tree hs with ⟨rfl, hl, rfl⟩ | ⟨rfl, hc, hl, rfl⟩ | ⟨rfl, hc, hl, rfl⟩ | ⟨inst, rfl, hc, hl, h2⟩
  · refine ⟨by simp [hl], ?_, ?_, fun _ => rfl, ?_⟩
    · simp; omega
    · simp; omega
    · intro _ h; omega
  · refine ⟨by simp; omega, by simp [hl, hc], by simp [hc], fun _ => rfl, ?_⟩
    intro _ _ h; rw [hc] at h; simp at h
  · refine ⟨by simp; omega, by simp [hc], by simp [hl, hc], fun _ => rfl, ?_⟩
    intro _ _ h; rw [hc] at h; simp at h
  · refine ⟨by simp; omega, by simp [hc], by simp [hc], fun h => absurd rfl h, ?_⟩
    intro inst' _ h
    rw [hc] at h
    cases h
    refine ⟨rfl, ?_, fun m hm => ?_⟩
    · have := hsc p
      simp only [hc, if_true] at this
      exact this
    · have := hsc m
      simp only [if_neg hm] at this
      exact this

/-- **C21.** `erase` of a prefix other than the root removes that prefix's strategy and no other. -/
theorem C21_erase {e : Env} {d : Name} {s : Tables} (h : Reachable e d s) (p : Name) (hp : p ≠ []) :
    ∃ s', scErase e s p = some s' ∧ scAt e s' p = none ∧ ∀ m, m ≠ p → scAt e s' m = scAt e s m := by
  have hi := h.inv
  obtain ⟨s', hs⟩ := scErase_ok hi hp
  have hsc := scErase_sc hi hs
  refine ⟨s', hs, ?_, fun m hm => ?_⟩
  · have := hsc p; rwa [if_pos rfl] at this
  · have := hsc m; rwa [if_neg hm] at this

/-- **C21.** Nothing else changes which strategy is configured where. -/
theorem C21_others {e : Env} {d : Name} {s s' : Tables} (h : Reachable e d s) (op : Op) (hs : op.run e s = some s')
    (hop : ∀ p st, op ≠ .scInsert p st ∧ op ≠ .scErase p) (m : Name) : scAt e s' m = scAt e s m := by
  refine other_sc h.inv.tree op ?_ hs m
  cases op with
  | scInsert p st => exact absurd rfl (hop p st).1
  | scErase p => exact absurd rfl (hop p []).2
  | _ => rfl

/-- **C21.** `size()` is the number of prefixes with a strategy. -/
theorem C21_size {e : Env} {d : Name} {s : Tables} (h : Reachable e d s) : Counted (fun m => (scAt e s m).isSome) s.nSc :=
  h.inv.nSc

def deepName : Name := List.replicate 33 (gc 7)
/-- Two prefixes with strategies, one inside the other, and three refused commands. -/
def exScOps : List Op :=
  [.scInsert [gc 1] st2, .scInsert [gc 1, gc 2] (st1 ++ [gc 9]), .scInsert deepName st2, .scInsert [gc 5] [gc 9], .scInsert [gc 5] [gc 200, gc 3],
   .pitInsert { name := [gc 1, gc 2, gc 3, dc 4] }, .measGet [gc 1, gc 7]]

theorem exSc_run : (exRun exScOps).any (fun s => scEffective exEnv s [gc 1, gc 2, gc 3] == some (st1 ++ [gc 9]) && scEffective exEnv s [gc 1, gc 3] == some st2 &&
    scEffective exEnv s [gc 2] == some st1 && s.nSc == 3 && scEffectivePit exEnv s [gc 1, gc 2, gc 3, dc 4] == some (st1 ++ [gc 9]) &&
    scEffectiveMeas exEnv s [gc 1, gc 7] == some st2) = true := by decide +kernel

example : ∃ s, exRun exScOps = some s ∧ Reachable exEnv st1 s ∧ scEffective exEnv s [gc 1, gc 3] = some st2 ∧
    scAt exEnv s [gc 1] = some st2 ∧ s.nSc = 3 := by
  have h : (exRun exScOps).any (fun s => decide (scEffective exEnv s [gc 1, gc 3] = some st2 ∧ scAt exEnv s [gc 1] = some st2 ∧ s.nSc = 3)) = true := by
    decide +kernel
  rw [Option.any_eq_true] at h
  obtain ⟨s, hs, hb⟩ := h
  exact ⟨s, hs, exRun_reachable hs, by simpa using hb⟩

example : (exRun exScOps).any (fun s => (scErase exEnv s [gc 1]).any (fun s' =>
    scEffective exEnv s' [gc 1, gc 3] == some st1 && scEffective exEnv s' [gc 1, gc 2] == some (st1 ++ [gc 9]))) = true := by decide +kernel

/-! ### C22: information of the strategy that left -/

/-- What a strategy choice command does to a PIT entry and to its records, given whether the type of the strategy in charge changed. -/
def KeptOrWiped (e : Env) (s s' : Tables) (p : PitEntry) : Prop :=
  (effTyp e s' p.interest.name = effTyp e s p.interest.name → Live e s' p) ∧
  (effTyp e s' p.interest.name ≠ effTyp e s p.interest.name → Live e s' p.wiped)

theorem scStep_of {e : Env} {s s' : Tables} (hi : Inv e s) {op : Op} (hop : op.scOp = true) (hs : op.run e s = some s') : ScStep e s s' := by
  cases op with
  | scInsert p st =>
    simp only [Op.run, Option.map_eq_some_iff] at hs
    obtain ⟨⟨s1, r⟩, h1, rfl⟩ := hs
    exact scInsert_step hi h1
  | scErase p => exact scErase_step hi hs
  | _ => simp [Op.scOp] at hop

/-- **C22** for measurements entries. When a strategy is set or unset, the information kept on a measurements entry is dropped if the
type of the strategy in charge of the entry changed, and otherwise left alone; expiry is not affected, and no entry appears or
disappears. -/
theorem C22_measurements {e : Env} {d : Name} {s s' : Tables} (h : Reachable e d s) {op : Op}
    (hop : (∃ p st, op = .scInsert p st) ∨ ∃ p, op = .scErase p) (hs : op.run e s = some s') (n : Name) :
    (measAt e s n = none → measAt e s' n = none) ∧
    (∀ m, measAt e s n = some m →
      (effTyp e s' n = effTyp e s n → measAt e s' n = some m) ∧
      (effTyp e s' n ≠ effTyp e s n → measAt e s' n = some { m with info := [] })) := by
  have hi := h.inv
  have hst := scStep_of hi (by rcases hop with ⟨_, _, rfl⟩ | ⟨_, rfl⟩ <;> rfl) hs
  obtain ⟨a, b⟩ := hst.node hi (step_inv hi op hs) n
  unfold measAt
  refine ⟨fun hn => ?_, fun m hm => ⟨fun heq => ?_, fun hne => ?_⟩⟩
  · by_cases heq : effTyp e s' n = effTyp e s n
    · rw [(a heq).2, hn]
    · rw [(b heq).2, hn]; rfl
  · rw [(a heq).2, hm]
  · rw [(b hne).2, hm]; rfl

/-- **C22** for PIT entries, with what is missing: an entry whose name ends in an implicit digest while a strategy is configured for that
very name (then the property fails, see `C22_digest_not_cleared`). Otherwise a strategy choice command drops all information on the entry and
its records if the type of the strategy in charge changed, and leaves the entry alone if not. -/
theorem C22_pit_partial {e : Env} {d : Name} {s s' : Tables} (h : Reachable e d s) {op : Op}
    (hop : (∃ p st, op = .scInsert p st) ∨ ∃ p, op = .scErase p) (hs : op.run e s = some s') :
    (∀ p, Live e s p → (hasDigest p.interest.name = true → scAt e s p.interest.name = none ∧ scAt e s' p.interest.name = none) → KeptOrWiped e s s' p) ∧
    (∀ p', Live e s' p' → ∃ p, Live e s p ∧ (p' = p ∨ p' = p.wiped)) := by
  have hi := h.inv
  have hi' := step_inv hi op hs
  have hst := scStep_of hi (by rcases hop with ⟨_, _, rfl⟩ | ⟨_, rfl⟩ <;> rfl) hs
  refine ⟨?_, ?_⟩
  · rintro p ⟨n, hp⟩ hd
    have hpl := (hi.node n).place p hp
    obtain ⟨a, b⟩ := hst.node hi hi' n
    have e1 : effTyp e s p.interest.name = effTyp e s n := by
      rw [← hpl]; refine plain_typ hi ?_
      cases hdg : hasDigest p.interest.name with
      | false => exact .inl hdg
      | true => exact .inr (hd hdg).1
    have e2 : effTyp e s' p.interest.name = effTyp e s' n := by
      rw [← hpl]; refine plain_typ hi' ?_
      cases hdg : hasDigest p.interest.name with
      | false => exact .inl hdg
      | true => exact .inr (hd hdg).2
    unfold KeptOrWiped
    rw [e1, e2]
    refine ⟨fun heq => ⟨n, ?_⟩, fun hne => ⟨n, ?_⟩⟩
    · rw [(a heq).1]; exact hp
    · rw [(b hne).1]; exact List.mem_map.2 ⟨p, hp, rfl⟩
  · rintro p' ⟨n, hp⟩
    obtain ⟨a, b⟩ := hst.node hi hi' n
    by_cases heq : effTyp e s' n = effTyp e s n
    · exact ⟨p', ⟨n, by rw [← (a heq).1]; exact hp⟩, .inl rfl⟩
    · rw [(b heq).1] at hp
      obtain ⟨p, hp', rfl⟩ := List.mem_map.1 hp
      exact ⟨p, ⟨n, hp'⟩, .inr rfl⟩

theorem tags_run {e : Env} {s' : Tables} (ops : List Op) : ∀ {s}, Inv e s → MeasTags e s →
    run e s ops = some s' → MeasTags e s' := by
  induction ops with
  | nil => intro s _ ht h; cases h; exact ht
  | cons op ops ih =>
    intro s hi ht h
    rw [run, Option.bind_eq_some_iff] at h
    obtain ⟨s1, h1, h2⟩ := h
    exact ih (step_inv hi op h1) (measTags_step hi ht op h1) h2

theorem init_view {e : Env} {d : Name} {s : Tables} (h : init e d = some s) (n : Name) : (view e s n).pit = [] ∧ (view e s n).meas = none := by
  unfold init scDefault at h
  split at h
  · simp only [Option.bind_eq_bind, Option.bind_eq_some_iff, Option.some.injEq] at h
    obtain ⟨t1, h1, t2, h2, rfl⟩ := h
    obtain ⟨i1, v1, -⟩ := fwd_lookup (Nt.init_treeInv e.cfg) h1
    obtain ⟨i2, v2, -⟩ := fwd_setTbl i1 h2
    rw [view_with, v2]
    have hz : ∀ m, vw e (Nt.Hashtable.init e.opts) m = {} := by
      intro m; unfold vw tblOf; rw [Nt.init_find]; rfl
    by_cases hn : n = []
    · subst hn; rw [upd_same, v1, hz]; exact ⟨rfl, rfl⟩
    · rw [upd_ne _ _ hn, v1, hz]; exact ⟨rfl, rfl⟩
  · simp at h

/-- **C22.** In every reachable state, everything stored on a measurements entry was stored by the strategy type now in charge of it. -/
theorem C22_measurements_owner {e : Env} {d : Name} {s : Tables} (h : Reachable e d s) (n : Name) (m : MeasEntry)
    (hm : measAt e s n = some m) : ∀ t ∈ m.info, effTyp e s n = some t := by
  obtain ⟨s0, ops, h1, h2⟩ := h
  refine tags_run ops (init_inv h1) ?_ h2 n m hm
  intro n m hm
  rw [(init_view h1 n).2] at hm
  simp at hm

/-- The strategies set by a history are not set on names ending in a digest. -/
def PlainOps (ops : List Op) : Prop := ∀ p st, Op.scInsert p st ∈ ops → hasDigest p = false

theorem pit_run {e : Env} {s' : Tables} {Q : Name → Prop} (ops : List Op) : ∀ {s}, Inv e s → PitTags e s Q → (∀ x, Q x → Plain e s x) →
    (∀ s1 s2 op, op ∈ ops → Inv e s1 → (∀ x, Q x → Plain e s1 x) → op.run e s1 = some s2 → ∀ x, Q x → Plain e s2 x) →
    run e s ops = some s' → PitTags e s' Q := by
  induction ops with
  | nil => intro s _ ht _ _ h; cases h; exact ht
  | cons op ops ih =>
    intro s hi ht hq hk h
    rw [run, Option.bind_eq_some_iff] at h
    obtain ⟨s1, h1, h2⟩ := h
    have hq' := hk s s1 op (by simp) hi hq h1
    exact ih (step_inv hi op h1) (pitTags_step hi ht op h1 (fun x hx => ⟨hq x hx, hq' x hx⟩)) hq'
      (fun a b op' hop => hk a b op' (by simp [hop])) h2

/-- **C22.** In every reachable state, everything stored on a PIT entry whose name does not end in an implicit digest, and on its
records, was stored by the strategy type now in charge of it. -/
theorem C22_pit_owner {e : Env} {d : Name} {s : Tables} (h : Reachable e d s) (p : PitEntry) (hp : Live e s p)
    (hd : hasDigest p.interest.name = false) : ∀ t ∈ p.allInfo, effTyp e s p.interest.name = some t := by
  obtain ⟨s0, ops, h1, h2⟩ := h
  obtain ⟨n, hn⟩ := hp
  refine pit_run (Q := fun x => hasDigest x = false) ops (init_inv h1) ?_ (fun x hx => .inl hx) (fun _ _ _ _ _ _ _ x hx => .inl hx) h2 n p hn hd
  intro n p hp
  rw [(init_view h1 n).1] at hp
  simp at hp

/-- **C22.** The same for all PIT entries, in histories that set no strategy on a name ending in a digest. -/
theorem C22_pit_owner_partial {e : Env} {d : Name} {s0 s : Tables} {ops : List Op} (h1 : init e d = some s0) (hops : PlainOps ops)
    (h2 : run e s0 ops = some s) (p : PitEntry) (hp : Live e s p) : ∀ t ∈ p.allInfo, effTyp e s p.interest.name = some t := by
  obtain ⟨n, hn⟩ := hp
  have h0 : ∀ x, hasDigest x = true → (view e s0 x).sc = none := by
    intro x hx
    unfold init scDefault at h1
    split at h1
    · simp only [Option.bind_eq_bind, Option.bind_eq_some_iff, Option.some.injEq] at h1
      obtain ⟨t1, h1, t2, h3, rfl⟩ := h1
      obtain ⟨i1, v1, -⟩ := fwd_lookup (Nt.init_treeInv e.cfg) h1
      obtain ⟨i2, v2, -⟩ := fwd_setTbl i1 h3
      have hz : ∀ m, vw e (Nt.Hashtable.init e.opts) m = {} := by
        intro m; unfold vw tblOf; rw [Nt.init_find]; rfl
      have hn : x ≠ [] := by rintro rfl; simp [hasDigest] at hx
      rw [view_with, v2, upd_ne _ _ hn, v1, hz]
    · simp at h1
  refine pit_run (Q := fun _ => True) ops (init_inv h1) ?_ (fun x _ => ?_) ?_ h2 n p hn trivial
  · intro n p hp
    rw [(init_view h1 n).1] at hp
    simp at hp
  · cases hd : hasDigest x with
    | false => exact .inl hd
    | true => exact .inr (h0 x hd)
  · intro s1 s2 op hop hi hq hs x _
    rcases hq x trivial with hx | hx
    · exact .inl hx
    cases hd : hasDigest x with
    | false => exact .inl hd
    | true =>
      right
      cases hsc : op.scOp with
      | false => rw [other_sc hi.tree op hsc hs]; exact hx
      | true =>
        cases op with
        | scInsert p st =>
          have hpd := hops p st hop
          simp only [Op.run, Option.map_eq_some_iff] at hs
          obtain ⟨⟨s1, r⟩, h1, rfl⟩ := hs
          rw [scInsert_sc hi h1 x]
          cases r with
          | ok => simp only; rw [if_neg (by rintro rfl; rw [hpd] at hd; simp at hd)]; exact hx
          | _ => exact hx
        | scErase p =>
          rw [scErase_sc hi hs x]
          split
          · rfl
          · exact hx
        | _ => simp [Op.scOp] at hsc

/-- A strategy stores information on an Interest's entry, its record and a measurements entry; then another strategy is put in charge. -/
def exInfoOps : List Op :=
  [.pitInsert { name := [gc 1, gc 2] }, .pitIn ⟨[gc 1, gc 2], false, false⟩ 7 3 1000, .pitWrite ⟨[gc 1, gc 2], false, false⟩,
   .measGet [gc 1, gc 3], .measWrite [gc 1, gc 3], .pitInsert { name := [gc 4] }, .pitWrite ⟨[gc 4], false, false⟩]

example : (exRun exInfoOps).any (fun s => (view exEnv s [gc 1, gc 2]).pit.any (fun p => p.allInfo == [1, 1]) &&
    (view exEnv s [gc 1, gc 3]).meas.any (fun m => m.info == [1]) && (view exEnv s [gc 4]).pit.any (fun p => p.allInfo == [1]) &&
    (scInsert exEnv s [gc 1] st2).any (fun r => effTyp exEnv r.1 [gc 1, gc 2] == some 2 && effTyp exEnv r.1 [gc 4] == some 1 &&
      (view exEnv r.1 [gc 1, gc 2]).pit.any (fun p => p.allInfo == [] && p.ins.length == 1) && (view exEnv r.1 [gc 1, gc 3]).meas.any (fun m => m.info == []) &&
      (view exEnv r.1 [gc 4]).pit.any (fun p => p.allInfo == [1]))) = true := by decide +kernel

/-- A strategy of the same type with other parameters: nothing is dropped. -/
example : (exRun exInfoOps).any (fun s => (scInsert exEnv s [gc 1] (st1 ++ [gc 9])).any (fun r =>
      (view exEnv r.1 [gc 1, gc 2]).pit.any (fun p => p.allInfo == [1, 1]) && scEffective exEnv r.1 [gc 1, gc 2] == some (st1 ++ [gc 9]))) = true := by decide +kernel

/-- **C22 fails in general.** The entry of an Interest with an implicit digest hangs at the node of the name without the digest. When a
strategy of another type is configured for the full name, the entry comes under it but keeps the information of the previous one. -/
theorem C22_digest_not_cleared : ∃ (e : Env) (d : Name) (s s' : Tables) (p : PitEntry) (x st : Name), Reachable e d s ∧
    Live e s p ∧ (Op.scInsert x st).run e s = some s' ∧ effTyp e s p.interest.name ≠ effTyp e s' p.interest.name ∧
    Live e s' p ∧ ∃ t ∈ p.allInfo, effTyp e s' p.interest.name ≠ some t := by
  let n : Name := [gc 1, dc 2]
  let ops : List Op := [.pitInsert { name := n }, .pitWrite ⟨n, false, false⟩]
  let p : PitEntry := { interest := { name := n }, info := [1] }
  have h : (exRun ops).any (fun s => ((Op.scInsert n st2).run exEnv s).any (fun s' =>
      decide (p ∈ (view exEnv s [gc 1]).pit) && decide (effTyp exEnv s n ≠ effTyp exEnv s' n) && decide (p ∈ (view exEnv s' [gc 1]).pit) &&
      decide (effTyp exEnv s' n ≠ some 1))) = true := by decide +kernel
  rw [Option.any_eq_true] at h
  obtain ⟨s, hs, h⟩ := h
  rw [Option.any_eq_true] at h
  obtain ⟨s', hs', h⟩ := h
  simp only [Bool.and_eq_true, decide_eq_true_eq] at h
  obtain ⟨⟨⟨h1, h2⟩, h3⟩, h4⟩ := h
  exact ⟨exEnv, st1, s, s', p, n, st2, exRun_reachable hs, ⟨_, h1⟩, hs', h2, ⟨_, h3⟩, 1, by decide, h4⟩

end Verif.Tb
