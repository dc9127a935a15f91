import Verif.Tables.ScOk
import Verif.Tables.Example

/-! Property C23: lifetime of measurements entries. -/
namespace Verif.Tb

open Nt (maxDepth tblOf TreeInv)

variable {e : Env} {s s' : Tables}

theorem now_step (hi : TreeInv e.cfg s.nt) (op : Op) (h : op.run e s = some s') :
    s'.now = match op with | .tick dt => s.now + dt | _ => s.now := by
  have hmod : ∀ {i f}, pitMod e s i f = some s' → s'.now = s.now := fun h => by
    obtain ⟨_, _, -, rfl, -⟩ := pitMod_fwd hi h; rfl
  have hgot : ∀ {n}, MeasGot e s s' n → s'.now = s.now := fun h => by obtain ⟨_, _, rfl, -⟩ := h; rfl
  cases op with
  | fibInsert p =>
    simp only [Op.run, Option.map_eq_some_iff] at h
    obtain ⟨⟨s1, b⟩, h1, rfl⟩ := h
    obtain ⟨t, rfl, -⟩ := fibInsert_fwd hi h1
    rfl
  | fibErase p =>
    rcases fibErase_fwd hi h with ⟨rfl, -⟩ | ⟨t, rfl, -⟩ <;> rfl
  | fibSet p f c =>
    simp only [Op.run, Option.map_eq_some_iff] at h
    obtain ⟨⟨s1, o⟩, h1, rfl⟩ := h
    obtain ⟨l, t, -, rfl, -⟩ := fibSet_fwd hi h1
    rfl
  | fibUnset p f =>
    simp only [Op.run, Option.map_eq_some_iff] at h
    obtain ⟨⟨s1, o⟩, h1, rfl⟩ := h
    obtain ⟨l, hl, h2⟩ := fibUnset_fwd hi h1
    rcases h2 with ⟨-, rfl, -⟩ | ⟨-, -, -, t, rfl, -⟩ | ⟨-, -, -, t, rfl, -⟩ <;> rfl
  | cleanup f => obtain ⟨t, -, -, rfl, -⟩ := cleanup_fwd hi h; rfl
  | pitInsert i =>
    simp only [Op.run, Option.map_eq_some_iff] at h
    obtain ⟨⟨s1, p, b⟩, h1, rfl⟩ := h
    rcases pitInsert_fwd hi h1 with ⟨t, -, -, rfl, -⟩ | ⟨t, -, -, -, rfl, -⟩ <;> rfl
  | pitErase i => obtain ⟨j, t, -, rfl, -⟩ := pitErase_fwd hi h; rfl
  | pitIn | pitOut | pitDelIn | pitClearIn | pitDelOut | pitNack => exact hmod h
  | pitWrite i =>
    simp only [Op.run, pitWrite, Option.bind_eq_bind, Option.bind_eq_some_iff] at h
    obtain ⟨inst, -, ty, -, h⟩ := h
    exact hmod h
  | scInsert p st =>
    simp only [Op.run, Option.map_eq_some_iff] at h
    obtain ⟨⟨s1, r⟩, h1, rfl⟩ := h
    rcases scInsert_fwd hi h1 with ⟨-, -, rfl⟩ | ⟨-, -, -, rfl⟩ | ⟨-, -, -, rfl⟩ | ⟨inst, -, -, -, h2⟩
    · rfl
    · rfl
    · rfl
    · rcases h2 with ⟨t, -, rfl, -⟩ | ⟨cur, t, -, -, rfl, -⟩ | ⟨t, t1, old, -, -, -, -, rfl, -⟩ <;> rfl
  | scErase p =>
    obtain ⟨-, ⟨rfl, -⟩ | ⟨_, _, _, -, -, rfl, -⟩⟩ := scErase_fwd hi h <;> rfl
  | measGet n => exact hgot (measGet_fwd hi h)
  | measGetFib p => exact hgot (measGetFib_fwd hi h)
  | measGetPit i => exact hgot (measGetPit_fwd hi h).2
  | measGetParent n =>
    rcases measGetParent_fwd hi h with ⟨-, rfl⟩ | ⟨-, hg⟩
    · rfl
    · exact hgot hg
  | measExtend n lt => obtain ⟨m, -, ⟨-, rfl⟩ | ⟨-, t, rfl, -⟩⟩ := measExtend_fwd hi h <;> rfl
  | measCleanup n => obtain ⟨m, -, ⟨-, rfl⟩ | ⟨-, t, rfl, -⟩⟩ := measCleanup_fwd hi h <;> rfl
  | measWrite n => obtain ⟨m, inst, ty, t, -, -, -, rfl, -⟩ := measWrite_fwd hi h; rfl
  | tick dt =>
    simp only [Op.run, Option.some.injEq] at h
    subst h
    rfl

theorem now_mono (hi : TreeInv e.cfg s.nt) (op : Op) (h : op.run e s = some s') : s.now ≤ s'.now := by
  rw [now_step hi op h]
  split
  · exact Nat.le_add_right _ _
  · exact Nat.le_refl _

theorem measGot_keep {n x : Name} (h : MeasGot e s s' n) {m : MeasEntry} (hm : (view e s x).meas = some m) : (view e s' x).meas = some m := by
  obtain ⟨t, k, rfl, h1, ⟨-, rfl, hv⟩ | ⟨hn, rfl, hv⟩⟩ := h
  · rw [view_with, hv]; exact hm
  · rw [view_with, hv]
    have : x ≠ n := by rintro rfl; rw [hm] at hn; simp at hn
    rw [upd_ne _ _ this]; exact hm

/-- **C23.** Every live measurements entry has a cleanup event pending, due exactly at its expiry. -/
theorem C23_cleanup_pending {d : Name} (h : Reachable e d s) (n : Name) (m : MeasEntry) (hm : measAt e s n = some m) :
    m.cleanupAt = m.expiry := (h.inv.node n).meas m hm

theorem meas_step (hi : Inv e s) (op : Op) (h : op.run e s = some s') (n : Name) (m : MeasEntry) (hm : measAt e s n = some m) :
    (∃ m', measAt e s' n = some m' ∧ m.expiry ≤ m'.expiry) ∨ (op = .measCleanup n ∧ m.expiry ≤ s.now ∧ measAt e s' n = none) := by
  unfold measAt at hm ⊢
  cases ho : op.measOp with
  | false => left; exact ⟨m, by rw [other_meas hi.tree op ho h]; exact hm, Nat.le_refl _⟩
  | true =>
    cases op with
    | scInsert p st =>
      left
      have hi' := step_inv hi _ h
      simp only [Op.run, Option.map_eq_some_iff] at h
      obtain ⟨⟨s1, r⟩, h1, rfl⟩ := h
      obtain ⟨a, b⟩ := (scInsert_step hi h1).node hi hi' n
      by_cases heq : effTyp e s1 n = effTyp e s n
      · exact ⟨m, by rw [(a heq).2, hm], Nat.le_refl _⟩
      · exact ⟨{ m with info := [] }, by rw [(b heq).2, hm]; rfl, Nat.le_refl _⟩
    | scErase p =>
      left
      have hi' := step_inv hi _ h
      obtain ⟨a, b⟩ := (scErase_step hi h).node hi hi' n
      by_cases heq : effTyp e s' n = effTyp e s n
      · exact ⟨m, by rw [(a heq).2, hm], Nat.le_refl _⟩
      · exact ⟨{ m with info := [] }, by rw [(b heq).2, hm]; rfl, Nat.le_refl _⟩
    | measGet x => left; exact ⟨m, measGot_keep (measGet_fwd hi.tree h) hm, Nat.le_refl _⟩
    | measGetFib p => left; exact ⟨m, measGot_keep (measGetFib_fwd hi.tree h) hm, Nat.le_refl _⟩
    | measGetPit i => left; exact ⟨m, measGot_keep (measGetPit_fwd hi.tree h).2 hm, Nat.le_refl _⟩
    | measGetParent x =>
      left
      rcases measGetParent_fwd hi.tree h with ⟨-, rfl⟩ | ⟨-, hg⟩
      · exact ⟨m, hm, Nat.le_refl _⟩
      · exact ⟨m, measGot_keep hg hm, Nat.le_refl _⟩
    | measExtend x lt =>
      left
      obtain ⟨m0, hm0, ⟨-, rfl⟩ | ⟨hlt, t, rfl, h2, h3⟩⟩ := measExtend_fwd hi.tree h
      · exact ⟨m, hm, Nat.le_refl _⟩
      · rw [view_with, h3]
        by_cases hx : n = x
        · subst hx
          rw [hm] at hm0; cases hm0
          rw [upd_same]
          exact ⟨_, rfl, Nat.le_of_lt hlt⟩
        · rw [upd_ne _ _ hx]; exact ⟨m, hm, Nat.le_refl _⟩
    | measCleanup x =>
      obtain ⟨m0, hm0, ⟨-, rfl⟩ | ⟨hle, t, rfl, h2, h3⟩⟩ := measCleanup_fwd hi.tree h
      · left; exact ⟨m, hm, Nat.le_refl _⟩
      · rw [view_with, h3]
        by_cases hx : n = x
        · subst hx
          rw [hm] at hm0; cases hm0
          rw [upd_same]
          right
          exact ⟨rfl, by rw [← (hi.node n).meas m hm]; exact hle, rfl⟩
        · left; rw [upd_ne _ _ hx]; exact ⟨m, hm, Nat.le_refl _⟩
    | measWrite x =>
      left
      obtain ⟨m0, inst, ty, t, hm0, -, -, rfl, h2, h3⟩ := measWrite_fwd hi.tree h
      rw [view_with, h3]
      by_cases hx : n = x
      · subst hx
        rw [hm] at hm0; cases hm0
        rw [upd_same]
        exact ⟨_, rfl, Nat.le_refl _⟩
      · rw [upd_ne _ _ hx]; exact ⟨m, hm, Nat.le_refl _⟩
    | _ => simp [Op.measOp] at ho

/-- **C23.** One step: the expiry of an entry never moves backwards, and an entry disappears only when its own cleanup event runs at or
after its expiry. -/
theorem C23_step {d : Name} (h : Reachable e d s) (op : Op) (hs : op.run e s = some s') (n : Name) (m : MeasEntry) (hm : measAt e s n = some m) :
    (∃ m', measAt e s' n = some m' ∧ m.expiry ≤ m'.expiry) ∨ (op = .measCleanup n ∧ m.expiry ≤ s.now ∧ measAt e s' n = none) :=
  meas_step h.inv op hs n m hm

theorem meas_survives (ops : List Op) : ∀ {s : Tables}, Inv e s → ∀ {n : Name} {m : MeasEntry} {T : Time}, measAt e s n = some m → T ≤ m.expiry →
    run e s ops = some s' → s'.now < T → ∃ m', measAt e s' n = some m' ∧ T ≤ m'.expiry := by
  induction ops with
  | nil => intro s _ n m T hm ht h _; cases h; exact ⟨m, hm, ht⟩
  | cons op ops ih =>
    intro s hi n m T hm ht h hlt
    rw [run, Option.bind_eq_some_iff] at h
    obtain ⟨s1, h1, h2⟩ := h
    have hi1 := step_inv hi op h1
    have hmono : ∀ (ops : List Op) {s s' : Tables}, Inv e s → run e s ops = some s' → s.now ≤ s'.now := by
      intro ops
      induction ops with
      | nil => intro s s' _ h; cases h; exact Nat.le_refl _
      | cons op ops ih =>
        intro s s' hi h
        rw [run, Option.bind_eq_some_iff] at h
        obtain ⟨s1, h1, h2⟩ := h
        exact Nat.le_trans (now_mono hi.tree op h1) (ih (step_inv hi op h1) h2)
    rcases meas_step hi op h1 n m hm with ⟨m', hm', hle⟩ | ⟨rfl, hle, -⟩
    · exact ih hi1 hm' (Nat.le_trans ht hle) h2 hlt
    · have a := now_mono hi.tree _ h1
      have b := hmono ops hi1 h2
      exact absurd (Nat.lt_of_le_of_lt (Nat.le_trans (Nat.le_trans ht hle) (Nat.le_trans a b)) hlt) (Nat.lt_irrefl _)

/-- **C23.** Whatever happens after `extendLifetime`, the entry is there until the requested time has passed. -/
theorem C23_extend_guarantee {d : Name} (h : Reachable e d s) (n : Name) (lifetime : Time) (ops : List Op)
    (hs : run e s (.measExtend n lifetime :: ops) = some s') (hnow : s'.now < s.now + lifetime) :
    ∃ m, measAt e s' n = some m ∧ s.now + lifetime ≤ m.expiry := by
  rw [run, Option.bind_eq_some_iff] at hs
  obtain ⟨s1, h1, h2⟩ := hs
  have hi := h.inv
  have : ∃ m1, measAt e s1 n = some m1 ∧ s.now + lifetime ≤ m1.expiry := by
    obtain ⟨m, hm, ⟨hge, rfl⟩ | ⟨hlt, t, rfl, i1, v1⟩⟩ := measExtend_fwd hi.tree h1
    · exact ⟨m, hm, hge⟩
    · exact ⟨_, by rw [measAt, view_with, v1, upd_same], Nat.le_refl _⟩
  obtain ⟨m1, hm1, hle⟩ := this
  exact meas_survives ops (step_inv hi _ h1) hm1 hle h2 hnow

/-- **C23.** `extendLifetime` sets the expiry to the later of the old one and the requested one, keeps the information stored on the
entry, and touches no other entry. -/
theorem C23_extend {d : Name} (h : Reachable e d s) (n : Name) (lifetime : Time) (m : MeasEntry) (hm : measAt e s n = some m) :
    ∃ s', (Op.measExtend n lifetime).run e s = some s' ∧
      measAt e s' n = some { expiry := max m.expiry (s.now + lifetime), cleanupAt := max m.expiry (s.now + lifetime), info := m.info } ∧
      ∀ x, x ≠ n → measAt e s' x = measAt e s x := by
  have hi := h.inv
  have hst : (tblOf e.cfg s.nt n).isSome := stored_of_vw (by intro hh; unfold measAt at hm; rw [view_eq, hh] at hm; simp at hm)
  have hok : ∃ s', measExtend e s n lifetime = some s' := by
    unfold measExtend
    simp only [show (view e s n).meas = some m from hm, Option.bind_eq_bind, Option.bind_some]
    split
    · exact ⟨_, rfl⟩
    · obtain ⟨t, ht⟩ := setTbl_ok hi.tree (n := n) (fun x => { x with meas := some { m with expiry := s.now + lifetime, cleanupAt := s.now + lifetime } }) hst
      simp only [ht, Option.bind_some]
      exact ⟨_, rfl⟩
  obtain ⟨s', hs⟩ := hok
  refine ⟨s', hs, ?_⟩
  obtain ⟨m0, hm0, h2⟩ := measExtend_fwd hi.tree hs
  rw [show (view e s n).meas = some m from hm] at hm0
  cases hm0
  rcases h2 with ⟨hge, rfl⟩ | ⟨hlt, t, rfl, i1, v1⟩
  · refine ⟨?_, fun x _ => rfl⟩
    rw [hm, Nat.max_eq_left hge]
    have := C23_cleanup_pending h n m hm
    cases m
    simp only at this
    subst this
    rfl
  · rw [Nat.max_eq_right (Nat.le_of_lt hlt)]
    refine ⟨by rw [measAt, view_with, v1, upd_same], fun x hx => by rw [measAt, measAt, view_with, v1, upd_ne _ _ hx]⟩

/-- **C23.** `get` always answers; it returns the entry of the name (of its first 32 components), creating it with the initial
lifetime of 4 s if it was not there, and changes no other entry. -/
theorem C23_get {d : Name} (h : Reachable e d s) (name : Name) :
    ∃ s', (Op.measGet name).run e s = some s' ∧
      measAt e s' (name.take 32) = some ((measAt e s (name.take 32)).getD ⟨s.now + 4000000000, s.now + 4000000000, []⟩) ∧
      ∀ x, x ≠ name.take 32 → measAt e s' x = measAt e s x := by
  have hi := h.inv
  have htk : name.take (min name.length maxDepth) = name.take 32 := by
    rw [Nat.min_comm, ← List.take_eq_take_min]
  have hok : ∃ s', measGet e s name = some s' := by
    unfold measGet
    obtain ⟨t, ht⟩ := lookup_ok hi.tree (n := name) (k := min name.length maxDepth) (Nat.min_le_left _ _) (Nat.min_le_right _ _)
    obtain ⟨i1, -, -, -, st, -⟩ := fwd_lookup hi.tree ht
    simp only [ht, Option.bind_eq_bind, Option.bind_some]
    unfold measGetNte
    split
    · exact ⟨_, rfl⟩
    · obtain ⟨t2, h2⟩ := setTbl_ok i1 (n := name.take (min name.length maxDepth))
        (fun x => { x with meas := some ⟨s.now + initialLifetime, s.now + initialLifetime, []⟩ }) st
      simp only [h2, Option.bind_eq_bind, Option.bind_some]
      exact ⟨_, rfl⟩
  obtain ⟨s', hs⟩ := hok
  refine ⟨s', hs, ?_⟩
  have hg := measGet_fwd hi.tree hs
  rw [htk] at hg
  obtain ⟨t, k, rfl, i1, ⟨hm, -, hv⟩ | ⟨hm, -, hv⟩⟩ := hg
  · obtain ⟨m, hm⟩ := Option.isSome_iff_exists.1 hm
    unfold measAt
    rw [view_with, hv, hm]
    exact ⟨rfl, fun _ _ => rfl⟩
  · unfold measAt
    rw [view_with, hv, upd_same, hm]
    exact ⟨rfl, fun x hx => by rw [upd_ne _ _ hx]⟩

/-- **C23.** At or after its expiry the cleanup event removes the entry, and only it; before that it does nothing. -/
theorem C23_cleanup {d : Name} (h : Reachable e d s) (n : Name) (m : MeasEntry) (hm : measAt e s n = some m) :
    ∃ s', (Op.measCleanup n).run e s = some s' ∧ (∀ x, x ≠ n → measAt e s' x = measAt e s x) ∧
      measAt e s' n = if m.expiry ≤ s.now then none else some m := by
  have hi := h.inv
  have hst : (tblOf e.cfg s.nt n).isSome := stored_of_vw (by intro hh; unfold measAt at hm; rw [view_eq, hh] at hm; simp at hm)
  have hok : ∃ s', measCleanup e s n = some s' := by
    unfold measCleanup
    simp only [show (view e s n).meas = some m from hm, Option.bind_eq_bind, Option.bind_some]
    split
    · exact ⟨_, rfl⟩
    · obtain ⟨t, ht⟩ := setTbl_ok hi.tree (n := n) (fun x => { x with meas := none }) hst
      obtain ⟨i1, -, -, d1⟩ := fwd_setTbl hi.tree ht
      obtain ⟨r, hr⟩ := eraseIfEmpty_ok i1 true (n := n) (by rw [d1]; exact hst)
      simp only [ht, hr, Option.bind_some]
      exact ⟨_, rfl⟩
  obtain ⟨s', hs⟩ := hok
  refine ⟨s', hs, ?_⟩
  have hc := C23_cleanup_pending h n m hm
  obtain ⟨m0, hm0, h2⟩ := measCleanup_fwd hi.tree hs
  rw [show (view e s n).meas = some m from hm] at hm0
  cases hm0
  rw [hc] at h2
  rcases h2 with ⟨hlt, rfl⟩ | ⟨hle, t, rfl, i1, v1⟩
  · exact ⟨fun _ _ => rfl, by rw [if_neg (Nat.not_le.2 hlt), hm]⟩
  · refine ⟨fun x hx => by rw [measAt, measAt, view_with, v1, upd_ne _ _ hx], by rw [if_pos hle, measAt, view_with, v1, upd_same]⟩

/-- **C23.** `size()` is the number of entries. -/
theorem C23_size {d : Name} (h : Reachable e d s) : Counted (fun n => (measAt e s n).isSome) s.nMeas := h.inv.nMeas

/-- An entry extended to 10 s survives a cleanup at 9 s, and goes at 10 s. -/
def exMeasOps : List Op := [.measGet [gc 1, gc 2], .measExtend [gc 1, gc 2] 10000000000, .measExtend [gc 1, gc 2] 5, .tick 9000000000, .measCleanup [gc 1, gc 2]]

example : (exRun exMeasOps).any (fun s => measAt exEnv s [gc 1, gc 2] == some ⟨10000000000, 10000000000, []⟩ && s.nMeas == 1 &&
    (run exEnv s [.tick 1000000000, .measCleanup [gc 1, gc 2]]).any (fun s' => measAt exEnv s' [gc 1, gc 2] == none && s'.nMeas == 0)) = true := by decide +kernel

example : ∃ s s', Reachable exEnv st1 s ∧ run exEnv s (.measExtend [gc 1] 7000 :: [.scInsert [gc 1] st2, .tick 6999, .measCleanup [gc 1]]) = some s' ∧
    s'.now < s.now + 7000 := by
  have h : (exRun [.measGet [gc 1]]).any (fun s => (run exEnv s (.measExtend [gc 1] 7000 :: [.scInsert [gc 1] st2, .tick 6999, .measCleanup [gc 1]])).any (fun s' =>
      decide (s'.now < s.now + 7000))) = true := by decide +kernel
  rw [Option.any_eq_true] at h
  obtain ⟨s, hs, h⟩ := h
  rw [Option.any_eq_true] at h
  obtain ⟨s', hs', h⟩ := h
  exact ⟨s, s', exRun_reachable hs, hs', by simpa using h⟩

end Verif.Tb
