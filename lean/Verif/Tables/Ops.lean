import Verif.Tables.Lemmas

/-! What each table operation does to the tables attached at each name. -/
namespace Verif.Tb

open Nt (Tree Nte Cfg Options maxDepth tblOf TreeInv)

variable {e : Env} {s s' : Tables}

theorem view_with (t : Tree Tbl) (a b c d : Nat) (n : Time) : view e ⟨t, a, b, c, d, n⟩ = vw e t := rfl

/-! ### FIB -/

theorem fibInsert_fwd (hi : TreeInv e.cfg s.nt) {p : Name} {b : Bool} (h : fibInsert e s p = some (s', b)) :
    ∃ t, s' = { s with nt := t, nFib := if (view e s p).fib.isSome then s.nFib else s.nFib + 1 } ∧ TreeInv e.cfg t ∧
      vw e t = upd (view e s) p (fun x => { x with fib := some (x.fib.getD []) }) ∧ b = (view e s p).fib.isNone ∧
      p.length ≤ maxDepth := by
  unfold fibInsert at h
  simp only [Option.bind_eq_bind, Option.bind_eq_some_iff] at h
  obtain ⟨t, h1, h⟩ := h
  obtain ⟨i1, v1, -, hd, -, -⟩ := fwd_lookup hi h1
  have hp : (tblOf e.cfg t p).getD {} = view e s p := congrFun v1 p
  rw [hp] at h
  by_cases hf : (view e s p).fib.isSome = true
  · rw [if_pos hf] at h
    simp only [Option.some.injEq, Prod.mk.injEq] at h
    obtain ⟨rfl, rfl⟩ := h
    refine ⟨t, by rw [if_pos hf], i1, ?_, ?_, hd⟩
    · rw [v1]
      funext m
      by_cases hm : m = p
      · subst hm
        rw [upd_same, ← view_eq]
        obtain ⟨l, hl⟩ := Option.isSome_iff_exists.1 hf
        cases hx : view e s m with
        | mk a b c d => rw [hx] at hl; simp only at hl; subst hl; rfl
      · rw [upd_ne _ _ hm]; rfl
    · cases hx : (view e s p).fib <;> simp_all
  · rw [if_neg hf] at h
    simp only [Option.bind_eq_some_iff] at h
    obtain ⟨t2, h2, h⟩ := h
    simp only [Option.some.injEq, Prod.mk.injEq] at h
    obtain ⟨rfl, rfl⟩ := h
    obtain ⟨i2, v2, -, -⟩ := fwd_setTbl i1 h2
    refine ⟨t2, by rw [if_neg hf], i2, ?_, ?_, hd⟩
    · rw [v2, v1, ← view_eq]
      funext m
      by_cases hm : m = p
      · subst hm
        rw [upd_same, upd_same]
        cases hx : (view e s m).fib with
        | none => simp
        | some l => simp [hx] at hf
      · rw [upd_ne _ _ hm, upd_ne _ _ hm]
    · cases hx : (view e s p).fib <;> simp_all

theorem fibErase_fwd (hi : TreeInv e.cfg s.nt) {p : Name} (h : fibErase e s p = some s') :
    (s' = s ∧ view e s p = {}) ∨
    ∃ t, s' = { s with nt := t, nFib := s.nFib - 1 } ∧ TreeInv e.cfg t ∧ vw e t = upd (view e s) p (fun x => { x with fib := none }) := by
  unfold fibErase at h
  cases hn : (Nt.findExact e.cfg s.nt p p.length).isNone with
  | true =>
    rw [hn, if_pos rfl] at h
    cases h
    left
    exact ⟨rfl, by rw [view, findExact_none hi hn]; rfl⟩
  | false =>
    right
    rw [hn, if_neg (by simp)] at h
    simp only [Option.bind_eq_bind, Option.bind_eq_some_iff] at h
    obtain ⟨t, h1, r, h2, h3⟩ := h
    obtain ⟨i1, v1, -, -⟩ := fwd_setTbl hi h1
    obtain ⟨i2, v2, -, -⟩ := fwd_erase i1 h2
    cases h3
    exact ⟨r.1, rfl, i2, by rw [v2, v1]; rfl⟩

theorem fibSet_fwd (hi : TreeInv e.cfg s.nt) {p : Name} {f : FaceId} {c : Nat} {o} (h : fibSet e s p f c = some (s', o)) :
    ∃ l t, (view e s p).fib = some l ∧ s' = { s with nt := t } ∧ TreeInv e.cfg t ∧
      vw e t = upd (view e s) p (fun x => { x with fib := some (addOrUpdateNextHop e l f c).1 }) ∧
      o = (addOrUpdateNextHop e l f c).2.map (p, ·) := by
  unfold fibSet at h
  simp only [Option.bind_eq_bind, Option.bind_eq_some_iff] at h
  obtain ⟨l, hl, t, h1, h2⟩ := h
  obtain ⟨i1, v1, -, -⟩ := fwd_setTbl hi h1
  simp only [Option.some.injEq, Prod.mk.injEq] at h2
  obtain ⟨rfl, rfl⟩ := h2
  exact ⟨l, t, hl, rfl, i1, v1, rfl⟩

theorem fibUnset_fwd (hi : TreeInv e.cfg s.nt) {p : Name} {f : FaceId} {r} (h : fibUnset e s p f = some (s', r)) :
    ∃ l, (view e s p).fib = some l ∧
      ((r = .noSuchNextHop ∧ s' = s ∧ (l.eraseP (·.face == f)).length = l.length) ∨
       (r = .entryRemoved ∧ l.eraseP (·.face == f) = [] ∧ l ≠ [] ∧ ∃ t, s' = { s with nt := t, nFib := s.nFib - 1 } ∧ TreeInv e.cfg t ∧
          vw e t = upd (view e s) p (fun x => { x with fib := none })) ∨
       (r = .nextHopRemoved ∧ l.eraseP (·.face == f) ≠ [] ∧ (l.eraseP (·.face == f)).length ≠ l.length ∧ ∃ t, s' = { s with nt := t } ∧ TreeInv e.cfg t ∧
          vw e t = upd (view e s) p (fun x => { x with fib := some (l.eraseP (·.face == f)) }))) := by
  unfold fibUnset at h
  simp only [Option.bind_eq_bind, Option.bind_eq_some_iff] at h
  obtain ⟨l, hl, h⟩ := h
  refine ⟨l, hl, ?_⟩
  split at h
  · rename_i hlen
    simp only [Option.some.injEq, Prod.mk.injEq] at h
    left; exact ⟨h.2.symm, h.1.symm, hlen⟩
  · rename_i hlen
    right
    split at h
    · rename_i hemp
      left
      simp only [Option.bind_eq_some_iff] at h
      obtain ⟨t, h1, h2⟩ := h
      obtain ⟨i1, v1, -, -⟩ := fwd_setTbl hi h1
      simp only [Option.some.injEq, Prod.mk.injEq] at h2
      obtain ⟨rfl, rfl⟩ := h2
      exact ⟨rfl, by simpa using hemp, by rintro rfl; simp at hlen, t, rfl, i1, v1⟩
    · rename_i hemp
      right
      simp only [Option.bind_eq_some_iff] at h
      obtain ⟨t, h1, h2⟩ := h
      obtain ⟨i1, v1, -, -⟩ := fwd_setTbl hi h1
      simp only [Option.some.injEq, Prod.mk.injEq] at h2
      obtain ⟨rfl, rfl⟩ := h2
      exact ⟨rfl, by simpa using hemp, hlen, t, rfl, i1, v1⟩

/-! ### PIT -/

theorem pitDepth_le (n : Name) : pitDepth n ≤ n.length := by unfold pitDepth; omega
theorem pitDepth_max (n : Name) : pitDepth n ≤ maxDepth := by unfold pitDepth; omega
theorem pitNode_length (n : Name) : (pitNode n).length = pitDepth n := by
  unfold pitNode; rw [List.length_take]; have := pitDepth_le n; omega
theorem pitNode_prefix (n : Name) : pitNode n <+: n := List.take_prefix _ _

theorem canMatch_iff {i : Interest} {p : PitEntry} (h : pitNode p.interest.name = pitNode i.name) :
    canMatch (pitDepth i.name) i p = sameKey i p := by
  have hd : pitDepth p.interest.name = pitDepth i.name := by rw [← pitNode_length, h, pitNode_length]
  have ht : p.interest.name.take (pitDepth i.name) = i.name.take (pitDepth i.name) := by rw [← hd]; rw [hd]; unfold pitNode at h; rw [hd] at h; exact h
  unfold canMatch sameKey
  rw [Bool.eq_iff_iff]
  simp only [Bool.and_eq_true, beq_iff_eq]
  constructor
  · rintro ⟨⟨h1, h2⟩, h3⟩
    have : p.interest.name = i.name := by
      have h5 := List.take_append_drop (pitDepth i.name) p.interest.name
      rw [ht, h1, List.take_append_drop] at h5
      exact h5.symm
    cases i
    cases hp : p.interest.toInterest
    simp_all
  · intro h1
    rw [← h1]
    simp

theorem findIn_eq {l : List PitEntry} {i : Interest} (h : ∀ p ∈ l, pitNode p.interest.name = pitNode i.name) :
    findIn l i = l.find? (sameKey i) := by
  unfold findIn
  induction l with
  | nil => rfl
  | cons p l ih =>
    rw [List.find?_cons, List.find?_cons, canMatch_iff (h p (by simp)), ih (fun q hq => h q (by simp [hq]))]

theorem pitInsert_fwd (hi : TreeInv e.cfg s.nt) {i : FwInterest} {p : PitEntry} {b : Bool} (h : pitInsert e s i = some (s', p, b)) :
    (∃ t, findIn (view e s (pitNode i.name)).pit i.toInterest = some p ∧ b = false ∧ s' = { s with nt := t } ∧ TreeInv e.cfg t ∧ vw e t = view e s) ∨
    (∃ t, findIn (view e s (pitNode i.name)).pit i.toInterest = none ∧ b = true ∧ p = { interest := i } ∧
      s' = { s with nt := t, nPit := s.nPit + 1 } ∧ TreeInv e.cfg t ∧
      vw e t = upd (view e s) (pitNode i.name) (fun x => { x with pit := x.pit ++ [{ interest := i }] })) := by
  unfold pitInsert at h
  simp only [Option.bind_eq_bind, Option.bind_eq_some_iff] at h
  obtain ⟨t, h1, h⟩ := h
  obtain ⟨i1, v1, -, -, -, -⟩ := fwd_lookup hi h1
  have hp : (tblOf e.cfg t (pitNode i.name)).getD {} = view e s (pitNode i.name) := congrFun v1 (pitNode i.name)
  rw [hp] at h
  cases hf : findIn (view e s (pitNode i.name)).pit i.toInterest with
  | some q =>
    rw [hf] at h
    simp only [Option.some.injEq, Prod.mk.injEq] at h
    obtain ⟨rfl, rfl, rfl⟩ := h
    left; exact ⟨t, rfl, rfl, rfl, i1, v1⟩
  | none =>
    rw [hf] at h
    simp only [Option.bind_eq_some_iff] at h
    obtain ⟨t2, h2, h⟩ := h
    simp only [Option.some.injEq, Prod.mk.injEq] at h
    obtain ⟨rfl, rfl, rfl⟩ := h
    obtain ⟨i2, v2, -, -⟩ := fwd_setTbl i1 h2
    right; exact ⟨t2, rfl, rfl, rfl, rfl, i2, by rw [v2, v1]; rfl⟩

theorem pitErase_fwd (hi : TreeInv e.cfg s.nt) {i : Interest} (h : pitErase e s i = some s') :
    ∃ j t, (view e s (pitNode i.name)).pit.findIdx? (sameKey i) = some j ∧ s' = { s with nt := t, nPit := s.nPit - 1 } ∧ TreeInv e.cfg t ∧
      vw e t = upd (view e s) (pitNode i.name) (fun x => { x with pit := swapErase x.pit j }) := by
  unfold pitErase at h
  simp only [Option.bind_eq_bind, Option.bind_eq_some_iff] at h
  obtain ⟨j, hj, t, h1, r, h2, h3⟩ := h
  obtain ⟨i1, v1, -, -⟩ := fwd_setTbl hi h1
  obtain ⟨i2, v2, -, -⟩ := fwd_erase i1 h2
  cases h3
  exact ⟨j, r.1, hj, rfl, i2, by rw [v2, v1]; rfl⟩

theorem pitMod_fwd (hi : TreeInv e.cfg s.nt) {i : Interest} {f : PitEntry → PitEntry} (h : pitMod e s i f = some s') :
    ∃ p t, (view e s (pitNode i.name)).pit.find? (sameKey i) = some p ∧ s' = { s with nt := t } ∧ TreeInv e.cfg t ∧
      vw e t = upd (view e s) (pitNode i.name) (fun x => { x with pit := x.pit.map (fun p => if sameKey i p then f p else p) }) := by
  unfold pitMod at h
  simp only [Option.bind_eq_bind, Option.bind_eq_some_iff] at h
  obtain ⟨p, hp, t, h1, h3⟩ := h
  obtain ⟨i1, v1, -, -⟩ := fwd_setTbl hi h1
  cases h3
  exact ⟨p, t, hp, rfl, i1, v1⟩

/-! ### Measurements -/

theorem measGetNte_fwd (hi : TreeInv e.cfg s.nt) {n : Name} (h : measGetNte e s n = some s') :
    ((view e s n).meas.isSome ∧ s' = s) ∨
    (∃ t, (view e s n).meas = none ∧ s' = { s with nt := t, nMeas := s.nMeas + 1 } ∧ TreeInv e.cfg t ∧
      vw e t = upd (view e s) n (fun x => { x with meas := some ⟨s.now + initialLifetime, s.now + initialLifetime, []⟩ })) := by
  unfold measGetNte at h
  split at h
  · rename_i hm; cases h; left; exact ⟨hm, rfl⟩
  · rename_i hm
    right
    simp only [Option.bind_eq_bind, Option.bind_eq_some_iff] at h
    obtain ⟨t, h1, h3⟩ := h
    obtain ⟨i1, v1, -, -⟩ := fwd_setTbl hi h1
    cases h3
    exact ⟨t, by simpa using hm, rfl, i1, v1⟩

/-- Effect of any of the `get` functions: an entry exists at `n` afterwards, new if there was none. -/
def MeasGot (e : Env) (s s' : Tables) (n : Name) : Prop :=
  ∃ t k, s' = { s with nt := t, nMeas := k } ∧ TreeInv e.cfg t ∧
    (((view e s n).meas.isSome ∧ k = s.nMeas ∧ vw e t = view e s) ∨
     ((view e s n).meas = none ∧ k = s.nMeas + 1 ∧
       vw e t = upd (view e s) n (fun x => { x with meas := some ⟨s.now + initialLifetime, s.now + initialLifetime, []⟩ })))

theorem measGetNte_got {s0 : Tables} {t : Tree Tbl} (hi : TreeInv e.cfg t) (hv : vw e t = view e s0) {n : Name}
    (h : measGetNte e { s0 with nt := t } n = some s') : MeasGot e s0 s' n := by
  have hn : view e { s0 with nt := t } n = view e s0 n := congrFun hv n
  rcases measGetNte_fwd (s := { s0 with nt := t }) hi h with ⟨h1, rfl⟩ | ⟨t2, h1, rfl, i2, v2⟩
  · exact ⟨t, s0.nMeas, rfl, hi, .inl ⟨by rw [← hn]; exact h1, rfl, hv⟩⟩
  · refine ⟨t2, _, rfl, i2, .inr ⟨by rw [← hn]; exact h1, rfl, ?_⟩⟩
    rw [v2]
    have : view e { s0 with nt := t } = view e s0 := hv
    rw [this]

theorem measGet_fwd (hi : TreeInv e.cfg s.nt) {n : Name} (h : measGet e s n = some s') :
    MeasGot e s s' (n.take (min n.length maxDepth)) := by
  unfold measGet at h
  simp only [Option.bind_eq_bind, Option.bind_eq_some_iff] at h
  obtain ⟨t, h1, h⟩ := h
  obtain ⟨i1, v1, -⟩ := fwd_lookup hi h1
  exact measGetNte_got i1 v1 h

theorem measGetFib_fwd (hi : TreeInv e.cfg s.nt) {p : Name} (h : measGetFib e s p = some s') : MeasGot e s s' p := by
  unfold measGetFib at h
  split at h
  · exact measGetNte_got (s0 := s) hi rfl h
  · split at h
    · rename_i hp
      subst hp
      simp only [Option.bind_eq_bind, Option.bind_eq_some_iff] at h
      obtain ⟨t, h1, h⟩ := h
      obtain ⟨i1, v1, -⟩ := fwd_lookup hi h1
      exact measGetNte_got i1 v1 h
    · simp at h

theorem measGetPit_fwd (hi : TreeInv e.cfg s.nt) {i : Interest} (h : measGetPit e s i = some s') :
    (view e s (pitNode i.name)).pit.any (sameKey i) ∧ MeasGot e s s' (measPitNode i.name) := by
  unfold measGetPit at h
  simp only [Option.bind_eq_bind, Option.bind_eq_some_iff] at h
  obtain ⟨p, hp, h⟩ := h
  refine ⟨?_, ?_⟩
  · have := List.mem_of_find?_eq_some hp
    have h2 := List.find?_some hp
    exact List.any_eq_true.2 ⟨p, this, h2⟩
  · unfold measPitNode
    split at h
    · rename_i hc
      rw [if_pos hc]
      simp only [Option.bind_eq_some_iff] at h
      obtain ⟨t, h1, h⟩ := h
      obtain ⟨i1, v1, -⟩ := fwd_lookup hi h1
      exact measGetNte_got i1 v1 h
    · rename_i hc
      rw [if_neg hc]
      exact measGetNte_got (s0 := s) hi rfl h

theorem measGetParent_fwd (hi : TreeInv e.cfg s.nt) {n : Name} (h : measGetParent e s n = some s') :
    (n = [] ∧ s' = s) ∨ (n ≠ [] ∧ MeasGot e s s' n.dropLast) := by
  unfold measGetParent at h
  simp only [Option.bind_eq_bind, Option.bind_eq_some_iff] at h
  obtain ⟨m, hm, h⟩ := h
  split at h
  · rename_i hn; cases h; left; exact ⟨hn, rfl⟩
  · rename_i hn
    right
    simp only [Option.bind_eq_some_iff] at h
    obtain ⟨x, hx, p, hp, h⟩ := h
    have := (hi.par n x hx hn).1
    rw [hp] at this
    cases this
    exact ⟨hn, measGetNte_got (s0 := s) hi rfl h⟩

theorem measExtend_fwd (hi : TreeInv e.cfg s.nt) {n : Name} {lt : Time} (h : measExtend e s n lt = some s') :
    ∃ m, (view e s n).meas = some m ∧
      ((m.expiry ≥ s.now + lt ∧ s' = s) ∨
       (m.expiry < s.now + lt ∧ ∃ t, s' = { s with nt := t } ∧ TreeInv e.cfg t ∧
         vw e t = upd (view e s) n (fun x => { x with meas := some { m with expiry := s.now + lt, cleanupAt := s.now + lt } }))) := by
  unfold measExtend at h
  simp only [Option.bind_eq_bind, Option.bind_eq_some_iff] at h
  obtain ⟨m, hm, h⟩ := h
  refine ⟨m, hm, ?_⟩
  split at h
  · rename_i hg; cases h; left; exact ⟨hg, rfl⟩
  · rename_i hg
    right
    simp only [Option.bind_eq_some_iff] at h
    obtain ⟨t, h1, h2⟩ := h
    obtain ⟨i1, v1, -, -⟩ := fwd_setTbl hi h1
    cases h2
    exact ⟨Nat.lt_of_not_le hg, t, rfl, i1, v1⟩

theorem measCleanup_fwd (hi : TreeInv e.cfg s.nt) {n : Name} (h : measCleanup e s n = some s') :
    ∃ m, (view e s n).meas = some m ∧
      ((s.now < m.cleanupAt ∧ s' = s) ∨
       (m.cleanupAt ≤ s.now ∧ ∃ t, s' = { s with nt := t, nMeas := s.nMeas - 1 } ∧ TreeInv e.cfg t ∧
         vw e t = upd (view e s) n (fun x => { x with meas := none }))) := by
  unfold measCleanup at h
  simp only [Option.bind_eq_bind, Option.bind_eq_some_iff] at h
  obtain ⟨m, hm, h⟩ := h
  refine ⟨m, hm, ?_⟩
  split at h
  · rename_i hg; cases h; left; exact ⟨hg, rfl⟩
  · rename_i hg
    right
    simp only [Option.bind_eq_some_iff] at h
    obtain ⟨t, h1, r, h2, h3⟩ := h
    obtain ⟨i1, v1, -, -⟩ := fwd_setTbl hi h1
    obtain ⟨i2, v2, -, -⟩ := fwd_erase i1 h2
    cases h3
    exact ⟨Nat.le_of_not_lt hg, r.1, rfl, i2, by rw [v2, v1]; rfl⟩

theorem measWrite_fwd (hi : TreeInv e.cfg s.nt) {n : Name} (h : measWrite e s n = some s') :
    ∃ m inst ty t, (view e s n).meas = some m ∧ scEffectiveMeas e s n = some inst ∧ e.styp inst = some ty ∧
      s' = { s with nt := t } ∧ TreeInv e.cfg t ∧ vw e t = upd (view e s) n (fun x => { x with meas := some { m with info := addInfo ty m.info } }) := by
  unfold measWrite at h
  simp only [Option.bind_eq_bind, Option.bind_eq_some_iff] at h
  obtain ⟨m, hm, inst, h1, ty, h2, t, h3, h4⟩ := h
  obtain ⟨i1, v1, -, -⟩ := fwd_setTbl hi h3
  cases h4
  exact ⟨m, inst, ty, t, hm, h1, h2, rfl, i1, v1⟩

/-! ### Strategy Choice -/

/-- Effect of changing the strategy determined by the entry at `p`: `sc` is replaced and StrategyInfo below cleared, or kept
when the type is the same. -/
def ScChanged (e : Env) (v v' : Name → Tbl) (p : Name) (old new : Name) (sc : Option Name) : Prop :=
  (areSameType e old new = true → v' = upd v p (fun x => { x with sc := sc })) ∧
  (areSameType e old new = false → ∀ m, (Covers v p m → v' m = clearInfo (upd v p (fun x => { x with sc := sc }) m)) ∧
    (¬ Covers v p m → v' m = upd v p (fun x => { x with sc := sc }) m))

theorem covers_upd {v : Name → Tbl} {p m : Name} {sc : Option Name} : Covers (upd v p (fun x => { x with sc := sc })) p m ↔ Covers v p m := by
  unfold Covers
  constructor
  · rintro ⟨h1, h2⟩
    exact ⟨h1, fun a ha hb hc => by have := h2 a ha hb hc; rwa [upd_ne _ _ hc] at this⟩
  · rintro ⟨h1, h2⟩
    exact ⟨h1, fun a ha hb hc => by rw [upd_ne _ _ hc]; exact h2 a ha hb hc⟩

theorem clearInfo_sc (x : Tbl) (sc : Option Name) : ({ clearInfo x with sc := sc } : Tbl) = clearInfo { x with sc := sc } := rfl

theorem covers_self {v : Name → Tbl} {p : Name} : Covers v p p :=
  ⟨List.prefix_refl _, fun _ ha hb hc => absurd (hb.eq_of_length (Nat.le_antisymm hb.length_le ha.length_le)) hc⟩

/-- set after clearing -/
theorem scChanged_after {t t' t'' : Tree Tbl} (hi : TreeInv e.cfg t) {p old new : Name} {sc : Option Name}
    (h : changeStrategy e t p old new = some t') (h' : Nt.setTbl e.cfg t' p (fun x => { x with sc := sc }) = some t'') :
    TreeInv e.cfg t'' ∧ ScChanged e (vw e t) (vw e t'') p old new sc := by
  obtain ⟨i1, -, v1, v2⟩ := fwd_changeStrategy hi h
  obtain ⟨i2, v3, -, -⟩ := fwd_setTbl i1 h'
  refine ⟨i2, ?_, ?_⟩
  · intro hs; rw [v3, v1 hs]
  · intro hs m
    rw [v3]
    constructor
    · intro hc
      by_cases hm : m = p
      · subst hm
        rw [upd_same, upd_same, (v2 hs m).1 hc, clearInfo_sc]
      · rw [upd_ne _ _ hm, upd_ne _ _ hm, (v2 hs m).1 hc]
    · intro hc
      by_cases hm : m = p
      · subst hm; exact absurd covers_self hc
      · rw [upd_ne _ _ hm, upd_ne _ _ hm, (v2 hs m).2 hc]

/-- set before clearing -/
theorem scChanged_before {t t' t'' : Tree Tbl} (hi : TreeInv e.cfg t) {p old new : Name} {sc : Option Name}
    (h' : Nt.setTbl e.cfg t p (fun x => { x with sc := sc }) = some t') (h : changeStrategy e t' p old new = some t'') :
    TreeInv e.cfg t'' ∧ ScChanged e (vw e t) (vw e t'') p old new sc := by
  obtain ⟨i2, v3, -, -⟩ := fwd_setTbl hi h'
  obtain ⟨i1, -, v1, v2⟩ := fwd_changeStrategy i2 h
  refine ⟨i1, ?_, ?_⟩
  · intro hs; rw [v1 hs, v3]
  · intro hs m
    rw [← v3]
    have := v2 hs m
    rw [v3] at this
    rw [covers_upd] at this
    rw [v3]
    exact this

/-- The type of strategy in charge at `p` before and after: the instance names `changeStrategy` is called with. -/
theorem scInsert_fwd (hi : TreeInv e.cfg s.nt) {p st : Name} {r : ScResult} (h : scInsert e s p st = some (s', r)) :
    (r = .depthExceeded ∧ maxDepth < p.length ∧ s' = s) ∨
    (r = .exception ∧ e.create st = .exception ∧ p.length ≤ maxDepth ∧ s' = s) ∨
    (r = .notRegistered ∧ e.create st = .notRegistered ∧ p.length ≤ maxDepth ∧ s' = s) ∨
    (∃ inst, r = .ok ∧ e.create st = .ok inst ∧ p.length ≤ maxDepth ∧
      ((∃ t, (view e s p).sc = some inst ∧ s' = { s with nt := t } ∧ TreeInv e.cfg t ∧ vw e t = view e s) ∨
       (∃ cur t, (view e s p).sc = some cur ∧ cur ≠ inst ∧ s' = { s with nt := t } ∧ TreeInv e.cfg t ∧
          ScChanged e (view e s) (vw e t) p cur inst (some inst)) ∨
       (∃ t t1 old, (view e s p).sc = none ∧ vw e t1 = view e s ∧ TreeInv e.cfg t1 ∧ scEffective e { s with nt := t1 } p = some old ∧
          s' = { s with nt := t, nSc := s.nSc + 1 } ∧ TreeInv e.cfg t ∧ ScChanged e (view e s) (vw e t) p old inst (some inst)))) := by
  unfold scInsert at h
  split at h
  · rename_i hd
    simp only [Option.some.injEq, Prod.mk.injEq] at h
    left; exact ⟨h.2.symm, hd, h.1.symm⟩
  · rename_i hd
    right
    cases hc : e.create st with
    | exception =>
      rw [hc] at h
      simp only [Option.some.injEq, Prod.mk.injEq] at h
      left; exact ⟨h.2.symm, rfl, by omega, h.1.symm⟩
    | notRegistered =>
      rw [hc] at h
      simp only [Option.some.injEq, Prod.mk.injEq] at h
      right; left; exact ⟨h.2.symm, rfl, by omega, h.1.symm⟩
    | ok inst =>
      right; right
      simp only [hc, Option.bind_eq_bind, Option.bind_eq_some_iff] at h
      obtain ⟨t, h1, h⟩ := h
      obtain ⟨i1, v1, -⟩ := fwd_lookup hi h1
      have hv : view e { s with nt := t } = view e s := v1
      cases hsc : (view e s p).sc with
      | some cur =>
        rw [hv, hsc] at h
        simp only at h
        split at h
        · rename_i heq
          subst heq
          simp only [Option.some.injEq, Prod.mk.injEq] at h
          exact ⟨cur, h.2.symm, rfl, by omega, .inl ⟨t, rfl, h.1.symm, i1, v1⟩⟩
        · rename_i hne
          simp only [Option.bind_eq_some_iff] at h
          obtain ⟨t1, h2, t2, h3, h⟩ := h
          simp only [Option.some.injEq, Prod.mk.injEq] at h
          obtain ⟨i2, v2⟩ := scChanged_after i1 h2 h3
          rw [v1] at v2
          exact ⟨inst, h.2.symm, rfl, by omega, .inr (.inl ⟨cur, t2, rfl, hne, h.1.symm, i2, v2⟩)⟩
      | none =>
        rw [hv, hsc] at h
        simp only [Option.bind_eq_some_iff] at h
        obtain ⟨old, h2, t1, h3, t2, h4, h⟩ := h
        simp only [Option.some.injEq, Prod.mk.injEq] at h
        obtain ⟨i2, v2⟩ := scChanged_before i1 h3 h4
        rw [v1] at v2
        exact ⟨inst, h.2.symm, rfl, by omega, .inr (.inr ⟨t2, t, old, rfl, v1, i1, h2, h.1.symm, i2, v2⟩)⟩

theorem scErase_fwd (hi : TreeInv e.cfg s.nt) {p : Name} (h : scErase e s p = some s') :
    p ≠ [] ∧ ((s' = s ∧ (view e s p).sc = none) ∨
      ∃ old parent t, (view e s p).sc = some old ∧ scEffective e s p.dropLast = some parent ∧ s' = { s with nt := t, nSc := s.nSc - 1 } ∧
        TreeInv e.cfg t ∧ ScChanged e (view e s) (vw e t) p old parent none) := by
  unfold scErase at h
  split at h
  · simp at h
  · rename_i hp
    refine ⟨by rintro rfl; simp at hp, ?_⟩
    cases hn : (Nt.findExact e.cfg s.nt p p.length).isNone with
    | true =>
      rw [hn, if_pos rfl] at h
      cases h
      left
      exact ⟨rfl, by rw [view, findExact_none hi hn]; rfl⟩
    | false =>
      rw [hn, if_neg (by simp)] at h
      cases hsc : (view e s p).sc with
      | none => rw [hsc] at h; cases h; left; exact ⟨rfl, rfl⟩
      | some old =>
        rw [hsc] at h
        simp only [Option.bind_eq_bind, Option.bind_eq_some_iff] at h
        obtain ⟨parent, h1, t1, h2, t2, h3, r, h4, h⟩ := h
        cases h
        obtain ⟨i2, v2⟩ := scChanged_after hi h2 h3
        obtain ⟨i3, v3, -, -⟩ := fwd_erase i2 h4
        right
        refine ⟨old, parent, r.1, rfl, h1, rfl, i3, ?_⟩
        rw [v3]; exact v2

/-! ### Face removal -/

theorem cleanTbl_empty (f : FaceId) : cleanTbl f {} = {} := rfl

theorem allNodes_nodup {t : Tree Tbl} (hi : TreeInv e.cfg t) : (allNodes e t).Nodup := by
  unfold allNodes
  have := Nt.fullEnumerate_spec hi.ht (fun _ _ => true) (t.size + 1) (by rw [hi.ht.size]; omega)
  simp only at this
  rw [this]
  exact List.Nodup.sublist (List.Sublist.map _ List.filter_sublist) hi.ht.nodup

theorem mem_allNodes {t : Tree Tbl} (hi : TreeInv e.cfg t) {m : Name} : m ∈ allNodes e t ↔ (tblOf e.cfg t m).isSome := by
  unfold allNodes
  have := Nt.fullEnumerate_spec hi.ht (fun _ _ => true) (t.size + 1) (by rw [hi.ht.size]; omega)
  simp only at this
  rw [this, Nt.tblOf_isSome, Option.isSome_iff_exists]
  simp only [Nt.find_iff hi.ht, List.mem_map, List.mem_filter, and_true]
  constructor
  · rintro ⟨n, h1, rfl⟩; exact ⟨n.entry, n, h1, rfl, rfl⟩
  · rintro ⟨x, n, h1, rfl, rfl⟩; exact ⟨n, h1, rfl⟩

theorem fwd_eraseAll (l : List Name) : ∀ {t t' : Tree Tbl}, TreeInv e.cfg t → eraseAll e.cfg l t = some t' →
    TreeInv e.cfg t' ∧ vw e t' = vw e t := by
  induction l with
  | nil => intro t t' hi h; cases h; exact ⟨hi, rfl⟩
  | cons n l ih =>
    intro t t' hi h
    rw [eraseAll, Option.bind_eq_some_iff] at h
    obtain ⟨r, h1, h2⟩ := h
    obtain ⟨i1, v1, -⟩ := fwd_erase hi h1
    obtain ⟨i2, v2⟩ := ih i1 h2
    exact ⟨i2, by rw [v2, v1]⟩

theorem cleanup_fwd (hi : TreeInv e.cfg s.nt) {f : FaceId} (h : cleanup e s f = some s') :
    ∃ t, TreeInv e.cfg t ∧ (∀ m, vw e t m = cleanTbl f (view e s m)) ∧
      s' = { s with nt := t, nFib := s.nFib -
        ((allNodes e s.nt).filter (fun n => (view e s n).fib.isSome && (cleanTbl f (view e s n)).fib.isNone)).length } ∧
      ∀ n x, t.find e.ch n = some x → x.isEmpty e.cfg = false := by
  unfold cleanup at h
  simp only [Option.bind_eq_bind, Option.bind_eq_some_iff] at h
  obtain ⟨t1, h1, t2, h2, h⟩ := h
  obtain ⟨i1, v1, d1⟩ := fwd_forEach _ hi (allNodes_nodup hi) h1
  obtain ⟨i2, v2⟩ := fwd_eraseAll _ i1 h2
  have hv1 : ∀ m, vw e t1 m = cleanTbl f (view e s m) := by
    intro m
    rw [v1, ← view_eq]
    split
    · rfl
    · rename_i hm
      rw [mem_allNodes hi] at hm
      have : view e s m = {} := by
        rw [view]; cases hx : tblOf e.cfg s.nt m with
        | none => rfl
        | some x => simp [hx] at hm
      rw [this]; rfl
  split at h
  · simp at h
  · rename_i hne
    simp only [Option.some.injEq] at h
    refine ⟨t2, i2, fun m => by rw [v2, hv1], ?_, ?_⟩
    · rw [← h]
      have : ∀ n, ((tblOf e.cfg t1 n).getD {}) = cleanTbl f (view e s n) := hv1
      simp only [this]
    · intro n x hx
      have hst : n ∈ allNodes e t2 := by rw [mem_allNodes i2, Nt.tblOf_isSome]; simp [hx]
      have := fun hh => hne (List.any_eq_true.2 ⟨n, hst, hh⟩)
      rw [hx] at this
      simpa using this

end Verif.Tb
