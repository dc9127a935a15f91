import Verif.Tables.Lpm

/-! Effective strategies across changes; StrategyInfo tags. -/
namespace Verif.Tb

open Nt (Tree Nte Cfg Options maxDepth tblOf TreeInv)

variable {e : Env} {s s' : Tables}

def HasSc (e : Env) (s : Tables) (m : Name) : Prop := (view e s m).sc.isSome = true

theorem scEffective_of (hi : TreeInv e.cfg s.nt) (hr : (view e s []).sc.isSome) {x m inst : Name}
    (hl : LongestPrefix (HasSc e s) x m) (hm : (view e s m).sc = some inst) : scEffective e s x = some inst := by
  obtain ⟨m', i', h1, h2, h3⟩ := scEffective_spec hi hr x
  have : m' = m := LongestPrefix.unique (A := HasSc e s) h3 hl
  subst this
  rw [h1, ← h2, hm]

theorem scEffective_congr (hi : TreeInv e.cfg s.nt) (hr : (view e s []).sc.isSome) (hi' : TreeInv e.cfg s'.nt)
    (h : ∀ m, (view e s' m).sc = (view e s m).sc) (x : Name) : scEffective e s' x = scEffective e s x := by
  obtain ⟨m, i, h1, h2, h3⟩ := scEffective_spec hi hr x
  rw [h1]
  refine scEffective_of hi' (by rw [h]; exact hr) (LongestPrefix.congr h3 (fun m => ?_)) (by rw [h]; exact h2)
  simp [HasSc, h]

theorem dropLast_of_prefix {y p : Name} (h : y <+: p) (hne : y ≠ p) : y <+: p.dropLast := by
  rcases List.eq_nil_or_concat p with rfl | ⟨p', a, rfl⟩
  · exact absurd (List.prefix_nil.1 h) hne
  · simp only [List.concat_eq_append] at h hne ⊢
    rw [List.dropLast_concat]
    rcases List.prefix_concat_iff.1 h with h | h
    · exact absurd h hne
    · exact h

/-- Changing the strategy at `p` changes the effective strategy exactly of the names it covers. -/
theorem eff_change {t : Tree Tbl} (hi : TreeInv e.cfg s.nt) (hr : (view e s []).sc.isSome) (hi' : TreeInv e.cfg s'.nt)
    (hr' : (view e s' []).sc.isSome) {p old new : Name} {sc : Option Name} (_ht : TreeInv e.cfg t)
    (hsc : ∀ m, (view e s' m).sc = if m = p then sc else (view e s m).sc)
    (hold : (view e s p).sc = some old ∨ ((view e s p).sc = none ∧ scEffective e s p = some old))
    (hnew : sc = some new ∨ (sc = none ∧ p ≠ [] ∧ scEffective e s p.dropLast = some new)) (x : Name) :
    (Covers (view e s) p x → scEffective e s x = some old ∧ scEffective e s' x = some new) ∧
    (¬ Covers (view e s) p x → scEffective e s' x = scEffective e s x) := by
  constructor
  · rintro ⟨hpx, hcov⟩
    have deep : ∀ y, y <+: x → HasSc e s y → y <+: p := by
      intro y hy hA
      by_cases hlen : y.length ≤ p.length
      · exact List.prefix_of_prefix_length_le hy hpx hlen
      · have hpy : p <+: y := List.prefix_of_prefix_length_le hpx hy (by omega)
        have := hcov y hpy hy (by rintro rfl; omega)
        simp [HasSc, this] at hA
    refine ⟨?_, ?_⟩
    · rcases hold with h1 | ⟨h1, h2⟩
      · refine scEffective_of hi hr ⟨hpx, by simp [HasSc, h1], fun y hy hA => (deep y hy hA).length_le⟩ h1
      · obtain ⟨m, i, g1, g2, g3⟩ := scEffective_spec hi hr p
        rw [h2] at g1
        cases g1
        exact scEffective_of hi hr ((LongestPrefix.mono (A := HasSc e s) hpx deep).1 g3) g2
    · rcases hnew with h1 | ⟨h1, hpn, h2⟩
      · refine scEffective_of hi' hr' ⟨hpx, by simp [HasSc, hsc, h1], ?_⟩ (by simp [hsc, h1])
        intro y hy hA
        by_cases hyp : y = p
        · subst hyp; exact Nat.le_refl _
        · exact (deep y hy (by simpa [HasSc, hsc, hyp] using hA)).length_le
      · obtain ⟨m, i, g1, g2, g3⟩ := scEffective_spec hi hr p.dropLast
        rw [h2] at g1
        cases g1
        have hmp : m ≠ p := by
          rintro rfl
          have := g3.1.length_le
          have : 0 < m.length := List.length_pos_iff.2 hpn
          simp at *
          omega
        refine scEffective_of hi' hr' ⟨g3.1.trans ((List.dropLast_prefix p).trans hpx), by simp [HasSc, hsc, hmp, g2], ?_⟩ (by simp [hsc, hmp, g2])
        intro y hy hA
        have hyp : y ≠ p := by
          rintro rfl
          simp [HasSc, hsc, h1] at hA
        have hA' : HasSc e s y := by simpa [HasSc, hsc, hyp] using hA
        exact g3.2.2 y (dropLast_of_prefix (deep y hy hA') hyp) hA'
  · intro hnc
    obtain ⟨m, i, g1, g2, g3⟩ := scEffective_spec hi hr x
    rw [g1]
    by_cases hpx : p <+: x
    · have : ∃ a, p <+: a ∧ a <+: x ∧ a ≠ p ∧ HasSc e s a := by
        apply Classical.byContradiction
        intro hn
        apply hnc
        refine ⟨hpx, fun a h1 h2 h3 => ?_⟩
        cases ha : (view e s a).sc with
        | none => rfl
        | some j => exact absurd ⟨a, h1, h2, h3, by simp [HasSc, ha]⟩ hn
      obtain ⟨a, h1, h2, h3, h4⟩ := this
      have hal : p.length < a.length := by
        rcases Nat.lt_or_ge p.length a.length with h | h
        · exact h
        · exact absurd (h1.eq_of_length (Nat.le_antisymm h1.length_le h)).symm h3
      have ham := g3.2.2 a h2 h4
      have hmp : m ≠ p := by rintro rfl; omega
      refine scEffective_of hi' hr' ⟨g3.1, by simp [HasSc, hsc, hmp, g2], ?_⟩ (by simp [hsc, hmp, g2])
      intro y hy hA
      by_cases hyp : y = p
      · subst hyp; omega
      · exact g3.2.2 y hy (by simpa [HasSc, hsc, hyp] using hA)
    · have hmp : m ≠ p := by rintro rfl; exact hpx g3.1
      refine scEffective_of hi' hr' ⟨g3.1, by simp [HasSc, hsc, hmp, g2], ?_⟩ (by simp [hsc, hmp, g2])
      intro y hy hA
      by_cases hyp : y = p
      · subst hyp; exact absurd hy hpx
      · exact g3.2.2 y hy (by simpa [HasSc, hsc, hyp] using hA)

/-- The strategy changes of `scInsert` and `scErase`, in one form. -/
inductive ScStep (e : Env) (s s' : Tables) : Prop
  | none : view e s' = view e s → ScStep e s s'
  | change (p old new : Name) (sc : Option Name) : ScChanged e (view e s) (view e s') p old new sc → p.length ≤ maxDepth →
      (∀ x, (Covers (view e s) p x → scEffective e s x = some old ∧ scEffective e s' x = some new) ∧
        (¬ Covers (view e s) p x → scEffective e s' x = scEffective e s x)) → ScStep e s s'

theorem scInsert_step (hi : Inv e s) {p st : Name} {r : ScResult} (h : scInsert e s p st = some (s', r)) :
    ScStep e s s' := by
  have hi' : Inv e s' := step_inv hi (.scInsert p st) (by simp [Op.run, h])
  rcases scInsert_fwd hi.tree h with ⟨-, -, rfl⟩ | ⟨-, -, -, rfl⟩ | ⟨-, -, -, rfl⟩ | ⟨inst, -, -, hlen, h2⟩
  · exact .none rfl
  · exact .none rfl
  · exact .none rfl
  · rcases h2 with ⟨t, -, rfl, h3, h4⟩ | ⟨cur, t, hcur, -, rfl, h3, h4⟩ | ⟨t, t1, old, hnone, hv1, ht1, heff, rfl, h3, h4⟩
    · exact .none h4
    · exact .change p cur inst (some inst) h4 hlen
        (eff_change hi.tree hi.root hi'.tree hi'.root h3 h4.sc_eq (.inl hcur) (.inl rfl))
    · have : scEffective e s p = some old := by
        rw [← heff]
        exact (scEffective_congr (s := s) (s' := { s with nt := t1 }) hi.tree hi.root ht1 (fun m => by rw [view_with, hv1]) p).symm
      exact .change p old inst (some inst) h4 hlen
        (eff_change hi.tree hi.root hi'.tree hi'.root h3 h4.sc_eq (.inr ⟨hnone, this⟩) (.inl rfl))

theorem scErase_step (hi : Inv e s) {p : Name} (h : scErase e s p = some s') : ScStep e s s' := by
  have hi' : Inv e s' := step_inv hi (.scErase p) h
  obtain ⟨hp, ⟨rfl, -⟩ | ⟨old, parent, t, hold, hpar, rfl, h3, h4⟩⟩ := scErase_fwd hi.tree h
  · exact .none rfl
  · exact .change p old parent none h4 (view_depth hi.tree (by intro hh; rw [hh] at hold; simp at hold))
      (eff_change hi.tree hi.root hi'.tree hi'.root h3 h4.sc_eq (.inl hold) (.inr ⟨rfl, hp, hpar⟩))

theorem effTyp_none (hi : Inv e s) (hi' : Inv e s') (h : view e s' = view e s) (x : Name) : effTyp e s' x = effTyp e s x := by
  unfold effTyp
  rw [scEffective_congr hi.tree hi.root hi'.tree (fun m => by rw [h]) x]

/-- A changed effective type, and what happens at a node. -/
theorem ScStep.node (hi : Inv e s) (hi' : Inv e s') (h : ScStep e s s') (n : Name) :
    (effTyp e s' n = effTyp e s n → (view e s' n).pit = (view e s n).pit ∧ (view e s' n).meas = (view e s n).meas) ∧
    (effTyp e s' n ≠ effTyp e s n → (view e s' n).pit = (view e s n).pit.map clearPitInfo ∧
      (view e s' n).meas = (view e s n).meas.map (fun m => { m with info := [] })) := by
  cases h with
  | none h =>
    refine ⟨fun _ => by rw [h]; exact ⟨rfl, rfl⟩, fun hne => absurd (effTyp_none hi hi' h n) hne⟩
  | change p old new sc h1 hp h2 =>
    obtain ⟨c1, c2⟩ := h2 n
    have hu : (upd (view e s) p (fun x => { x with sc := sc }) n).pit = (view e s n).pit ∧
        (upd (view e s) p (fun x => { x with sc := sc }) n).meas = (view e s n).meas := by
      by_cases hm : n = p
      · subst hm; rw [upd_same]; exact ⟨rfl, rfl⟩
      · rw [upd_ne _ _ hm]; exact ⟨rfl, rfl⟩
    by_cases hc : Covers (view e s) p n
    · obtain ⟨e1, e2⟩ := c1 hc
      have ht : effTyp e s' n = effTyp e s n ↔ areSameType e old new = true := by
        simp only [effTyp, e1, e2, Option.bind_some, areSameType, beq_iff_eq]
        exact ⟨Eq.symm, Eq.symm⟩
      constructor
      · intro heq
        rw [h1.1 (ht.1 heq)]; exact hu
      · intro hne
        have hf : areSameType e old new = false := by
          cases hb : areSameType e old new with
          | false => rfl
          | true => exact absurd (ht.2 hb) hne
        rw [(h1.2 hf n).1 hc]
        simp only [clearInfo]
        rw [hu.1, hu.2]
        exact ⟨rfl, rfl⟩
    · have ht : effTyp e s' n = effTyp e s n := by unfold effTyp; rw [c2 hc]
      refine ⟨fun _ => ?_, fun hne => absurd ht hne⟩
      cases hb : areSameType e old new with
      | true => rw [h1.1 hb]; exact hu
      | false => rw [(h1.2 hb n).2 hc]; exact hu

/-- A name whose effective strategy is that of its PIT node: no strategy is attached below the node on the way to the name. -/
def Plain (e : Env) (s : Tables) (x : Name) : Prop := hasDigest x = false ∨ (view e s x).sc = none

theorem plain_node (hi : Inv e s) {x : Name} (h : Plain e s x) : scEffective e s x = scEffective e s (pitNode x) := by
  obtain ⟨m, i, g1, g2, g3⟩ := scEffective_spec hi.tree hi.root x
  rw [g1]
  symm
  refine scEffective_of hi.tree hi.root ((LongestPrefix.mono (A := HasSc e s) (pitNode_prefix x) ?_).2 g3) g2
  intro y hy hA
  have hd : y.length ≤ maxDepth := view_depth hi.tree (by intro hh; unfold HasSc at hA; rw [hh] at hA; simp at hA)
  refine List.prefix_of_prefix_length_le hy (pitNode_prefix x) ?_
  rw [pitNode_length]
  unfold pitDepth
  cases hdig : hasDigest x with
  | false => simp only [Bool.toNat_false, Nat.sub_zero]; have := hy.length_le; omega
  | true =>
    rcases h with h | h
    · rw [h] at hdig; simp at hdig
    · have hne : y ≠ x := by rintro rfl; unfold HasSc at hA; rw [h] at hA; simp at hA
      have : y.length < x.length := by
        rcases Nat.lt_or_ge y.length x.length with h | h
        · exact h
        · exact absurd (hy.eq_of_length (Nat.le_antisymm hy.length_le h)) hne
      simp only [Bool.toNat_true]
      omega

theorem plain_typ (hi : Inv e s) {x : Name} (h : Plain e s x) : effTyp e s x = effTyp e s (pitNode x) := by
  unfold effTyp; rw [plain_node hi h]

/-! ### Operations that do not touch strategy choices -/

def Op.scOp : Op → Bool
  | .scInsert _ _ | .scErase _ => true
  | _ => false

theorem upd_sc {v : Name → Tbl} {n : Name} {f : Tbl → Tbl} (h : (f (v n)).sc = (v n).sc) (m : Name) : (upd v n f m).sc = (v m).sc := by
  by_cases hm : m = n
  · subst hm; rw [upd_same, h]
  · rw [upd_ne _ _ hm]

theorem measGot_sc {n : Name} (h : MeasGot e s s' n) : ∀ m, (view e s' m).sc = (view e s m).sc := by
  obtain ⟨t, k, rfl, h1, ⟨-, rfl, hv⟩ | ⟨-, rfl, hv⟩⟩ := h
  · exact fun m => by rw [view_with, hv]
  · exact fun m => by rw [view_with, hv]; exact upd_sc rfl m

theorem pitMod_sc (hi : TreeInv e.cfg s.nt) {i : Interest} {f : PitEntry → PitEntry} (h : pitMod e s i f = some s') :
    ∀ m, (view e s' m).sc = (view e s m).sc := by
  obtain ⟨p, t, h1, rfl, h2, h3⟩ := pitMod_fwd hi h
  exact fun m => by rw [view_with, h3]; exact upd_sc rfl m

theorem other_sc (hi : TreeInv e.cfg s.nt) (op : Op) (hop : op.scOp = false) (h : op.run e s = some s') : ∀ m, (view e s' m).sc = (view e s m).sc := by
  cases op with
  | scInsert | scErase => simp [Op.scOp] at hop
  | fibInsert p =>
    simp only [Op.run, Option.map_eq_some_iff] at h
    obtain ⟨⟨s1, b⟩, h1, rfl⟩ := h
    obtain ⟨t, rfl, h2, h3, -, -⟩ := fibInsert_fwd hi h1
    exact fun m => by rw [view_with, h3]; exact upd_sc rfl m
  | fibErase p =>
    rcases fibErase_fwd hi h with ⟨rfl, h1⟩ | ⟨t, rfl, h2, h3⟩
    · exact fun _ => rfl
    · exact fun m => by rw [view_with, h3]; exact upd_sc rfl m
  | fibSet p f c =>
    simp only [Op.run, Option.map_eq_some_iff] at h
    obtain ⟨⟨s1, o⟩, h1, rfl⟩ := h
    obtain ⟨l, t, hl, rfl, h2, h3, -⟩ := fibSet_fwd hi h1
    exact fun m => by rw [view_with, h3]; exact upd_sc rfl m
  | fibUnset p f =>
    simp only [Op.run, Option.map_eq_some_iff] at h
    obtain ⟨⟨s1, o⟩, h1, rfl⟩ := h
    obtain ⟨l, hl, h2⟩ := fibUnset_fwd hi h1
    rcases h2 with ⟨-, rfl, h5⟩ | ⟨-, h5, h6, t, rfl, h2, h3⟩ | ⟨-, h5, h6, t, rfl, h2, h3⟩
    · exact fun _ => rfl
    · exact fun m => by rw [view_with, h3]; exact upd_sc rfl m
    · exact fun m => by rw [view_with, h3]; exact upd_sc rfl m
  | cleanup f =>
    obtain ⟨t, h2, h3, rfl, -⟩ := cleanup_fwd hi h
    exact fun m => by rw [view_with, h3]; rfl
  | pitInsert i =>
    simp only [Op.run, Option.map_eq_some_iff] at h
    obtain ⟨⟨s1, p, b⟩, h1, rfl⟩ := h
    rcases pitInsert_fwd hi h1 with ⟨t, -, -, rfl, h2, h3⟩ | ⟨t, -, -, -, rfl, h2, h3⟩
    · exact fun m => by rw [view_with, h3]
    · exact fun m => by rw [view_with, h3]; exact upd_sc rfl m
  | pitErase i =>
    obtain ⟨j, t, hj, rfl, h2, h3⟩ := pitErase_fwd hi h
    exact fun m => by rw [view_with, h3]; exact upd_sc rfl m
  | pitIn | pitOut | pitDelIn | pitClearIn | pitDelOut | pitNack => exact pitMod_sc hi h
  | pitWrite i =>
    simp only [Op.run, pitWrite, Option.bind_eq_bind, Option.bind_eq_some_iff] at h
    obtain ⟨inst, -, ty, -, h⟩ := h
    exact pitMod_sc hi h
  | measGet n => exact measGot_sc (measGet_fwd hi h)
  | measGetFib p => exact measGot_sc (measGetFib_fwd hi h)
  | measGetPit i => exact measGot_sc (measGetPit_fwd hi h).2
  | measGetParent n =>
    rcases measGetParent_fwd hi h with ⟨-, rfl⟩ | ⟨-, hg⟩
    · exact fun _ => rfl
    · exact measGot_sc hg
  | measExtend n lt =>
    obtain ⟨m, hm, ⟨-, rfl⟩ | ⟨-, t, rfl, h2, h3⟩⟩ := measExtend_fwd hi h
    · exact fun _ => rfl
    · exact fun m => by rw [view_with, h3]; exact upd_sc rfl m
  | measCleanup n =>
    obtain ⟨m, hm, ⟨-, rfl⟩ | ⟨-, t, rfl, h2, h3⟩⟩ := measCleanup_fwd hi h
    · exact fun _ => rfl
    · exact fun m => by rw [view_with, h3]; exact upd_sc rfl m
  | measWrite n =>
    obtain ⟨m, inst, ty, t, hm, -, -, rfl, h2, h3⟩ := measWrite_fwd hi h
    exact fun m => by rw [view_with, h3]; exact upd_sc rfl m
  | tick dt =>
    simp only [Op.run, Option.some.injEq] at h
    subst h
    exact fun _ => rfl

theorem other_eff (hi : Inv e s) (op : Op) (hop : op.scOp = false) (h : op.run e s = some s') (x : Name) : effTyp e s' x = effTyp e s x := by
  unfold effTyp
  rw [scEffective_congr hi.tree hi.root (step_inv hi op h).tree (other_sc hi.tree op hop h) x]

/-! ### Tags -/

/-- A measurements entry's information was stored by the strategy type in charge of it. -/
def MeasTags (e : Env) (s : Tables) : Prop := ∀ n m, (view e s n).meas = some m → ∀ t ∈ m.info, effTyp e s n = some t

theorem measGot_tags {n : Name} (hg : MeasGot e s s' n) (he : ∀ x, effTyp e s' x = effTyp e s x) (ht : MeasTags e s) : MeasTags e s' := by
  intro x m hm t hmt
  rw [he]
  obtain ⟨tr, k, rfl, h1, ⟨-, rfl, hv⟩ | ⟨-, rfl, hv⟩⟩ := hg
  · rw [view_with, hv] at hm; exact ht x m hm t hmt
  · rw [view_with, hv] at hm
    by_cases hx : x = n
    · subst hx
      rw [upd_same] at hm
      simp only [Option.some.injEq] at hm
      subst hm
      simp at hmt
    · rw [upd_ne _ _ hx] at hm; exact ht x m hm t hmt

theorem tags_of_same (he : ∀ x, effTyp e s' x = effTyp e s x) (hm : ∀ n, (view e s' n).meas = (view e s n).meas) (ht : MeasTags e s) : MeasTags e s' := by
  intro x m h t hmt
  rw [he]
  exact ht x m (by rw [← hm]; exact h) t hmt

theorem upd_meas {v : Name → Tbl} {n : Name} {f : Tbl → Tbl} (h : (f (v n)).meas = (v n).meas) (m : Name) : (upd v n f m).meas = (v m).meas := by
  by_cases hm : m = n
  · subst hm; rw [upd_same, h]
  · rw [upd_ne _ _ hm]

theorem pitMod_meas (hi : TreeInv e.cfg s.nt) {i : Interest} {f : PitEntry → PitEntry} (h : pitMod e s i f = some s') :
    ∀ m, (view e s' m).meas = (view e s m).meas := by
  obtain ⟨p, t, h1, rfl, h2, h3⟩ := pitMod_fwd hi h
  exact fun m => by rw [view_with, h3]; exact upd_meas rfl m

/-- Operations that leave measurements entries alone. -/
def Op.measOp : Op → Bool
  | .scInsert _ _ | .scErase _ | .measGet _ | .measGetFib _ | .measGetPit _ | .measGetParent _ | .measExtend _ _ | .measCleanup _ | .measWrite _ => true
  | _ => false

theorem other_meas (hi : TreeInv e.cfg s.nt) (op : Op) (hop : op.measOp = false) (h : op.run e s = some s') : ∀ m, (view e s' m).meas = (view e s m).meas := by
  cases op with
  | scInsert | scErase | measGet | measGetFib | measGetPit | measGetParent | measExtend | measCleanup | measWrite => simp [Op.measOp] at hop
  | fibInsert p =>
    simp only [Op.run, Option.map_eq_some_iff] at h
    obtain ⟨⟨s1, b⟩, h1, rfl⟩ := h
    obtain ⟨t, rfl, h2, h3, -, -⟩ := fibInsert_fwd hi h1
    exact fun m => by rw [view_with, h3]; exact upd_meas rfl m
  | fibErase p =>
    rcases fibErase_fwd hi h with ⟨rfl, h1⟩ | ⟨t, rfl, h2, h3⟩
    · exact fun _ => rfl
    · exact fun m => by rw [view_with, h3]; exact upd_meas rfl m
  | fibSet p f c =>
    simp only [Op.run, Option.map_eq_some_iff] at h
    obtain ⟨⟨s1, o⟩, h1, rfl⟩ := h
    obtain ⟨l, t, hl, rfl, h2, h3, -⟩ := fibSet_fwd hi h1
    exact fun m => by rw [view_with, h3]; exact upd_meas rfl m
  | fibUnset p f =>
    simp only [Op.run, Option.map_eq_some_iff] at h
    obtain ⟨⟨s1, o⟩, h1, rfl⟩ := h
    obtain ⟨l, hl, h2⟩ := fibUnset_fwd hi h1
    rcases h2 with ⟨-, rfl, h5⟩ | ⟨-, h5, h6, t, rfl, h2, h3⟩ | ⟨-, h5, h6, t, rfl, h2, h3⟩
    · exact fun _ => rfl
    · exact fun m => by rw [view_with, h3]; exact upd_meas rfl m
    · exact fun m => by rw [view_with, h3]; exact upd_meas rfl m
  | cleanup f =>
    obtain ⟨t, h2, h3, rfl, -⟩ := cleanup_fwd hi h
    exact fun m => by rw [view_with, h3]; rfl
  | pitInsert i =>
    simp only [Op.run, Option.map_eq_some_iff] at h
    obtain ⟨⟨s1, p, b⟩, h1, rfl⟩ := h
    rcases pitInsert_fwd hi h1 with ⟨t, -, -, rfl, h2, h3⟩ | ⟨t, -, -, -, rfl, h2, h3⟩
    · exact fun m => by rw [view_with, h3]
    · exact fun m => by rw [view_with, h3]; exact upd_meas rfl m
  | pitErase i =>
    obtain ⟨j, t, hj, rfl, h2, h3⟩ := pitErase_fwd hi h
    exact fun m => by rw [view_with, h3]; exact upd_meas rfl m
  | pitIn | pitOut | pitDelIn | pitClearIn | pitDelOut | pitNack => exact pitMod_meas hi h
  | pitWrite i =>
    simp only [Op.run, pitWrite, Option.bind_eq_bind, Option.bind_eq_some_iff] at h
    obtain ⟨inst, -, ty, -, h⟩ := h
    exact pitMod_meas hi h
  | tick dt =>
    simp only [Op.run, Option.some.injEq] at h
    subst h
    exact fun _ => rfl

theorem scStep_tags (hi : Inv e s) (hi' : Inv e s') (h : ScStep e s s') (ht : MeasTags e s) : MeasTags e s' := by
  intro n m hm t hmt
  obtain ⟨a, b⟩ := h.node hi hi' n
  by_cases heq : effTyp e s' n = effTyp e s n
  · rw [heq]
    exact ht n m (by rw [← (a heq).2]; exact hm) t hmt
  · rw [(b heq).2, Option.map_eq_some_iff] at hm
    obtain ⟨m0, -, rfl⟩ := hm
    simp at hmt

theorem mem_addInfo {ty t : Nat} {i : Info} (h : t ∈ addInfo ty i) : t = ty ∨ t ∈ i := by
  unfold addInfo at h
  split at h
  · exact .inr h
  · simpa using h

theorem measTags_step (hi : Inv e s) (ht : MeasTags e s) (op : Op) (h : op.run e s = some s') : MeasTags e s' := by
  have hi' := step_inv hi op h
  cases hm : op.measOp with
  | false =>
    have : op.scOp = false := by cases op <;> first | rfl | simp [Op.measOp] at hm
    exact tags_of_same (other_eff hi op this h) (other_meas hi.tree op hm h) ht
  | true =>
    have he : op.scOp = false → ∀ x, effTyp e s' x = effTyp e s x := fun hs => other_eff hi op hs h
    cases op with
    | scInsert p st =>
      simp only [Op.run, Option.map_eq_some_iff] at h
      obtain ⟨⟨s1, r⟩, h1, rfl⟩ := h
      exact scStep_tags hi hi' (scInsert_step hi h1) ht
    | scErase p => exact scStep_tags hi hi' (scErase_step hi h) ht
    | measGet n => exact measGot_tags (measGet_fwd hi.tree h) (he rfl) ht
    | measGetFib p => exact measGot_tags (measGetFib_fwd hi.tree h) (he rfl) ht
    | measGetPit i => exact measGot_tags (measGetPit_fwd hi.tree h).2 (he rfl) ht
    | measGetParent n =>
      rcases measGetParent_fwd hi.tree h with ⟨-, rfl⟩ | ⟨-, hg⟩
      · exact ht
      · exact measGot_tags hg (he rfl) ht
    | measExtend n lt =>
      obtain ⟨m, hm, ⟨-, rfl⟩ | ⟨-, t, rfl, h2, h3⟩⟩ := measExtend_fwd hi.tree h
      · exact ht
      · intro x m' hm' tg htg
        rw [he rfl]
        rw [view_with, h3] at hm'
        by_cases hx : x = n
        · subst hx
          rw [upd_same] at hm'
          simp only [Option.some.injEq] at hm'
          subst hm'
          exact ht x m hm tg htg
        · rw [upd_ne _ _ hx] at hm'; exact ht x m' hm' tg htg
    | measCleanup n =>
      obtain ⟨m, hm, ⟨-, rfl⟩ | ⟨-, t, rfl, h2, h3⟩⟩ := measCleanup_fwd hi.tree h
      · exact ht
      · intro x m' hm' tg htg
        rw [he rfl]
        rw [view_with, h3] at hm'
        by_cases hx : x = n
        · subst hx
          rw [upd_same] at hm'
          simp at hm'
        · rw [upd_ne _ _ hx] at hm'; exact ht x m' hm' tg htg
    | measWrite n =>
      obtain ⟨m, inst, ty, t, hm, h4, h5, rfl, h2, h3⟩ := measWrite_fwd hi.tree h
      intro x m' hm' tg htg
      rw [he rfl]
      rw [view_with, h3] at hm'
      by_cases hx : x = n
      · subst hx
        rw [upd_same] at hm'
        simp only [Option.some.injEq] at hm'
        subst hm'
        rcases mem_addInfo htg with rfl | htg
        · unfold effTyp
          rw [← scEffectiveMeas_eq hi.tree (by simp [hm]), h4]
          exact h5
        · exact ht x m hm tg htg
      · rw [upd_ne _ _ hx] at hm'; exact ht x m' hm' tg htg
    | _ => simp [Op.measOp] at hm

/-- A PIT entry's information was stored by the strategy type in charge of it. -/
def PitTags (e : Env) (s : Tables) (Q : Name → Prop) : Prop := ∀ n p, p ∈ (view e s n).pit → Q p.interest.name → ∀ t ∈ p.allInfo, effTyp e s p.interest.name = some t

theorem pitTags_same {Q : Name → Prop} (he : ∀ x, effTyp e s' x = effTyp e s x) (hm : ∀ n p, p ∈ (view e s' n).pit → p ∈ (view e s n).pit)
    (ht : PitTags e s Q) : PitTags e s' Q := by
  intro n p hp hq t htg
  rw [he]
  exact ht n p (hm n p hp) hq t htg

theorem pitTags_mod {Q : Name → Prop} (hi : Inv e s) (ht : PitTags e s Q) {i : Interest} {f : PitEntry → PitEntry} (h : pitMod e s i f = some s')
    (hk : ∀ p, (f p).interest = p.interest) (hf : ∀ p, ∀ t ∈ (f p).allInfo, t ∈ p.allInfo ∨ effTyp e s i.name = some t)
    (he : ∀ x, effTyp e s' x = effTyp e s x) : PitTags e s' Q := by
  obtain ⟨p, tr, h1, rfl, h2, h3⟩ := pitMod_fwd hi.tree h
  intro n q hq hQ t htg
  rw [he]
  rw [view_with, h3] at hq
  by_cases hn : n = pitNode i.name
  · subst hn
    rw [upd_same] at hq
    obtain ⟨q', hq', rfl⟩ := List.mem_map.1 hq
    by_cases hs : sameKey i q' = true
    · rw [if_pos hs] at hQ htg ⊢
      rw [hk] at hQ ⊢
      rcases hf q' t htg with h | h
      · exact ht _ q' hq' hQ t h
      · have : q'.interest.toInterest = i := by simpa [sameKey] using hs
        rw [show q'.interest.name = i.name from congrArg Interest.name this]
        exact h
    · rw [if_neg hs] at hQ htg ⊢
      exact ht _ q' hq' hQ t htg
  · rw [upd_ne _ _ hn] at hq; exact ht n q hq hQ t htg

theorem mem_allInfo {p : PitEntry} {t : Nat} : t ∈ p.allInfo ↔ t ∈ p.info ∨ (∃ r ∈ p.ins, t ∈ r.info) ∨ (∃ r ∈ p.outs, t ∈ r.info) := by
  simp [PitEntry.allInfo, List.mem_flatMap]

/-- Operations that leave PIT entries alone. -/
def Op.pitOp : Op → Bool
  | .pitInsert _ | .pitErase _ | .pitIn _ _ _ _ | .pitOut _ _ _ _ | .pitDelIn _ _ | .pitClearIn _ | .pitDelOut _ _ | .pitNack _ _ _ _ | .pitWrite _
  | .scInsert _ _ | .scErase _ | .cleanup _ => true
  | _ => false

theorem upd_pit {v : Name → Tbl} {n : Name} {f : Tbl → Tbl} (h : (f (v n)).pit = (v n).pit) (m : Name) : (upd v n f m).pit = (v m).pit := by
  by_cases hm : m = n
  · subst hm; rw [upd_same, h]
  · rw [upd_ne _ _ hm]

theorem measGot_pit {n : Name} (h : MeasGot e s s' n) : ∀ m, (view e s' m).pit = (view e s m).pit := by
  obtain ⟨t, k, rfl, h1, ⟨-, rfl, hv⟩ | ⟨-, rfl, hv⟩⟩ := h
  · exact fun m => by rw [view_with, hv]
  · exact fun m => by rw [view_with, hv]; exact upd_pit rfl m

theorem other_pit (hi : TreeInv e.cfg s.nt) (op : Op) (hop : op.pitOp = false) (h : op.run e s = some s') : ∀ m, (view e s' m).pit = (view e s m).pit := by
  cases op with
  | pitInsert | pitErase | pitIn | pitOut | pitDelIn | pitClearIn | pitDelOut | pitNack | pitWrite | scInsert | scErase | cleanup => simp [Op.pitOp] at hop
  | fibInsert p =>
    simp only [Op.run, Option.map_eq_some_iff] at h
    obtain ⟨⟨s1, b⟩, h1, rfl⟩ := h
    obtain ⟨t, rfl, h2, h3, -, -⟩ := fibInsert_fwd hi h1
    exact fun m => by rw [view_with, h3]; exact upd_pit rfl m
  | fibErase p =>
    rcases fibErase_fwd hi h with ⟨rfl, h1⟩ | ⟨t, rfl, h2, h3⟩
    · exact fun _ => rfl
    · exact fun m => by rw [view_with, h3]; exact upd_pit rfl m
  | fibSet p f c =>
    simp only [Op.run, Option.map_eq_some_iff] at h
    obtain ⟨⟨s1, o⟩, h1, rfl⟩ := h
    obtain ⟨l, t, hl, rfl, h2, h3, -⟩ := fibSet_fwd hi h1
    exact fun m => by rw [view_with, h3]; exact upd_pit rfl m
  | fibUnset p f =>
    simp only [Op.run, Option.map_eq_some_iff] at h
    obtain ⟨⟨s1, o⟩, h1, rfl⟩ := h
    obtain ⟨l, hl, h2⟩ := fibUnset_fwd hi h1
    rcases h2 with ⟨-, rfl, h5⟩ | ⟨-, h5, h6, t, rfl, h2, h3⟩ | ⟨-, h5, h6, t, rfl, h2, h3⟩
    · exact fun _ => rfl
    · exact fun m => by rw [view_with, h3]; exact upd_pit rfl m
    · exact fun m => by rw [view_with, h3]; exact upd_pit rfl m
  | measGet n => exact measGot_pit (measGet_fwd hi h)
  | measGetFib p => exact measGot_pit (measGetFib_fwd hi h)
  | measGetPit i => exact measGot_pit (measGetPit_fwd hi h).2
  | measGetParent n =>
    rcases measGetParent_fwd hi h with ⟨-, rfl⟩ | ⟨-, hg⟩
    · exact fun _ => rfl
    · exact measGot_pit hg
  | measExtend n lt =>
    obtain ⟨m, hm, ⟨-, rfl⟩ | ⟨-, t, rfl, h2, h3⟩⟩ := measExtend_fwd hi h
    · exact fun _ => rfl
    · exact fun m => by rw [view_with, h3]; exact upd_pit rfl m
  | measCleanup n =>
    obtain ⟨m, hm, ⟨-, rfl⟩ | ⟨-, t, rfl, h2, h3⟩⟩ := measCleanup_fwd hi h
    · exact fun _ => rfl
    · exact fun m => by rw [view_with, h3]; exact upd_pit rfl m
  | measWrite n =>
    obtain ⟨m, inst, ty, t, hm, -, -, rfl, h2, h3⟩ := measWrite_fwd hi h
    exact fun m => by rw [view_with, h3]; exact upd_pit rfl m
  | tick dt =>
    simp only [Op.run, Option.some.injEq] at h
    subst h
    exact fun _ => rfl

theorem scStep_pitTags {Q : Name → Prop} (hi : Inv e s) (hi' : Inv e s') (h : ScStep e s s') (hQ : ∀ x, Q x → Plain e s x ∧ Plain e s' x)
    (ht : PitTags e s Q) : PitTags e s' Q := by
  intro n p hp hq t htg
  have hpl := (hi'.node n).place p hp
  obtain ⟨q1, q2⟩ := hQ _ hq
  obtain ⟨a, b⟩ := h.node hi hi' n
  by_cases heq : effTyp e s' n = effTyp e s n
  · rw [plain_typ hi' q2, hpl, heq, ← hpl, ← plain_typ hi q1]
    exact ht n p (by rw [← (a heq).1]; exact hp) hq t htg
  · rw [(b heq).1] at hp
    obtain ⟨p0, -, rfl⟩ := List.mem_map.1 hp
    rw [mem_allInfo] at htg
    rcases htg with h | ⟨r, hr, h⟩ | ⟨r, hr, h⟩
    · simp [clearPitInfo] at h
    · obtain ⟨r', -, rfl⟩ := List.mem_map.1 hr
      simp at h
    · obtain ⟨r', -, rfl⟩ := List.mem_map.1 hr
      simp at h

theorem pitTags_step {Q : Name → Prop} (hi : Inv e s) (ht : PitTags e s Q) (op : Op) (h : op.run e s = some s')
    (hQ : ∀ x, Q x → Plain e s x ∧ Plain e s' x) : PitTags e s' Q := by
  have hi' := step_inv hi op h
  cases hm : op.pitOp with
  | false =>
    have hs : op.scOp = false := by cases op <;> first | rfl | simp [Op.pitOp] at hm
    exact pitTags_same (other_eff hi op hs h) (fun n p hp => by rw [← other_pit hi.tree op hm h]; exact hp) ht
  | true =>
    have he : op.scOp = false → ∀ x, effTyp e s' x = effTyp e s x := fun hs => other_eff hi op hs h
    cases op with
    | scInsert p st =>
      simp only [Op.run, Option.map_eq_some_iff] at h
      obtain ⟨⟨s1, r⟩, h1, rfl⟩ := h
      exact scStep_pitTags hi hi' (scInsert_step hi h1) hQ ht
    | scErase p => exact scStep_pitTags hi hi' (scErase_step hi h) hQ ht
    | pitInsert i =>
      simp only [Op.run, Option.map_eq_some_iff] at h
      obtain ⟨⟨s1, p, b⟩, h1, rfl⟩ := h
      intro n q hq hQ' t htg
      rw [he rfl]
      rcases pitInsert_fwd hi.tree h1 with ⟨tr, -, -, rfl, h2, h3⟩ | ⟨tr, -, -, -, rfl, h2, h3⟩
      · rw [view_with, h3] at hq; exact ht n q hq hQ' t htg
      · rw [view_with, h3] at hq
        by_cases hn : n = pitNode i.name
        · subst hn
          rw [upd_same] at hq
          rcases List.mem_append.1 hq with hq | hq
          · exact ht _ q hq hQ' t htg
          · simp only [List.mem_singleton] at hq
            subst hq
            simp [PitEntry.allInfo] at htg
        · rw [upd_ne _ _ hn] at hq; exact ht n q hq hQ' t htg
    | pitErase i =>
      obtain ⟨j, tr, hj, rfl, h2, h3⟩ := pitErase_fwd hi.tree h
      obtain ⟨p', -, hpi, hpm, hlt, hmem⟩ := keys_eraseIdx (hi.node _).keys hj
      refine pitTags_same (he rfl) (fun n q hq => ?_) ht
      rw [view_with, h3] at hq
      by_cases hn : n = pitNode i.name
      · subst hn
        rw [upd_same] at hq
        exact ((hmem q).1 ((swapErase_perm hlt).mem_iff.1 hq)).1
      · rwa [upd_ne _ _ hn] at hq
    | pitIn i f nn lt =>
      refine pitTags_mod hi ht h (by intro _; rfl) ?_ (he rfl)
      intro p t htg
      left
      rw [mem_allInfo] at htg ⊢
      rcases htg with h | ⟨r, hr, h⟩ | h
      · exact .inl h
      · right; left
        unfold insertOrUpdateIn at hr
        obtain ⟨r', hr', rfl⟩ := List.mem_map.1 hr
        have : t ∈ r'.info := by split at h <;> exact h
        split at hr'
        · exact ⟨r', hr', this⟩
        · rcases List.mem_cons.1 hr' with rfl | hr'
          · simp at this
          · exact ⟨r', hr', this⟩
      · exact .inr (.inr h)
    | pitOut i f nn lt =>
      refine pitTags_mod hi ht h (by intro _; rfl) ?_ (he rfl)
      intro p t htg
      left
      rw [mem_allInfo] at htg ⊢
      rcases htg with h | h | ⟨r, hr, h⟩
      · exact .inl h
      · exact .inr (.inl h)
      · right; right
        unfold insertOrUpdateOut at hr
        obtain ⟨r', hr', rfl⟩ := List.mem_map.1 hr
        have : t ∈ r'.info := by split at h <;> exact h
        split at hr'
        · exact ⟨r', hr', this⟩
        · rcases List.mem_cons.1 hr' with rfl | hr'
          · simp at this
          · exact ⟨r', hr', this⟩
    | pitDelIn i f =>
      refine pitTags_mod hi ht h (by intro _; rfl) ?_ (he rfl)
      intro p t htg
      left
      rw [mem_allInfo] at htg ⊢
      rcases htg with h | ⟨r, hr, h⟩ | h
      · exact .inl h
      · exact .inr (.inl ⟨r, List.eraseP_sublist.subset hr, h⟩)
      · exact .inr (.inr h)
    | pitClearIn i =>
      refine pitTags_mod hi ht h (by intro _; rfl) ?_ (he rfl)
      intro p t htg
      left
      rw [mem_allInfo] at htg ⊢
      rcases htg with h | ⟨r, hr, h⟩ | h
      · exact .inl h
      · simp [clearIns] at hr
      · exact .inr (.inr h)
    | pitDelOut i f =>
      refine pitTags_mod hi ht h (by intro _; rfl) ?_ (he rfl)
      intro p t htg
      left
      rw [mem_allInfo] at htg ⊢
      rcases htg with h | h | ⟨r, hr, h⟩
      · exact .inl h
      · exact .inr (.inl h)
      · exact .inr (.inr ⟨r, List.eraseP_sublist.subset hr, h⟩)
    | pitNack i f nn rs =>
      refine pitTags_mod hi ht h (by intro _; rfl) ?_ (he rfl)
      intro p t htg
      left
      rw [mem_allInfo] at htg ⊢
      rcases htg with h | h | ⟨r, hr, h⟩
      · exact .inl h
      · exact .inr (.inl h)
      · unfold setNack at hr
        obtain ⟨r', hr', rfl⟩ := List.mem_map.1 hr
        exact .inr (.inr ⟨r', hr', by split at h <;> exact h⟩)
    | pitWrite i =>
      simp only [Op.run, pitWrite, Option.bind_eq_bind, Option.bind_eq_some_iff] at h
      obtain ⟨inst, h4, ty, h5, h⟩ := h
      have hty : effTyp e s i.name = some ty := by
        obtain ⟨q, _, h6, -⟩ := pitMod_fwd hi.tree h
        have : (view e s (pitNode i.name)).pit ≠ [] := by intro hh; rw [hh] at h6; simp at h6
        unfold effTyp
        rw [← scEffectivePit_eq hi.tree this, h4]
        exact h5
      refine pitTags_mod hi ht h (by intro _; rfl) ?_ (he rfl)
      intro p t htg
      rw [mem_allInfo] at htg
      rw [mem_allInfo]
      rcases htg with h | ⟨r, hr, h⟩ | ⟨r, hr, h⟩
      · rcases mem_addInfo h with rfl | h
        · exact .inr hty
        · exact .inl (.inl h)
      · obtain ⟨r', hr', rfl⟩ := List.mem_map.1 hr
        rcases mem_addInfo h with rfl | h
        · exact .inr hty
        · exact .inl (.inr (.inl ⟨r', hr', h⟩))
      · obtain ⟨r', hr', rfl⟩ := List.mem_map.1 hr
        rcases mem_addInfo h with rfl | h
        · exact .inr hty
        · exact .inl (.inr (.inr ⟨r', hr', h⟩))
    | cleanup f =>
      obtain ⟨tr, h2, h3, rfl, -⟩ := cleanup_fwd hi.tree h
      intro n q hq hQ' t htg
      rw [he rfl]
      rw [view_with, h3] at hq
      obtain ⟨p, hp, rfl⟩ := List.mem_map.1 hq
      refine ht n p hp hQ' t ?_
      rw [mem_allInfo] at htg ⊢
      rcases htg with h | ⟨r, hr, h⟩ | ⟨r, hr, h⟩
      · exact .inl h
      · exact .inr (.inl ⟨r, List.eraseP_sublist.subset hr, h⟩)
      · exact .inr (.inr ⟨r, List.eraseP_sublist.subset hr, h⟩)
    | _ => simp [Op.pitOp] at hm

end Verif.Tb
