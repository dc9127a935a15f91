import Verif.Tables.AccessSpec
import Verif.Tables.AccessorProps

/-! # C132: what the access strategy learns from Data

Data tells the access strategy which next hop works for its prefix. It goes through for every Data if no other strategy is set between the name of the Interest and that of the Data
(`C132_partial`), and fails an assertion otherwise (`C132_crash`). -/
namespace Verif.Tb

variable {e : Env} {d : Name} {s s' : Tables}

/-! ### Where it is kept -/

theorem add_spec (h : Reachable e d s) (q name : Name) :
    (∃ m s1, (name ≠ [] ∧ InCharge e s q name.dropLast ∧ m = name.dropLast.take 32 ∨
        (name = [] ∨ ¬ InCharge e s q name.dropLast) ∧ InCharge e s q name ∧ m = name.take 32) ∧
      Reachable e d s1 ∧ Grown e s s1 ∧ (measAt e s1 m).isSome ∧ addPrefixMeasurements e q name s = (useEntry e s1 accessLifetime m).map (fun s => (s, m))) ∨
    ((name = [] ∨ ¬ InCharge e s q name.dropLast) ∧ ¬ InCharge e s q name ∧ addPrefixMeasurements e q name s = none) := by
  have second : ∀ {s1 : Tables}, Reachable e d s1 → Grown e s s1 →
      (∃ m s2, InCharge e s q name ∧ m = name.take 32 ∧ Reachable e d s2 ∧ Grown e s s2 ∧ (measAt e s2 m).isSome ∧
        (accGet e s1 q name).bind (fun r => r.2.bind (fun m => (useEntry e r.1 accessLifetime m).map (fun s => (s, m)))) =
          (useEntry e s2 accessLifetime m).map (fun s => (s, m))) ∨
      (¬ InCharge e s q name ∧
        (accGet e s1 q name).bind (fun r => r.2.bind (fun m => (useEntry e r.1 accessLifetime m).map (fun s => (s, m)))) = none) := by
    intro s1 hr1 hg1
    obtain ⟨s2, r, a1, a2, a3, a4⟩ := accGet_spec hr1 q name
    have hc : InCharge e s1 q name ↔ InCharge e s q name := inCharge_congr hg1.1
    rw [a1, Option.bind_some]
    by_cases hi : InCharge e s q name
    · have := (a2 (name.take 32)).2 ⟨hc.2 hi, rfl⟩
      subst this
      exact .inl ⟨_, s2, hi, rfl, a4, hg1.trans (grown_got a3), (measGot_meas a3).1, rfl⟩
    · have : r = none := by
        cases hr : r with
        | none => rfl
        | some m => exact absurd (hc.1 ((a2 m).1 hr).1) hi
      subst this
      exact .inr ⟨hi, rfl⟩
  unfold addPrefixMeasurements
  by_cases hn : name = []
  · rw [if_pos hn, Option.bind_some]
    rcases second h Grown.refl with ⟨m, s2, b1, b2, b3, b4, b5, b6⟩ | ⟨b1, b2⟩
    · exact .inl ⟨m, s2, .inr ⟨.inl hn, b1, b2⟩, b3, b4, b5, b6⟩
    · exact .inr ⟨.inl hn, b1, b2⟩
  · rw [if_neg hn]
    obtain ⟨s1, r, a1, a2, a3, a4⟩ := accGet_spec h q name.dropLast
    rw [a1, Option.bind_some]
    by_cases hi : InCharge e s q name.dropLast
    · have := (a2 (name.dropLast.take 32)).2 ⟨hi, rfl⟩
      subst this
      exact .inl ⟨_, s1, .inl ⟨hn, hi, rfl⟩, a4, grown_got a3, (measGot_meas a3).1, rfl⟩
    · have : r = none := by
        cases hr : r with
        | none => rfl
        | some m => exact absurd ((a2 m).1 hr).1 hi
      subst this
      rcases second a4 (grown_got a3) with ⟨m, s2, b1, b2, b3, b4, b5, b6⟩ | ⟨b1, b2⟩
      · exact .inl ⟨m, s2, .inr ⟨.inr hi, b1, b2⟩, b3, b4, b5, b6⟩
      · exact .inr ⟨.inr hi, b1, b2⟩

/-- **C132.** For Data whose name the strategy is in charge of, the information is kept at the name without its last component (and at most 32 components), or at the name itself if the
strategy is set for just this name. -/
theorem C132_where (hk : RegistryOk e) (h : Reachable e d s) (q name : Name) (hc : InCharge e s q name) :
    ∃ s', addPrefixMeasurements e q name s = some (s', if q.length < name.length then name.dropLast.take 32 else name) := by
  have hl := hc.1.length_le
  rcases add_spec h q name with ⟨m, s1, hm, hr, -, hx, ha⟩ | ⟨-, hn, -⟩
  · obtain ⟨_, s2, -, -, h4, -⟩ := useEntry_spec hk hr accessLifetime hx
    rw [ha, h4]
    refine ⟨s2, ?_⟩
    have : m = if q.length < name.length then name.dropLast.take 32 else name := by
      rcases hm with ⟨h1, h2, rfl⟩ | ⟨h1, h2, rfl⟩
      · have := h2.1.length_le
        rw [List.length_dropLast] at this
        have : 0 < name.length := List.length_pos_iff.mpr h1
        rw [if_pos (by omega)]
      · have hle : ¬ q.length < name.length := by
          intro hlt
          rcases h1 with rfl | h1
          · simp at hlt
          · refine h1 (inCharge_prefix hc (List.dropLast_prefix _) ?_)
            exact List.prefix_of_prefix_length_le hc.1 (List.dropLast_prefix _) (by rw [List.length_dropLast]; omega)
        rw [if_neg hle]
        have : q = name := hc.1.eq_of_length_le (by omega)
        rw [List.take_of_length_le (this ▸ sc_depth h hc.2.1)]
    rw [this]; rfl
  · exact absurd hc hn

/-- **C132.** The strategy gets over a Data exactly if it is in charge of its name or of the name without the last component. -/
theorem C132_exact (hk : RegistryOk e) (h : Reachable e d s) (q name : Name) :
    (addPrefixMeasurements e q name s).isSome ↔ InCharge e s q name ∨ name ≠ [] ∧ InCharge e s q name.dropLast := by
  rcases add_spec h q name with ⟨m, s1, hm, hr, -, hx, ha⟩ | ⟨h1, h2, h3⟩
  · obtain ⟨_, s2, -, -, h4, -⟩ := useEntry_spec hk hr accessLifetime hx
    rw [ha, h4]
    refine ⟨fun _ => ?_, fun _ => rfl⟩
    rcases hm with ⟨a, b, -⟩ | ⟨-, b, -⟩
    · exact .inr ⟨a, b⟩
    · exact .inl b
  · rw [h3]
    refine ⟨fun hh => (by cases hh), fun hh => ?_⟩
    rcases hh with hh | ⟨hn, hh⟩
    · exact absurd hh h2
    · rcases h1 with h1 | h1
      · exact absurd h1 hn
      · exact absurd hh h1

/-- **C132, partial.** The strategy in charge of an Interest gets over every Data for it, if no strategy is set for a name that is longer than the Interest's and a prefix of the
Data's. Missing: Data for which this is not so (`C132_crash`), and Interests that end with the digest of the Data, if a strategy is set for this full name. -/
theorem C132_partial (hk : RegistryOk e) (h : Reachable e d s) (q interest name : Name) (hc : InCharge e s q interest) (hp : interest <+: name)
    (hno : ∀ x, x <+: name → (scAt e s x).isSome → x.length ≤ interest.length) : (addPrefixMeasurements e q name s).isSome := by
  refine (C132_exact hk h q name).2 (.inl ⟨hc.1.trans hp, hc.2.1, fun x hx hA => ?_⟩)
  exact hc.2.2 x (List.prefix_of_prefix_length_le hx hp (hno x hx hA)) hA

/-- **The code breaks the property that no Data stops the forwarder.** The access strategy (here `st2`) is set for /1, another one for /1/2. An Interest for /1 that can be satisfied by
longer names is in the hands of the access strategy, and so is the Data /1/2/3 that satisfies it: there is no measurements entry to be had. -/
theorem C132_crash : ∃ s, exRun [.scInsert [gc 1] st2, .scInsert [gc 1, gc 2] st1, .fibInsert [gc 1], .fibSet [gc 1] 7 1,
      .pitInsert { name := [gc 1], canBePrefix := true }] = some s ∧
    InCharge exEnv s [gc 1] [gc 1] ∧ [gc 1] <+: [gc 1, gc 2, gc 3] ∧ addPrefixMeasurements exEnv [gc 1] [gc 1, gc 2, gc 3] s = none := by
  have hrun : (exRun [.scInsert [gc 1] st2, .scInsert [gc 1, gc 2] st1, .fibInsert [gc 1], .fibSet [gc 1] 7 1,
      .pitInsert { name := [gc 1], canBePrefix := true }]).isSome := by decide +kernel
  obtain ⟨s, hs⟩ := Option.isSome_iff_exists.1 hrun
  have hf : (exRun [.scInsert [gc 1] st2, .scInsert [gc 1, gc 2] st1, .fibInsert [gc 1], .fibSet [gc 1] 7 1,
      .pitInsert { name := [gc 1], canBePrefix := true }]).all (fun s => (scAt exEnv s [gc 1]).isSome && (scAt exEnv s [gc 1, gc 2]).isSome) = true := by decide +kernel
  rw [hs] at hf
  simp only [Option.all_some, Bool.and_eq_true] at hf
  refine ⟨s, hs, ⟨List.prefix_refl _, hf.1, fun x hx _ => hx.length_le⟩, ⟨[gc 2, gc 3], rfl⟩, ?_⟩
  have := C132_exact exRegistry (exRun_reachable hs) [gc 1] [gc 1, gc 2, gc 3]
  cases hg : addPrefixMeasurements exEnv [gc 1] [gc 1, gc 2, gc 3] s with
  | none => rfl
  | some r =>
    rw [hg] at this
    rcases this.1 rfl with hh | ⟨-, hh⟩
    · exact absurd (hh.2.2 [gc 1, gc 2] ⟨[gc 3], rfl⟩ hf.2) (by decide)
    · exact absurd (hh.2.2 [gc 1, gc 2] ⟨[], rfl⟩ hf.2) (by decide)

/-! ### Where it is found again -/

theorem info_step (hi : Inv e s) (op : Op) (hop : (∀ p st, op ≠ .scInsert p st) ∧ ∀ p, op ≠ .scErase p) (h : op.run e s = some s') (n : Name) (m : MeasEntry)
    (hm : measAt e s n = some m) :
    (∃ m', measAt e s' n = some m' ∧ m.expiry ≤ m'.expiry ∧ ∀ t ∈ m.info, t ∈ m'.info) ∨ (op = .measCleanup n ∧ m.expiry ≤ s.now ∧ measAt e s' n = none) := by
  unfold measAt at hm ⊢
  have same : (∃ m', some m = some m' ∧ m.expiry ≤ m'.expiry ∧ ∀ t ∈ m.info, t ∈ m'.info) := ⟨m, rfl, Nat.le_refl _, fun _ h => h⟩
  cases ho : op.measOp with
  | false => left; rw [other_meas hi.tree op ho h, hm]; exact same
  | true =>
    cases op with
    | scInsert p st => exact absurd rfl (hop.1 p st)
    | scErase p => exact absurd rfl (hop.2 p)
    | measGet x => left; rw [measGot_keep (measGet_fwd hi.tree h) hm]; exact same
    | measGetFib p => left; rw [measGot_keep (measGetFib_fwd hi.tree h) hm]; exact same
    | measGetPit i => left; rw [measGot_keep (measGetPit_fwd hi.tree h).2 hm]; exact same
    | measGetParent x =>
      left
      rcases measGetParent_fwd hi.tree h with ⟨-, rfl⟩ | ⟨-, hg⟩
      · rw [hm]; exact same
      · rw [measGot_keep hg hm]; exact same
    | measExtend x lt =>
      left
      obtain ⟨m0, hm0, ⟨-, rfl⟩ | ⟨hlt, t, rfl, h2, h3⟩⟩ := measExtend_fwd hi.tree h
      · rw [hm]; exact same
      · rw [view_with, h3]
        by_cases hx : n = x
        · subst hx
          rw [hm] at hm0; cases hm0
          rw [upd_same]
          exact ⟨_, rfl, Nat.le_of_lt hlt, fun _ h => h⟩
        · rw [upd_ne _ _ hx, hm]; exact same
    | measCleanup x =>
      obtain ⟨m0, hm0, ⟨-, rfl⟩ | ⟨hle, t, rfl, h2, h3⟩⟩ := measCleanup_fwd hi.tree h
      · left; rw [hm]; exact same
      · rw [view_with, h3]
        by_cases hx : n = x
        · subst hx
          rw [hm] at hm0; cases hm0
          rw [upd_same]
          right
          exact ⟨rfl, by rw [← (hi.node n).meas m hm]; exact hle, rfl⟩
        · left; rw [upd_ne _ _ hx, hm]; exact same
    | measWrite x =>
      left
      obtain ⟨m0, inst, ty, t, hm0, -, -, rfl, h2, h3⟩ := measWrite_fwd hi.tree h
      rw [view_with, h3]
      by_cases hx : n = x
      · subst hx
        rw [hm] at hm0; cases hm0
        rw [upd_same]
        refine ⟨_, rfl, Nat.le_refl _, fun t ht => ?_⟩
        unfold addInfo
        dsimp only
        split
        · exact ht
        · exact List.mem_cons_of_mem _ ht
      · rw [upd_ne _ _ hx, hm]; exact same
    | _ => simp [Op.measOp] at ho

theorem run_now (ops : List Op) : ∀ {s s' : Tables}, Inv e s → run e s ops = some s' → s.now ≤ s'.now := by
  induction ops with
  | nil => intro s s' _ h; cases h; exact Nat.le_refl _
  | cons op ops ih =>
    intro s s' hi h
    rw [run, Option.bind_eq_some_iff] at h
    obtain ⟨s1, h1, h2⟩ := h
    exact Nat.le_trans (now_mono hi.tree op h1) (ih (step_inv hi op h1) h2)

theorem info_survives (ops : List Op) : ∀ {s : Tables}, Reachable e d s → NoStrategyChange ops → ∀ {n : Name} {m : MeasEntry} {T : Time} {t : Nat}, measAt e s n = some m →
    T ≤ m.expiry → t ∈ m.info → run e s ops = some s' → s'.now < T →
    (∃ m', measAt e s' n = some m' ∧ t ∈ m'.info) ∧ (∀ x, scAt e s' x = scAt e s x) ∧ Reachable e d s' := by
  induction ops with
  | nil => intro s hr _ n m T t hm _ ht h _; cases h; exact ⟨⟨m, hm, ht⟩, fun _ => rfl, hr⟩
  | cons op ops ih =>
    intro s hr hns n m T t hm hT ht h hlt
    rw [run, Option.bind_eq_some_iff] at h
    obtain ⟨s1, h1, h2⟩ := h
    have hi := hr.inv
    have ho := hns op List.mem_cons_self
    rcases info_step hi op ho h1 n m hm with ⟨m', hm', hle, hin⟩ | ⟨rfl, hle, -⟩
    · obtain ⟨a, b, c⟩ := ih (reachable_step hr h1) (fun o ho => hns o (List.mem_cons_of_mem _ ho)) hm' (Nat.le_trans hT hle) (hin t ht) h2 hlt
      exact ⟨a, fun x => (b x).trans (C21_others hr op h1 (fun p st => ⟨ho.1 p st, ho.2 p⟩) x), c⟩
    · have a := now_mono hi.tree _ h1
      have b := run_now ops (step_inv hi _ h1) h2
      exact absurd (Nat.lt_of_le_of_lt (Nat.le_trans (Nat.le_trans hT hle) (Nat.le_trans a b)) hlt) (Nat.lt_irrefl _)

theorem useEntry_info (hk : RegistryOk e) (h : Reachable e d s) (lifetime : Time) {m : Name} (hm : (measAt e s m).isSome) {q inst : Name} {ty : Nat} (hc : InCharge e s q m)
    (hq : scAt e s q = some inst) (ht : e.styp inst = some ty) :
    ∃ s' x, useEntry e s lifetime m = some s' ∧ Reachable e d s' ∧ measAt e s' m = some x ∧ s.now + lifetime ≤ x.expiry ∧ ty ∈ x.info ∧ s'.now = s.now ∧ ∀ y, scAt e s' y = scAt e s y := by
  obtain ⟨x, hx⟩ := Option.isSome_iff_exists.1 hm
  obtain ⟨s1, h1, h2, -⟩ := C23_extend h m lifetime x hx
  have hr1 := reachable_step h h1
  obtain ⟨s1', s2, a1, a2, a3, a4⟩ := useEntry_spec hk h lifetime hm
  rw [h1] at a1; cases a1
  have hsc1 : ∀ y, scAt e s1 y = scAt e s y := C21_others h _ h1 (fun p st => ⟨(fun hh => by cases hh), (fun hh => by cases hh)⟩)
  have hsc2 : ∀ y, scAt e s2 y = scAt e s1 y := C21_others hr1 _ a2 (fun p st => ⟨(fun hh => by cases hh), (fun hh => by cases hh)⟩)
  have n1 := now_step h.inv.tree _ h1
  have n2 := now_step hr1.inv.tree _ a2
  obtain ⟨m0, inst', ty', t, b1, b2, b3, rfl, b5, b6⟩ := measWrite_fwd hr1.inv.tree (show measWrite e s1 m = some s2 from a2)
  have b1' : measAt e s1 m = some m0 := b1
  rw [h2] at b1'
  have hm0 := Option.some.inj b1'
  have htq : ty' = ty := by
    have e1 := (C21_effective_entries hr1).2 m _ h2
    obtain ⟨-, q', i', c1, c2, c3⟩ := C21_effective hr1 m
    have hqq : q' = q := InCharge.unique (s := s1) c3 ((inCharge_congr hsc1).2 hc)
    subst hqq
    rw [e1, c1] at b2
    have : i' = inst' := Option.some.inj b2
    subst this
    rw [hsc1, hq] at c2
    have : inst = i' := Option.some.inj c2
    subst this
    rw [ht] at b3
    exact (Option.some.inj b3).symm
  subst htq
  refine ⟨{ s1 with nt := t }, { m0 with info := addInfo ty' m0.info }, a3, a4, ?_, ?_, ?_, ?_, fun y => (hsc2 y).trans (hsc1 y)⟩
  · unfold measAt
    rw [view_with, b6, upd_same]
  · show s.now + lifetime ≤ m0.expiry
    rw [← hm0]
    exact Nat.le_max_right _ _
  · show ty' ∈ addInfo ty' m0.info
    unfold addInfo
    split
    · assumption
    · exact List.mem_cons_self
  · exact n2.trans n1

/-- **C132.** What was learned from a Data is found for every Interest below the same prefix for eight seconds, whatever happens in between other than a change of strategies, if there is
no measurements entry for a longer prefix of the Interest's name. -/
theorem C132_found (hk : RegistryOk e) (h : Reachable e d s) (q data interest m inst : Name) (ty : Nat) (ops : List Op) (s2 : Tables) (hq : scAt e s q = some inst)
    (ht : e.styp inst = some ty) (h1 : addPrefixMeasurements e q data s = some (s', m)) (hrun : run e s' ops = some s2) (hns : NoStrategyChange ops)
    (hnow : s2.now < s.now + 8000000000) (hm : m <+: interest) (hno : ∀ x, x <+: interest → (measAt e s2 x).isSome → x.length ≤ m.length) :
    findPrefixMeasurements e q ty interest s2 = some (some m) := by
  rcases add_spec h q data with ⟨m', s1, hw, hr1, hg, hx, ha⟩ | ⟨-, -, ha⟩
  · have hcm : InCharge e s q m' := by
      rcases hw with ⟨-, b, rfl⟩ | ⟨-, b, rfl⟩
      · exact (inCharge_take h).1 b
      · exact (inCharge_take h).1 b
    obtain ⟨sb, x, b1, b2, b3, b4, b5, b6, b7⟩ := useEntry_info hk hr1 accessLifetime hx ((inCharge_congr hg.1).2 hcm) (by rw [hg.1]; exact hq) ht
    rw [ha, b1] at h1
    simp only [Option.map_some, Option.some.injEq, Prod.mk.injEq] at h1
    obtain ⟨rfl, rfl⟩ := h1
    obtain ⟨⟨y, c1, c2⟩, c3, c4⟩ := info_survives ops b2 hns b3 b4 b5 hrun (by rw [hg.2.2]; exact hnow)
    obtain ⟨r, d1, d2⟩ := C116_lpm c4 q (fun _ => true) interest
    have hcm2 : InCharge e s2 q m' := (inCharge_congr (fun y => (c3 y).trans ((b7 y).trans (hg.1 y)))).2 hcm
    have hr : r = some m' := (d2 m').2 ⟨hcm2, hm, ⟨y, c1, rfl⟩, fun z hz hzz => hno z hz (by obtain ⟨w, hw, -⟩ := hzz; rw [hw]; rfl)⟩
    subst hr
    unfold findPrefixMeasurements
    rw [d1]
    have c1' : (view e s2 m').meas = some y := c1
    simp only [Option.map_some, Option.bind_some, c1', if_pos c2]
  · rw [ha] at h1; cases h1

/-- **C132.** Nothing is found that another strategy has left: what is found is the longest measurements entry, the strategy is in charge of it, and has stored information there. -/
theorem C132_own (h : Reachable e d s) (q interest m : Name) (ty : Nat) (hf : findPrefixMeasurements e q ty interest s = some (some m)) :
    InCharge e s q m ∧ LongestPrefix (fun n => (measAt e s n).isSome) interest m ∧ ∃ x, measAt e s m = some x ∧ ty ∈ x.info := by
  obtain ⟨r, d1, d2⟩ := C116_lpm h q (fun _ => true) interest
  unfold findPrefixMeasurements at hf
  rw [d1, Option.map_some] at hf
  cases r with
  | none => cases hf
  | some m' =>
    have hf := Option.some.inj hf
    rw [Option.bind_some] at hf
    cases hx : (view e s m').meas with
    | none => rw [hx] at hf; cases hf
    | some x =>
      rw [hx] at hf
      dsimp only at hf
      by_cases hi : ty ∈ x.info
      · rw [if_pos hi] at hf
        cases Option.some.inj hf
        obtain ⟨a, b⟩ := (d2 m).1 rfl
        refine ⟨a, b.congr (fun n => ?_), x, hx, hi⟩
        cases measAt e s n <;> simp
      · rw [if_neg hi] at hf; cases hf

/-- A measurements entry without information hides what is known for a shorter prefix (access-strategy.cpp:257-259 says so): after the strategy learned at /1, an entry for /1/2 comes into
being, and Interests below /1/2 are flooded again. -/
theorem C132_hidden :
    ((exRun [.scInsert [gc 1] st2]).bind (fun s => (addPrefixMeasurements exEnv [gc 1] [gc 1, gc 9] s).bind (fun r =>
      (findPrefixMeasurements exEnv [gc 1] 2 [gc 1, gc 2, gc 3] r.1).bind (fun before =>
      (run exEnv r.1 [.measGet [gc 1, gc 2]]).bind (fun s => (findPrefixMeasurements exEnv [gc 1] 2 [gc 1, gc 2, gc 3] s).map (fun after => (before, after))))))) =
    some (some [gc 1], none) := by decide +kernel

/-- The cases of `C132_where` and `C132_found`. -/
example : ((exRun [.scInsert [gc 1] st2]).bind (fun s => addPrefixMeasurements exEnv [gc 1] [gc 1, gc 2, gc 3] s)).map Prod.snd = some [gc 1, gc 2] := by decide +kernel
example : ((exRun [.scInsert [gc 1] st2]).bind (fun s => addPrefixMeasurements exEnv [gc 1] [gc 1] s)).map Prod.snd = some [gc 1] := by decide +kernel
example : ((exRun [.scInsert [gc 1] st2]).bind (fun s => (addPrefixMeasurements exEnv [gc 1] [gc 1, gc 2, gc 3] s).bind (fun r =>
    (run exEnv r.1 [.tick 7999999999, .measCleanup [gc 1, gc 2]]).bind (fun s => findPrefixMeasurements exEnv [gc 1] 2 [gc 1, gc 2, gc 4] s)))) =
    some (some [gc 1, gc 2]) := by decide +kernel
example : ((exRun [.scInsert [gc 1] st2]).bind (fun s => (addPrefixMeasurements exEnv [gc 1] [gc 1, gc 2, gc 3] s).bind (fun r =>
    (run exEnv r.1 [.tick 8000000000, .measCleanup [gc 1, gc 2]]).bind (fun s => findPrefixMeasurements exEnv [gc 1] 2 [gc 1, gc 2, gc 4] s)))) =
    some none := by decide +kernel

/-! ### What it says -/

namespace Access

theorem look_put {α β : Type} [DecidableEq α] (l : List (α × β)) (k x : α) (v : β) : look (put l k v) x = if x = k then some v else look l x := by
  unfold look put
  by_cases h : x = k
  · subst h; simp
  · rw [if_neg h, List.find?_cons_of_neg (by simpa using fun hh => h hh.symm)]
    congr 1
    induction l with
    | nil => rfl
    | cons p l ih =>
      by_cases hp : p.1 = k
      · rw [List.filter_cons_of_neg (by simpa using hp), ih, List.find?_cons_of_neg (by simp; exact fun hh => h (hh.symm.trans hp))]
      · rw [List.filter_cons_of_pos (by simpa using hp)]
        by_cases hx : p.1 = x
        · rw [List.find?_cons_of_pos (by simpa using hx), List.find?_cons_of_pos (by simpa using hx)]
        · rw [List.find?_cons_of_neg (by simpa using hx), List.find?_cons_of_neg (by simpa using hx), ih]

theorem look_drop {α β : Type} [DecidableEq α] (l : List (α × β)) (k x : α) : look (drop l k) x = if x = k then none else look l x := by
  unfold look drop
  induction l with
  | nil => simp
  | cons p l ih =>
    by_cases hp : p.1 = k
    · rw [List.filter_cons_of_neg (by simpa using hp), ih]
      by_cases h : x = k
      · rw [if_pos h, if_pos h]
      · rw [if_neg h, if_neg h, List.find?_cons_of_neg (by simp; exact fun hh => h (hh.symm.trans hp))]
    · rw [List.filter_cons_of_pos (by simpa using hp)]
      by_cases hx : p.1 = x
      · have : x ≠ k := fun hh => hp (hx.trans hh)
        rw [List.find?_cons_of_pos (by simpa using hx), if_neg this, List.find?_cons_of_pos (by simpa using hx)]
      · rw [List.find?_cons_of_neg (by simpa using hx), List.find?_cons_of_neg (by simpa using hx), ih]

theorem run_snoc (l : List Ev) (ev : Ev) : run {} (l ++ [ev]) = step (run {} l) ev := by simp [run]

/-- The lists as if they grew at the end. -/
theorem snoc_ind {P : List Ev → Prop} (h0 : P []) (h1 : ∀ l ev, P l → P (l ++ [ev])) (l : List Ev) : P l := by
  rw [← l.reverse_reverse]
  induction l.reverse with
  | nil => exact h0
  | cons ev l ih => rw [List.reverse_cons]; exact h1 _ _ ih

theorem cameFrom_snoc (l : List Ev) (ev : Ev) (m : Name) (f : FaceId) :
    CameFrom (l ++ [ev]) m f ↔ (∃ r, ev = .data m f r) ∨ (CameFrom l m f ∧ ev ≠ .cleared m ∧ ∀ g r, ev ≠ .data m g r) := by
  constructor
  · rintro ⟨b, r, a, h, ha⟩
    rcases List.eq_nil_or_concat a with rfl | ⟨a', x, rfl⟩
    · have := List.append_inj_right' h rfl
      exact .inl ⟨r, (List.cons.inj this).1⟩
    · rw [List.concat_eq_append] at h ha
      have h : l ++ [ev] = (b ++ .data m f r :: a') ++ [x] := by rw [h]; simp
      have h1 := List.append_inj_left' h rfl
      have h2 := (List.cons.inj (List.append_inj_right' h rfl)).1
      subst h2
      exact .inr ⟨⟨b, r, a', h1, fun e he => ha e (by simp [he])⟩, ha ev (by simp)⟩
  · rintro (⟨r, rfl⟩ | ⟨⟨b, r, a, rfl, ha⟩, h1, h2⟩)
    · exact ⟨l, r, [], rfl, by simp⟩
    · refine ⟨b, r, a ++ [ev], by simp, fun e he => ?_⟩
      rcases List.mem_append.mp he with he | he
      · exact ha e he
      · rw [List.mem_singleton.mp he]; exact ⟨h1, h2⟩

/-- **C132.** The next hop that a new Interest is sent to is the face that the last Data for this prefix came from, if there has been any since the information was created. -/
theorem C132_last (l : List Ev) (m : Name) (f : FaceId) : (look (run {} l).mt m).map (·.lastNexthop) = some f ↔ CameFrom l m f := by
  induction l using snoc_ind generalizing f with
  | h0 =>
    constructor
    · intro h; cases h
    · rintro ⟨b, r, a, h, -⟩; simp at h
  | h1 l ev ih =>
    rw [run_snoc, cameFrom_snoc, ← ih]
    cases ev with
    | gone g => simp [step]
    | cleared m' =>
      simp only [step, look_drop]
      by_cases h : m = m'
      · subst h; simp
      · rw [if_neg h]
        simp [Ne.symm h]
    | data m' g r =>
      simp only [step, update, look_put]
      by_cases h : m = m'
      · subst h
        rw [if_pos rfl]
        have : (if ((look (run {} l).mt m).getD {}).lastNexthop ≠ g then ({ lastNexthop := g, rtt := (look (run {} l).fit g).getD [] ++ [r] } : Mt)
            else { (look (run {} l).mt m).getD {} with rtt := ((look (run {} l).mt m).getD {}).rtt ++ [r] }).lastNexthop = g := by
          split
          · rfl
          · rename_i hh; exact Decidable.of_not_not hh
        simp only [Option.map_some, this]
        simp
      · rw [if_neg h]
        simp [Ne.symm h]

/-- **C132.** The timeout for the next hop of a prefix comes from round-trip times that were measured on this next hop, and on no other. -/
theorem C132_samples (l : List Ev) (m : Name) (mi : Mt) (h : look (run {} l).mt m = some mi) (t : Nat) (ht : t ∈ mi.rtt) : ∃ m', Ev.data m' mi.lastNexthop t ∈ l := by
  have key : (∀ f x, look (run {} l).fit f = some x → ∀ t ∈ x, ∃ m', Ev.data m' f t ∈ l) ∧
      (∀ m mi, look (run {} l).mt m = some mi → ∀ t ∈ mi.rtt, ∃ m', Ev.data m' mi.lastNexthop t ∈ l) := by
    clear h ht
    induction l using snoc_ind with
    | h0 => exact ⟨fun f x h => (by cases h), fun m mi h => (by cases h)⟩
    | h1 l ev ih =>
      obtain ⟨i1, i2⟩ := ih
      have j1 : ∀ f x, look (run {} l).fit f = some x → ∀ t ∈ x, ∃ m', Ev.data m' f t ∈ l ++ [ev] :=
        fun f x h t ht => let ⟨m', h⟩ := i1 f x h t ht; ⟨m', List.mem_append_left _ h⟩
      have j2 : ∀ m mi, look (run {} l).mt m = some mi → ∀ t ∈ mi.rtt, ∃ m', Ev.data m' mi.lastNexthop t ∈ l ++ [ev] :=
        fun m mi h t ht => let ⟨m', h⟩ := i2 m mi h t ht; ⟨m', List.mem_append_left _ h⟩
      rw [run_snoc]
      cases ev with
      | gone g =>
        refine ⟨fun f x h => ?_, j2⟩
        simp only [step, look_drop] at h
        by_cases hf : f = g
        · rw [if_pos hf] at h; cases h
        · rw [if_neg hf] at h; exact j1 f x h
      | cleared m' =>
        refine ⟨j1, fun m mi h => ?_⟩
        simp only [step, look_drop] at h
        by_cases hf : m = m'
        · rw [if_pos hf] at h; cases h
        · rw [if_neg hf] at h; exact j2 m mi h
      | data m0 g r =>
        have hfi : ∀ t ∈ (look (run {} l).fit g).getD [] ++ [r], ∃ m', Ev.data m' g t ∈ l ++ [.data m0 g r] := by
          intro t ht
          rcases List.mem_append.mp ht with ht | ht
          · cases hl : look (run {} l).fit g with
            | none => rw [hl] at ht; cases ht
            | some x => rw [hl] at ht; exact j1 g x hl t ht
          · rw [List.mem_singleton.mp ht]; exact ⟨m0, by simp⟩
        refine ⟨fun f x h => ?_, fun m mi h => ?_⟩
        · simp only [step, update, look_put] at h
          by_cases hf : f = g
          · rw [if_pos hf] at h; cases Option.some.inj h; subst hf; exact hfi
          · rw [if_neg hf] at h; exact j1 f x h
        · simp only [step, update, look_put] at h
          by_cases hf : m = m0
          · rw [if_pos hf] at h
            have h := Option.some.inj h
            split at h
            · subst h; exact hfi
            · rename_i hh
              have hg : ((look (run {} l).mt m0).getD {}).lastNexthop = g := Decidable.of_not_not hh
              subst h
              intro t ht
              dsimp only at ht ⊢
              rw [hg]
              rcases List.mem_append.mp ht with ht | ht
              · cases hl : look (run {} l).mt m0 with
                | none => rw [hl] at ht; cases ht
                | some x =>
                  rw [hl] at ht hg
                  have hg : x.lastNexthop = g := hg
                  obtain ⟨m', hm'⟩ := j2 m0 x hl t ht
                  exact ⟨m', hg ▸ hm'⟩
              · rw [List.mem_singleton.mp ht]; exact ⟨m0, by simp⟩
          · rw [if_neg hf] at h; exact j2 m mi h
  exact key.2 m mi h t ht

/-- Two faces take turns for one prefix; the second is used for another prefix, too. -/
def exEvents : List Ev := [.data [] 256 10, .data [] 257 20, .data [gc 1] 257 30, .gone 256, .data [] 257 40]
example : look (run {} exEvents).mt [] = some { lastNexthop := 257, rtt := [20, 40] } := by decide +kernel
example : look (run {} exEvents).mt [gc 1] = some { lastNexthop := 257, rtt := [20, 30] } := by decide +kernel

end Access
end Verif.Tb
