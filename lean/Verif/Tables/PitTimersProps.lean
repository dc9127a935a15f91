import Verif.Tables.PitTimers
import Verif.Tables.TimersProps

/-! Property C120: the timers of the access strategy and the life of the strategy objects. -/
namespace Verif.Tb

variable {e : Env} {d : Name} {acc : Nat} {x x' : PSys}

/-! ### Specification -/

/-- The forwarder as it starts. -/
def startP (s : Tables) : PSys := ⟨startSys s, []⟩

/-- A history of the forwarder in which every event satisfies `Ok`. -/
inductive PHist (e : Env) (d : Name) (acc : Nat) (Ok : Sys → Sys → Prop) : PSys → Prop
  | start {s : Tables} : init e d = some s → PHist e d acc Ok (startP s)
  | next {x x' : PSys} (ev : PEv) : PHist e d acc Ok x → pstep e acc x ev = .ok x' → Ok x.sys x'.sys → PHist e d acc Ok x'

/-! ### Lemmas -/

theorem scOwnerPit_spec {s : Tables} (h : Reachable e d s) {i : Interest} {q : Name} (hl : (view e s (pitNode i.name)).pit ≠ [])
    (hq : scOwnerPit e s i.name = some q) : InCharge e s q i.name := by
  have hst : (s.nt.find e.cfg.ch (pitNode i.name)).isSome := stored_of_view (by intro hh; rw [hh] at hl; exact hl rfl)
  unfold scOwnerPit at hq
  rw [Nt.lpmPit_eq h.inv.tree hasSc hst (pitNode_prefix _)] at hq
  exact scOwner_spec h hq

theorem pitWrite_live {s s' : Tables} {i : Interest} (h : Op.run e s (.pitWrite i) = some s') : (view e s (pitNode i.name)).pit ≠ [] := by
  simp only [Op.run, pitWrite, pitMod, Option.bind_eq_bind, Option.bind_eq_some_iff] at h
  obtain ⟨_, -, _, -, p, hp, -⟩ := h
  intro hh
  rw [hh] at hp
  cases hp

theorem step_table_run {op : Op} {lt : Time} {y z : Sys} (h : step e acc lt y (.table op) = .ok z) : op.run e y.tb = some z.tb := by
  simp only [step] at h
  split at h
  · cases h
  · cases h; assumption

/-- What an event does: the strategies and the objects stay, or one strategy changes. In either case, what timers are there afterwards. -/
theorem pstep_cases (hk : RegistryOk e) (hi : SysInv e d x.sys) {ev : PEv} (h : pstep e acc x ev = .ok x') :
    SysInv e d x'.sys ∧
    ((x'.sys.objs = x.sys.objs ∧ (∀ n, scAt e x'.sys.tb n = scAt e x.sys.tb n) ∧
      ∀ t ∈ x'.timers, t ∈ x.timers ∨
        ∃ q, (q, t.owner) ∈ x.sys.objs ∧ InCharge e x.sys.tb q t.entry.name ∧ (scAt e x.sys.tb q).bind e.styp = some acc) ∨
     (∃ op p, op.scPrefix = some p ∧ op.run e x.sys.tb = some x'.sys.tb ∧ scAt e x'.sys.tb p ≠ scAt e x.sys.tb p ∧
      (∀ m, m ≠ p → scAt e x'.sys.tb m = scAt e x.sys.tb m) ∧ x'.sys.objs = (objsAfter e x.sys op x'.sys.tb).1 ∧
      ∀ t ∈ x'.timers, t ∈ x.timers ∧ t.held e acc x'.sys.tb = true)) := by
  cases ev with
  | table op =>
    simp only [pstep] at h
    split at h
    · rename_i y hy
      cases h
      refine ⟨sysInv_step hk hi hy, ?_⟩
      obtain ⟨-, ⟨h2, h3, -⟩ | ⟨op', p, he, h2, h3, h4, h5, h6, -⟩⟩ := step_cases hk hi hy
      · exact .inl ⟨h2, h3, fun t ht => .inl (List.mem_filter.1 ht).1⟩
      · exact .inr ⟨op', p, h2, h3, h4, h5, h6, fun t ht => List.mem_filter.1 ht⟩
    · cases h
  | send i rto =>
    simp only [pstep] at h
    split at h
    · cases h
    · rename_i q hq
      split at h
      · cases h
      · rename_i o ho
        split at h
        · rename_i hty
          split at h
          · rename_i y hy
            cases h
            refine ⟨sysInv_step hk hi hy, ?_⟩
            obtain ⟨-, ⟨h2, h3, -⟩ | ⟨op', p, he, h2, -⟩⟩ := step_cases hk hi hy
            · refine .inl ⟨h2, h3, fun t ht => ?_⟩
              rcases List.mem_cons.1 ht with rfl | ht
              · right
                have hq' := List.find?_some ho
                simp only [decide_eq_true_eq] at hq'
                refine ⟨q, ?_, scOwnerPit_spec hi.reach (pitWrite_live (step_table_run hy)) hq, hty⟩
                rw [← hq']
                exact List.mem_of_find?_eq_some ho
              · exact .inl (List.mem_filter.1 ht).1
            · cases he; cases h2
          · cases h
        · cases h
  | cancel i =>
    cases h
    exact ⟨hi, .inl ⟨rfl, fun _ => rfl, fun t ht => .inl (List.mem_filter.1 ht).1⟩⟩
  | fire k =>
    simp only [pstep] at h
    split at h
    · cases h
    · split at h
      · cases h
      · split at h
        · cases h
          exact ⟨hi, .inl ⟨rfl, fun _ => rfl, fun t ht => .inl (List.mem_of_mem_eraseIdx ht)⟩⟩
        · cases h

theorem PHist.inv {Ok : Sys → Sys → Prop} (hk : RegistryOk e) (h : PHist e d acc Ok x) : SysInv e d x.sys := by
  induction h with
  | start h => exact sysInv_start h
  | next ev _ hs _ ih => exact (pstep_cases hk ih hs).1

/-- A PIT entry that holds a timeout, and whose name does not end in a digest, is under the access strategy. -/
theorem held_typ {s : Tables} (h : Reachable e d s) {t : PitTimer} (ht : t.held e acc s = true) (hd : hasDigest t.entry.name = false) :
    effTyp e s t.entry.name = some acc := by
  unfold PitTimer.held at ht
  rw [List.any_eq_true] at ht
  obtain ⟨p, hp, h2⟩ := ht
  simp only [Bool.and_eq_true, sameKey, beq_iff_eq, List.contains_iff_mem] at h2
  have hn : p.interest.name = t.entry.name := congrArg Interest.name h2.1
  have := C22_pit_owner h p ⟨_, hp⟩ (hn ▸ hd) acc (by
    unfold PitEntry.allInfo
    exact List.mem_append_left _ (List.mem_append_left _ h2.2))
  rw [← hn]
  exact this

/-! ### C120 -/

/-- As long as no strategy is replaced or unset, every pending timeout belongs to an object that exists. -/
theorem C120_alive_partial (hk : RegistryOk e) (h : PHist e d acc (KeepsStrategies e) x) (t : PitTimer) (ht : t ∈ x.timers) :
    ∃ q, (q, t.owner) ∈ x.sys.objs := by
  induction h with
  | start h => cases ht
  | next ev hx hs hok ih =>
    rename_i x x'
    have hi := hx.inv hk
    obtain ⟨-, ⟨h2, h3, h4⟩ | ⟨op, p, h2, h3, h4, h5, h6, h7⟩⟩ := pstep_cases hk hi hs
    · rw [h2]
      rcases h4 t ht with h4 | ⟨q, h4, -⟩
      · exact ih h4
      · exact ⟨q, h4⟩
    · obtain ⟨q, hq⟩ := ih (h7 t ht).1
      have hp : q ≠ p := by
        rintro rfl
        exact h4 (hok q ((hi.objs q).2 ⟨_, hq⟩))
      exact ⟨q, by rw [h6]; exact ((objsAfter_mem h2 h4).1 q _ hp).2 hq⟩

/-- If every change of strategy changes the type of the strategy in force, the timeout of a PIT entry whose name does not end in a digest belongs to an
object that exists: the one in charge of the entry. -/
theorem C120_held_partial (hk : RegistryOk e) (h : PHist e d acc (ChangesType e) x) (t : PitTimer) (ht : t ∈ x.timers)
    (hd : hasDigest t.entry.name = false) : ∃ q, (q, t.owner) ∈ x.sys.objs ∧ InCharge e x.sys.tb q t.entry.name := by
  have key : ∃ q, (q, t.owner) ∈ x.sys.objs ∧ InCharge e x.sys.tb q t.entry.name ∧ (scAt e x.sys.tb q).bind e.styp = some acc := by
    induction h with
    | start h => cases ht
    | next ev hx hs hok ih =>
      rename_i x x'
      have hi := hx.inv hk
      obtain ⟨hi', ⟨h2, h3, h4⟩ | ⟨op, p, h2, h3, h4, h5, h6, h7⟩⟩ := pstep_cases hk hi hs
      · rw [h2]
        have old : ∃ q, (q, t.owner) ∈ x.sys.objs ∧ InCharge e x.sys.tb q t.entry.name ∧ (scAt e x.sys.tb q).bind e.styp = some acc := by
          rcases h4 t ht with h4 | h4
          · exact ih h4
          · exact h4
        obtain ⟨q, a, b, c⟩ := old
        exact ⟨q, a, (inCharge_congr h3).2 b, by rw [h3]; exact c⟩
      · obtain ⟨ht, hheld⟩ := h7 t ht
        obtain ⟨q, a, b, c⟩ := ih ht
        obtain ⟨q', b'⟩ := inCharge_exists hi'.reach t.entry.name
        rcases inCharge_change h5 b b' with ⟨rfl, hne⟩ | ⟨g, g'⟩
        · exact ⟨q, by rw [h6]; exact ((objsAfter_mem h2 h4).1 q _ hne).2 a, b', by rw [h5 q hne]; exact c⟩
        · exfalso
          have hty := hok p h4
          rw [effTyp_of hi'.reach g', effTyp_of hi.reach g, ← effTyp_of hi'.reach b', ← effTyp_of hi.reach b] at hty
          exact hty ((held_typ hi'.reach hheld hd).trans ((effTyp_of hi.reach b).trans c).symm)
  obtain ⟨q, a, b, -⟩ := key
  exact ⟨q, a, b⟩

/-- Running a timeout whose object exists does not use a destroyed object. -/
theorem C120_fire (k : Nat) (h : ∀ t, x.timers[k]? = some t → ∃ q, (q, t.owner) ∈ x.sys.objs) : pstep e acc x (.fire k) ≠ .dangling := by
  simp only [pstep]
  split
  · exact fun h => (by cases h)
  · rename_i t ht
    split
    · exact fun h => (by cases h)
    · split
      · exact fun h => (by cases h)
      · rename_i hf
        obtain ⟨q, hq⟩ := h t ht
        rw [Option.not_isSome_iff_eq_none, List.find?_eq_none] at hf
        have := hf _ hq
        simp at this

/-- A PIT entry has at most one timeout, at any time. -/
theorem C120_one (h : PHist e d acc Ok x) : (x.timers.map (·.entry)).Nodup := by
  induction h with
  | start h => exact List.nodup_nil
  | next ev hx hs hok ih =>
    rename_i x x'
    have fl : ∀ f : PitTimer → Bool, ((x.timers.filter f).map (·.entry)).Nodup := fun f => ih.sublist (List.filter_sublist.map _)
    cases ev with
    | table op =>
      simp only [pstep] at hs
      split at hs
      · cases hs; exact fl _
      · cases hs
    | send i rto =>
      simp only [pstep] at hs
      split at hs
      · cases hs
      · split at hs
        · cases hs
        · split at hs
          · split at hs
            · cases hs
              show (i :: _).Nodup
              refine List.nodup_cons.2 ⟨?_, fl _⟩
              intro hm
              obtain ⟨t, ht, h2⟩ := List.mem_map.1 hm
              have := (List.mem_filter.1 ht).2
              simp only [decide_eq_true_eq] at this
              exact this h2
            · cases hs
          · cases hs
    | cancel i => cases hs; exact fl _
    | fire k =>
      simp only [pstep] at hs
      split at hs
      · cases hs
      · split at hs
        · cases hs
        · split at hs
          · cases hs; exact ih.sublist ((List.eraseIdx_sublist _ _).map _)
          · cases hs

/-- When an entry is satisfied its timeout is cancelled, and no other. -/
theorem C120_cancel (i : Interest) (h : pstep e acc x (.cancel i) = .ok x') : x'.sys = x.sys ∧ ∀ t, t ∈ x'.timers ↔ t ∈ x.timers ∧ t.entry ≠ i := by
  cases h
  exact ⟨rfl, fun t => by simp only [List.mem_filter, decide_eq_true_eq]⟩

/-- A timeout runs when it is due, once, and the others stay. -/
theorem C120_runs {k : Nat} (h : pstep e acc x (.fire k) = .ok x') :
    ∃ t a b, x.timers = a ++ t :: b ∧ a.length = k ∧ t.due ≤ x.sys.tb.now ∧ x'.timers = a ++ b ∧ x'.sys = x.sys := by
  simp only [pstep] at h
  split at h
  · cases h
  · rename_i t ht
    split at h
    · cases h
    · rename_i hd
      split at h
      · cases h
        obtain ⟨hk, hg⟩ := List.getElem?_eq_some_iff.1 ht
        refine ⟨t, x.timers.take k, x.timers.drop (k + 1), ?_, by rw [List.length_take]; omega, Nat.le_of_not_lt hd, List.eraseIdx_eq_take_drop_succ .., rfl⟩
        rw [← hg, List.getElem_cons_drop, List.take_append_drop]
      · cases h

/-! ### The code breaks the property -/

def POut.isOk : POut → Bool
  | .ok _ => true
  | _ => false

def POut.isDangling : POut → Bool
  | .dangling => true
  | _ => false

/-- A forwarder whose default strategy is `s0`, and events; type 2 stands for the access strategy. -/
def pitRun (s0 : Name) (evs : List PEv) : Option POut := (init exEnv s0).map (fun s => psteps exEnv 2 (startP s) evs)

/-- The access strategy is set for a prefix and for a shorter one, and is unset for the longer one while an Interest waits: the information is kept and with it
the timeout, whose object is destroyed. -/
theorem C120_unset_dangles : (pitRun st2 [.table (.scInsert [gc 1] st2), .table (.pitInsert { name := [gc 1, gc 2] }), .send ⟨[gc 1, gc 2], false, false⟩ 1,
    .table (.scErase [gc 1]), .table (.tick 1), .fire 0]).any POut.isDangling = true := by decide +kernel

/-- The access strategy is set for a longer prefix too, then another one for the shorter prefix. -/
theorem C120_nested_dangles : (pitRun st2 [.table (.pitInsert { name := [gc 1, gc 2] }), .send ⟨[gc 1, gc 2], false, false⟩ 1,
    .table (.scInsert [gc 1] st2), .table (.scInsert [] st1), .table (.tick 1), .fire 0]).any POut.isDangling = true := by decide +kernel

/-- The access strategy is set for a name that ends in an implicit digest, and another one takes its place while an Interest for this name waits: its
information is not cleared (C22) although the type changes. -/
theorem C120_digest_dangles : (pitRun st1 [.table (.scInsert [gc 1, dc 2] st2), .table (.pitInsert { name := [gc 1, dc 2] }), .send ⟨[gc 1, dc 2], false, false⟩ 1,
    .table (.scInsert [gc 1, dc 2] st1), .table (.tick 1), .fire 0]).any POut.isDangling = true := by decide +kernel

/-! ### The hypotheses are met -/

/-- A timeout runs; a change to another type cancels it; Data cancels it; erasing the entry cancels it. -/
example : (pitRun st1 [.table (.scInsert [gc 1] st2), .table (.pitInsert { name := [gc 1, gc 2] }), .send ⟨[gc 1, gc 2], false, false⟩ 1,
    .table (.tick 1), .fire 0]).any POut.isOk = true := by decide +kernel
example : (pitRun st1 [.table (.scInsert [gc 1] st2), .table (.pitInsert { name := [gc 1, gc 2] }), .send ⟨[gc 1, gc 2], false, false⟩ 1,
    .table (.scInsert [gc 1] st1)]).any (fun o => match o with | .ok x => x.timers.isEmpty | _ => false) = true := by decide +kernel
example : (pitRun st1 [.table (.scInsert [gc 1] st2), .table (.pitInsert { name := [gc 1, gc 2] }), .send ⟨[gc 1, gc 2], false, false⟩ 1,
    .table (.pitErase ⟨[gc 1, gc 2], false, false⟩)]).any (fun o => match o with | .ok x => x.timers.isEmpty | _ => false) = true := by decide +kernel

/-- For the examples: the two conditions, for one event. -/
def popOk (e : Env) (keep : Bool) (x x' : PSys) : PEv → Bool
  | .table op => opOk e keep x.sys x'.sys (.table op)
  | _ => true

def pstepsOk (e : Env) (acc : Nat) (keep : Bool) (x : PSys) : List PEv → Bool
  | [] => true
  | ev :: evs =>
    match pstep e acc x ev with
    | .ok x' => popOk e keep x x' ev && pstepsOk e acc keep x' evs
    | _ => false

theorem popOk_sound (hk : RegistryOk e) (hi : SysInv e d x.sys) {ev : PEv} (h : pstep e acc x ev = .ok x') {keep : Bool} (ho : popOk e keep x x' ev = true) :
    if keep then KeepsStrategies e x.sys x'.sys else ChangesType e x.sys x'.sys := by
  have same : ∀ keep : Bool, x'.sys = x.sys → if keep then KeepsStrategies e x.sys x'.sys else ChangesType e x.sys x'.sys := by
    intro keep hh
    rw [hh]
    cases keep
    · exact fun q hq => absurd rfl hq
    · exact fun q _ => rfl
  obtain ⟨-, ⟨-, h3, -⟩ | -⟩ := pstep_cases hk hi h
  · cases keep
    · exact fun q hq => absurd (h3 q) hq
    · exact fun q _ => h3 q
  · cases ev with
    | table op =>
      simp only [pstep] at h
      split at h
      · rename_i y hy
        cases h
        cases keep
        · exact opOk_type hk hi hy ho
        · exact opOk_keep hk hi hy ho
      · cases h
    | send i rto =>
      have : ∀ n, scAt e x'.sys.tb n = scAt e x.sys.tb n := by
        simp only [pstep] at h
        split at h
        · cases h
        · split at h
          · cases h
          · split at h
            · split at h
              · rename_i y hy
                cases h
                exact C21_others hi.reach _ (step_table_run hy) (fun _ _ => ⟨by simp, by simp⟩)
              · cases h
            · cases h
      cases keep
      · exact fun q hq => absurd (this q) hq
      · exact fun q _ => this q
    | cancel i => cases h; exact same keep rfl
    | fire k =>
      simp only [pstep] at h
      split at h
      · cases h
      · split at h
        · cases h
        · split at h
          · cases h; exact same keep rfl
          · cases h

theorem pstepsOk_hist {keep : Bool} (hk : RegistryOk e) (evs : List PEv) :
    ∀ {x y : PSys}, PHist e d acc (fun a b => if keep then KeepsStrategies e a b else ChangesType e a b) x → pstepsOk e acc keep x evs = true →
      psteps e acc x evs = .ok y → PHist e d acc (fun a b => if keep then KeepsStrategies e a b else ChangesType e a b) y := by
  induction evs with
  | nil => intro x y h _ hs; cases hs; exact h
  | cons ev evs ih =>
    intro x y h ho hs
    rw [psteps] at hs
    rw [pstepsOk] at ho
    cases hx : pstep e acc x ev with
    | ok x' =>
      rw [hx] at hs ho
      simp only [Bool.and_eq_true] at ho hs
      exact ih (.next ev h hx (popOk_sound hk (h.inv hk) hx ho.1)) ho.2 hs
    | dangling => rw [hx] at hs; cases hs
    | stuck => rw [hx] at hs; cases hs

/-- A timeout is pending after strategies for other prefixes were set and, in the second history, replaced and unset. -/
def exPEvs (keep : Bool) : List PEv :=
  [.table (.scInsert [gc 1] st2), .table (.pitInsert { name := [gc 1, gc 2] }), .send ⟨[gc 1, gc 2], false, false⟩ 1, .table (.scInsert [gc 5] st2)] ++
  (if keep then [] else [.table (.scErase [gc 5]), .table (.scInsert [gc 1, gc 3] st1), .table (.scErase [gc 1, gc 3])])

theorem exPHist (keep : Bool)
    (h : (init exEnv st1).any (fun s => pstepsOk exEnv 2 keep (startP s) (exPEvs keep) && (match psteps exEnv 2 (startP s) (exPEvs keep) with
      | .ok x => !x.timers.isEmpty
      | _ => false)) = true) :
    ∃ x, PHist exEnv st1 2 (fun a b => if keep then KeepsStrategies exEnv a b else ChangesType exEnv a b) x ∧ x.timers ≠ [] := by
  rw [Option.any_eq_true] at h
  obtain ⟨s, hs, h⟩ := h
  rw [Bool.and_eq_true] at h
  obtain ⟨h1, h2⟩ := h
  split at h2
  · rename_i x hx
    refine ⟨x, pstepsOk_hist exRegistry _ (.start hs) h1 hx, ?_⟩
    intro hh; rw [hh] at h2; cases h2
  · cases h2

/-- The hypotheses of `C120_alive_partial` and `C120_held_partial` are met. -/
example : ∃ x, PHist exEnv st1 2 (KeepsStrategies exEnv) x ∧ x.timers ≠ [] := exPHist true (by decide +kernel)
example : ∃ x, PHist exEnv st1 2 (ChangesType exEnv) x ∧ x.timers ≠ [] := exPHist false (by decide +kernel)

end Verif.Tb
