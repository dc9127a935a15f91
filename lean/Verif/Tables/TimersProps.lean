import Verif.Tables.Timers
import Verif.Tables.AccessorProps

/-! Property C118: the timers of the ASF strategy and the life of the strategy objects. -/
namespace Verif.Tb

variable {e : Env} {d : Name} {asf : Nat} {lt : Time} {x x' : Sys}

/-! ### Specification -/

/-- A history of the forwarder in which every event satisfies `Ok`. -/
inductive Hist (e : Env) (d : Name) (asf : Nat) (lt : Time) (Ok : Sys → Sys → Prop) : Sys → Prop
  | start {s : Tables} : init e d = some s → Hist e d asf lt Ok (startSys s)
  | next {x x' : Sys} (ev : Ev) : Hist e d asf lt Ok x → step e asf lt x ev = .ok x' → Ok x x' → Hist e d asf lt Ok x'

/-- The object whose callback an event runs exists. -/
def OwnerAlive (x : Sys) (t : Timer) : Prop := ∃ q, (q, t.owner) ∈ x.objs

/-- No strategy is replaced or unset. -/
def KeepsStrategies (e : Env) (x x' : Sys) : Prop := ∀ q, (scAt e x.tb q).isSome → scAt e x'.tb q = scAt e x.tb q

/-- Wherever the choice of strategy changes, the strategy in force is of another type than the one before. -/
def ChangesType (e : Env) (x x' : Sys) : Prop := ∀ q, scAt e x'.tb q ≠ scAt e x.tb q → effTyp e x'.tb q ≠ effTyp e x.tb q

/-! ### Lemmas -/

theorem effTyp_of {s : Tables} (h : Reachable e d s) {q n : Name} (hc : InCharge e s q n) : effTyp e s n = (scAt e s q).bind e.styp := by
  obtain ⟨-, q', inst, b1, b2, b3⟩ := C21_effective h n
  have : q' = q := InCharge.unique b3 hc
  subst this
  unfold effTyp
  rw [b1, b2]

/-- When the strategy of one prefix changes, either the strategy in charge of a name is another prefix's before and after, or it is the one in charge of that
prefix before and after. -/
theorem inCharge_change {s s' : Tables} {p n q q' : Name} (hsc : ∀ m, m ≠ p → scAt e s' m = scAt e s m) (h : InCharge e s q n) (h' : InCharge e s' q' n) :
    (q = q' ∧ q ≠ p) ∨ (InCharge e s q p ∧ InCharge e s' q' p) := by
  by_cases hp : p <+: n
  · by_cases hlong : ∃ m, m ≠ p ∧ m <+: n ∧ p.length < m.length ∧ (scAt e s m).isSome
    · obtain ⟨m, h1, h2, h3, h4⟩ := hlong
      have a := h.2.2 m h2 h4
      have b := h'.2.2 m h2 (by show (scAt e s' m).isSome; rw [hsc m h1]; exact h4)
      have hqp : q ≠ p := by intro hh; rw [hh] at a; omega
      have hqp' : q' ≠ p := by intro hh; rw [hh] at b; omega
      have c := h.2.2 q' h'.1 (by show (scAt e s q').isSome; rw [← hsc q' hqp']; exact h'.2.1)
      have c' := h'.2.2 q h.1 (by show (scAt e s' q).isSome; rw [hsc q hqp]; exact h.2.1)
      exact .inl ⟨(List.prefix_of_prefix_length_le h.1 h'.1 c').eq_of_length (by omega), hqp⟩
    · have hle : ∀ m, m <+: n → (scAt e s m).isSome → m.length ≤ p.length := by
        intro m h1 h2
        by_cases hm : m = p
        · rw [hm]; exact Nat.le_refl _
        · exact Nat.le_of_not_lt (fun hl => hlong ⟨m, hm, h1, hl, h2⟩)
      have hle' : ∀ m, m <+: n → (scAt e s' m).isSome → m.length ≤ p.length := by
        intro m h1 h2
        by_cases hm : m = p
        · rw [hm]; exact Nat.le_refl _
        · rw [hsc m hm] at h2; exact hle m h1 h2
      exact .inr ⟨inCharge_prefix h hp (List.prefix_of_prefix_length_le h.1 hp (hle q h.1 h.2.1)),
        inCharge_prefix h' hp (List.prefix_of_prefix_length_le h'.1 hp (hle' q' h'.1 h'.2.1))⟩
  · have hne : ∀ m, m <+: n → m ≠ p := fun m hm hh => hp (hh ▸ hm)
    have c := h.2.2 q' h'.1 (by show (scAt e s q').isSome; rw [← hsc q' (hne q' h'.1)]; exact h'.2.1)
    have c' := h'.2.2 q h.1 (by show (scAt e s' q).isSome; rw [hsc q (hne q h.1)]; exact h.2.1)
    exact .inl ⟨(List.prefix_of_prefix_length_le h.1 h'.1 c').eq_of_length (by omega), hne q h.1⟩

theorem scOwner_spec {s : Tables} (h : Reachable e d s) {q name : Name} (hq : scOwner e s name = some q) : InCharge e s q name := by
  have hi := h.inv
  have hh : Nt.lpm e.cfg s.nt (fun _ x => ((Tbl.sc) x.tbl).isSome) name = Nt.lpm e.cfg s.nt hasSc name := rfl
  unfold scOwner at hq
  rcases lpm_get hi.tree Tbl.sc rfl name with ⟨m, a, h1, h2, h3⟩ | ⟨h1, h2⟩
  · rw [hh, hq] at h1
    cases h1
    exact h3
  · rw [hh, hq] at h1
    cases h1

/-- Using an entry leaves the strategies and the information of other entries alone, and the information of the entry grows. -/
theorem useEntry_sc (hk : RegistryOk e) {s s' : Tables} (h : Reachable e d s) {m : Name} (hm : (measAt e s m).isSome) (hu : useEntry e s lt m = some s') :
    Reachable e d s' ∧ ∀ n, scAt e s' n = scAt e s n := by
  obtain ⟨s1, s2, h1, h2, h3, h4⟩ := useEntry_spec hk h lt hm
  rw [hu] at h3
  cases h3
  refine ⟨h4, fun n => ?_⟩
  rw [C21_others (reachable_step h h1) _ h2 (fun _ _ => ⟨by simp, by simp⟩) n, C21_others h _ h1 (fun _ _ => ⟨by simp, by simp⟩) n]

theorem getOrCreate_sc (hk : RegistryOk e) {s s' : Tables} (h : Reachable e d s) {q p name m : Name} (hp : (fibAt e s p).isSome ∨ p = [])
    (hc : InCharge e s q name) (hg : getOrCreateNamespaceInfo e lt q p name s = some (s', m)) :
    Reachable e d s' ∧ (∀ n, scAt e s' n = scAt e s n) ∧ InCharge e s q m := by
  rcases getOrCreate_spec hk h lt hp hc with ⟨m', s1, hm, h1, h2, h3, h4⟩ | ⟨-, -, h4⟩
  · rw [h4, Option.map_eq_some_iff] at hg
    obtain ⟨s2, h5, h6⟩ := hg
    cases h6
    obtain ⟨a, b⟩ := useEntry_sc hk h1 h3 h5
    refine ⟨a, fun n => (b n).trans (h2.1 n), ?_⟩
    rcases hm with ⟨c, rfl⟩ | ⟨-, -, rfl⟩
    · exact c
    · rw [← inCharge_take h]
      exact (inCharge_len hc _).2 (Nat.le_max_right _ _)
  · rw [h4] at hg; cases hg

theorem getNamespace_sc (hk : RegistryOk e) {s s' : Tables} (h : Reachable e d s) {q name : Name} {r : Option Name}
    (hg : getNamespaceInfo e lt q name s = some (s', r)) : Reachable e d s' ∧ ∀ n, scAt e s' n = scAt e s n := by
  obtain ⟨r0, h1, h2⟩ := C116_lpm h q (fun _ => true) name
  unfold getNamespaceInfo at hg
  rw [h1, Option.bind_some] at hg
  cases hr : r0 with
  | none => rw [hr] at hg; cases hg; exact ⟨h, fun _ => rfl⟩
  | some m =>
    rw [hr] at hg
    simp only [Option.map_eq_some_iff] at hg
    obtain ⟨s2, h3, h4⟩ := hg
    cases h4
    obtain ⟨y, hy, -⟩ := ((h2 m).1 hr).2.2.1
    exact useEntry_sc hk h (by rw [hy]; rfl) h3

/-- The objects are those of the strategy choice table. -/
structure SysInv (e : Env) (d : Name) (x : Sys) : Prop where
  reach : Reachable e d x.tb
  objs : ∀ q, (scAt e x.tb q).isSome ↔ ∃ o, (q, o) ∈ x.objs

/-- What an event does: the objects and the strategies stay, or one strategy changes by an operation on the tables. -/
theorem step_cases (hk : RegistryOk e) (hi : SysInv e d x) {ev : Ev} (h : step e asf lt x ev = .ok x') :
    Reachable e d x'.tb ∧
    ((x'.objs = x.objs ∧ (∀ n, scAt e x'.tb n = scAt e x.tb n) ∧
      ∀ t ∈ x'.timers, t ∈ x.timers ∨ ∃ q, (q, t.owner) ∈ x.objs ∧ ∀ n, t.holder = some n → InCharge e x.tb q n) ∨
     (∃ op p, ev = .table op ∧ op.scPrefix = some p ∧ op.run e x.tb = some x'.tb ∧ scAt e x'.tb p ≠ scAt e x.tb p ∧ (∀ m, m ≠ p → scAt e x'.tb m = scAt e x.tb m) ∧
      x'.objs = (objsAfter e x op x'.tb).1 ∧ x'.timers = x.timers.filter (·.held e x'.tb))) := by
  cases ev with
  | table op =>
    simp only [step] at h
    split at h
    · cases h
    · rename_i s' hs
      cases h
      have hr := reachable_step hi.reach hs
      refine ⟨hr, ?_⟩
      cases hp : op.scPrefix with
      | none =>
        left
        refine ⟨by simp only [objsAfter, hp], ?_, fun t ht => .inl (List.mem_filter.1 ht).1⟩
        refine C21_others hi.reach op hs ?_
        intro p st
        constructor <;> intro hh <;> rw [hh] at hp <;> cases hp
      | some p =>
        have hoth : ∀ m, m ≠ p → scAt e s' m = scAt e x.tb m := by
          cases op with
          | scInsert p' st =>
            cases hp
            obtain ⟨s1, r, h1, -, -, -, h5, h6⟩ := C21_insert hi.reach p st
            have hs' : (Tb.scInsert e x.tb p st).map (·.1) = some s' := hs
            rw [h1] at hs'
            cases hs'
            intro m hm
            by_cases hr : r = .ok
            · subst hr
              have h7 := scInsert_fwd hi.reach.inv.tree h1
              rcases h7 with ⟨h7, -⟩ | ⟨h7, -⟩ | ⟨h7, -⟩ | ⟨inst, -, hc, hl, -⟩
              · cases h7
              · cases h7
              · cases h7
              · exact (h6 inst hl hc).2.2 m hm
            · rw [h5 hr]
          | scErase p' =>
            cases hp
            have hs' : Tb.scErase e x.tb p = some s' := hs
            by_cases hne : p = []
            · subst hne; simp [Tb.scErase] at hs'
            · obtain ⟨s1, h1, -, h3⟩ := C21_erase hi.reach p hne
              rw [h1] at hs'; cases hs'
              exact h3
          | _ => cases hp
        by_cases hch : scAt e s' p = scAt e x.tb p
        · left
          refine ⟨by simp only [objsAfter, hp, if_pos hch], fun m => ?_, fun t ht => .inl (List.mem_filter.1 ht).1⟩
          by_cases hm : m = p
          · rw [hm]; exact hch
          · exact hoth m hm
        · exact .inr ⟨op, p, rfl, hp, hs, hch, hoth, rfl, rfl⟩
  | forward p name rto probe =>
    simp only [step] at h
    split at h
    · rename_i hf
      split at h
      · cases h
      · rename_i q hq
        split at h
        · cases h
        · rename_i o ho
          split at h
          · split at h
            · cases h
            · rename_i r hg
              cases h
              have hc := scOwner_spec hi.reach hq
              obtain ⟨a, b, c⟩ := getOrCreate_sc hk hi.reach hf hc hg
              refine ⟨a, .inl ⟨rfl, b, fun t ht => ?_⟩⟩
              rcases List.mem_append.1 ht with ht | ht
              · right
                have hq' := List.find?_some ho
                simp only [decide_eq_true_eq] at hq'
                have hmem := List.mem_of_find?_eq_some ho
                refine ⟨q, ?_, ?_⟩
                · have : t.owner = o.2 := by
                    unfold newTimers at ht
                    rcases List.mem_append.1 ht with ht | ht
                    · cases rto <;> simp at ht; rw [ht]
                    · cases probe <;> simp at ht; rw [ht]
                  rw [this, ← hq']
                  exact hmem
                · intro n hn
                  unfold newTimers at ht
                  rcases List.mem_append.1 ht with ht | ht
                  · cases rto <;> simp at ht
                    rw [ht] at hn
                    cases hn
                    exact c
                  · cases probe <;> simp at ht
                    rw [ht] at hn
                    cases hn
              · exact .inl ht
          · cases h
    · cases h
  | cancel i =>
    simp only [step] at h
    split at h
    · cases h
    · split at h
      · cases h
        exact ⟨hi.reach, .inl ⟨rfl, fun _ => rfl, fun t ht => .inl (List.mem_of_mem_eraseIdx ht)⟩⟩
      · cases h
  | fire i =>
    simp only [step] at h
    split at h
    · cases h
    · split at h
      · cases h
      · split at h
        · cases h
        · split at h
          · cases h
          · rename_i r hg
            cases h
            obtain ⟨a, b⟩ := getNamespace_sc hk hi.reach hg
            exact ⟨a, .inl ⟨rfl, b, fun t ht => .inl (List.mem_of_mem_eraseIdx ht)⟩⟩

theorem objsAfter_mem {op : Op} {p : Name} (hp : op.scPrefix = some p) {s' : Tables} (hch : scAt e s' p ≠ scAt e x.tb p) :
    (∀ q o, q ≠ p → ((q, o) ∈ (objsAfter e x op s').1 ↔ (q, o) ∈ x.objs)) ∧ ((scAt e s' p).isSome ↔ ∃ o, (p, o) ∈ (objsAfter e x op s').1) := by
  unfold objsAfter
  simp only [hp]
  rw [if_neg hch]
  cases hs : scAt e s' p with
  | none => simp +contextual [List.mem_filter]
  | some a => simp +contextual [List.mem_filter]

theorem sysInv_step (hk : RegistryOk e) (hi : SysInv e d x) {ev : Ev} (h : step e asf lt x ev = .ok x') : SysInv e d x' := by
  obtain ⟨h1, ⟨h2, h3, -⟩ | ⟨op, p, -, h2, h3, h4, h5, h6, -⟩⟩ := step_cases hk hi h
  · exact ⟨h1, fun q => by rw [h2, h3]; exact hi.objs q⟩
  · refine ⟨h1, fun q => ?_⟩
    obtain ⟨a, b⟩ := objsAfter_mem h2 h4
    rw [h6]
    by_cases hq : q = p
    · subst hq; exact b
    · rw [h5 q hq, hi.objs q]
      exact ⟨fun ⟨o, ho⟩ => ⟨o, (a q o hq).2 ho⟩, fun ⟨o, ho⟩ => ⟨o, (a q o hq).1 ho⟩⟩

theorem reachable_init {s : Tables} (h : init e d = some s) : Reachable e d s := ⟨s, [], h, rfl⟩

theorem sysInv_start {s : Tables} (h : init e d = some s) : SysInv e d (startSys s) := by
  refine ⟨reachable_init h, fun q => ?_⟩
  have hsc : ∀ q, (scAt e s q).isSome ↔ q = [] := by
    intro q
    have hcnt := C21_size (reachable_init h)
    have hroot := (C21_effective (reachable_init h) []).1
    constructor
    · intro hq
      obtain ⟨l, -, hl, hmem⟩ := hcnt
      have hone : s.nSc = 1 := by
        unfold init scDefault at h
        split at h
        · simp only [Option.bind_eq_bind, Option.bind_eq_some_iff, Option.some.injEq] at h
          obtain ⟨t1, h1, t2, h2, rfl⟩ := h
          rfl
        · simp at h
      rw [hone] at hl
      have h1 := (hmem q).2 hq
      have h2 := (hmem []).2 hroot
      match l, hl with
      | [a], _ => simp at h1 h2; rw [h1, ← h2]
    · rintro rfl; exact hroot
  show (scAt e s q).isSome ↔ ∃ o, (q, o) ∈ [(([] : Name), 0)]
  rw [hsc]
  simp

theorem Hist.inv {Ok : Sys → Sys → Prop} (hk : RegistryOk e) (h : Hist e d asf lt Ok x) : SysInv e d x := by
  induction h with
  | start h => exact sysInv_start h
  | next ev _ hs _ ih => exact sysInv_step hk ih hs

/-! ### C118 -/

/-- As long as no strategy is replaced or unset, every pending event belongs to an object that exists. -/
theorem C118_alive_partial (hk : RegistryOk e) (h : Hist e d asf lt (KeepsStrategies e) x) (t : Timer) (ht : t ∈ x.timers) : OwnerAlive x t := by
  induction h with
  | start h => cases ht
  | next ev hx hs hok ih =>
    rename_i x x'
    have hi := hx.inv hk
    obtain ⟨h1, ⟨h2, h3, h4⟩ | ⟨op, p, -, h2, h3, h4, h5, h6, h7⟩⟩ := step_cases hk hi hs
    · unfold OwnerAlive
      rw [h2]
      rcases h4 t ht with h4 | ⟨q, h4, -⟩
      · exact ih h4
      · exact ⟨q, h4⟩
    · rw [h7] at ht
      obtain ⟨q, hq⟩ := ih (List.mem_filter.1 ht).1
      have hp : q ≠ p := by
        rintro rfl
        exact h4 (hok q ((hi.objs q).2 ⟨_, hq⟩))
      exact ⟨q, by rw [h6]; exact ((objsAfter_mem h2 h4).1 q _ hp).2 hq⟩

/-- If every change of strategy changes the type of the strategy in force, the events that are held by the measurements (the timeouts) belong to an object that
exists: the one in charge of the measurements entry. The probes are not covered (`C118_probe_dangles`). -/
theorem C118_held_partial (hk : RegistryOk e) (h : Hist e d asf lt (ChangesType e) x) (t : Timer) (ht : t ∈ x.timers) (n : Name) (hn : t.holder = some n) :
    ∃ q, (q, t.owner) ∈ x.objs ∧ InCharge e x.tb q n := by
  induction h with
  | start h => cases ht
  | next ev hx hs hok ih =>
    rename_i x x'
    have hi := hx.inv hk
    obtain ⟨h1, ⟨h2, h3, h4⟩ | ⟨op, p, -, h2, h3, h4, h5, h6, h7⟩⟩ := step_cases hk hi hs
    · rw [h2]
      rcases h4 t ht with h4 | ⟨q, h4, h5⟩
      · obtain ⟨q, a, b⟩ := ih h4
        exact ⟨q, a, (inCharge_congr h3).2 b⟩
      · exact ⟨q, h4, (inCharge_congr h3).2 (h5 n hn)⟩
    · rw [h7] at ht
      obtain ⟨ht, hheld⟩ := List.mem_filter.1 ht
      obtain ⟨q, a, b⟩ := ih ht
      obtain ⟨q', b'⟩ := inCharge_exists h1 n
      rcases inCharge_change h5 b b' with ⟨rfl, hne⟩ | ⟨c, c'⟩
      · exact ⟨q, by rw [h6]; exact ((objsAfter_mem h2 h4).1 q _ hne).2 a, b'⟩
      · exfalso
        have hty := hok p h4
        rw [effTyp_of h1 c', effTyp_of hi.reach c, ← effTyp_of h1 b', ← effTyp_of hi.reach b] at hty
        have hop : (∃ p st, op = .scInsert p st) ∨ ∃ p, op = .scErase p := by
          cases op <;> first | (cases h2; done) | exact .inl ⟨_, _, rfl⟩ | exact .inr ⟨_, rfl⟩
        obtain ⟨d1, d2⟩ := C22_measurements hi.reach hop h3 n
        unfold Timer.held at hheld
        rw [hn] at hheld
        simp only at hheld
        cases hm : measAt e x.tb n with
        | none => rw [d1 hm] at hheld; cases hheld
        | some m => rw [(d2 m hm).2 hty] at hheld; cases hheld

/-- Running an event whose object exists does not use a destroyed object. -/
theorem C118_fire (i : Nat) (h : ∀ t, x.timers[i]? = some t → OwnerAlive x t) : step e asf lt x (.fire i) ≠ .dangling := by
  simp only [step]
  split
  · exact fun h => (by cases h)
  · rename_i t ht
    split
    · exact fun h => (by cases h)
    · split
      · rename_i hf
        obtain ⟨q, hq⟩ := h t ht
        have := List.find?_eq_none.1 hf _ hq
        simp at this
      · split <;> exact fun h => (by cases h)

/-- A forwarder with ASF (type 2) for /1, a route for /1 and an Interest /1/2 forwarded by it, followed by other events. -/
def timerRun (rto probe : Option Time) (evs : List Ev) : Option Out :=
  (init exEnv st1).map (fun s => steps exEnv 2 8 (startSys s)
    (.table (.scInsert [gc 1] st2) :: .table (.fibInsert [gc 1]) :: .table (.fibSet [gc 1] 7 1) :: .forward [gc 1] [gc 1, gc 2] rto probe :: evs))

def Out.isOk : Out → Bool
  | .ok _ => true
  | _ => false

def Out.isDangling : Out → Bool
  | .dangling => true
  | _ => false

/-- **The code breaks the property.** ASF has scheduled a probe, another strategy is set for the prefix, and the event runs: it uses the destroyed object. -/
theorem C118_probe_dangles : (timerRun none (some 5) [.table (.scInsert [gc 1] st1), .table (.tick 5), .fire 0]).any Out.isDangling = true := by decide +kernel

/-- The same after the strategy is unset. -/
theorem C118_probe_dangles_unset : (timerRun none (some 5) [.table (.scErase [gc 1]), .table (.tick 5), .fire 0]).any Out.isDangling = true := by decide +kernel

/-- The parameters of ASF are changed (same type) while a timeout is pending: the information is kept and with it the event, which uses the destroyed object. -/
theorem C118_timeout_dangles : (timerRun (some 1) none [.table (.scInsert [gc 1] (st2 ++ [gc 9])), .table (.tick 1), .fire 0]).any Out.isDangling = true := by
  decide +kernel

/-- ASF is set for a longer prefix as well, then another strategy for the shorter one: the information below the longer prefix is not cleared, and its event
belongs to the object that was destroyed. -/
theorem C118_nested_dangles : ((init exEnv st1).map (fun s => steps exEnv 2 8 (startSys s)
    [.table (.scInsert [gc 1] st2), .table (.fibInsert [gc 1, gc 2]), .table (.fibSet [gc 1, gc 2] 7 1), .forward [gc 1, gc 2] [gc 1, gc 2, gc 3] (some 1) none,
     .table (.scInsert [gc 1, gc 2] (st2 ++ [gc 9])), .table (.scInsert [gc 1] st1), .table (.tick 1), .fire 0])).any Out.isDangling = true := by decide +kernel

/-- The timeout of an object that still exists runs; the same event is cancelled by a change to another type, and then there is nothing to run. -/
example : (timerRun (some 1) (some 5) [.table (.tick 1), .fire 0]).any Out.isOk = true := by decide +kernel
example : (timerRun (some 1) none [.table (.scInsert [gc 1] st1), .table (.tick 1)]).any (fun o => match o with | .ok x => x.timers.isEmpty | _ => false) = true := by
  decide +kernel

/-- For the examples: what has to be checked of an operation for the two conditions. -/
def opOk (e : Env) (keep : Bool) (x x' : Sys) : Ev → Bool
  | .table op =>
    match op.scPrefix with
    | none => true
    | some p => decide (scAt e x'.tb p = scAt e x.tb p) || (if keep then (scAt e x.tb p).isNone else decide (effTyp e x'.tb p ≠ effTyp e x.tb p))
  | _ => true

def stepsOk (e : Env) (asf : Nat) (lt : Time) (keep : Bool) (x : Sys) : List Ev → Bool
  | [] => true
  | ev :: evs =>
    match step e asf lt x ev with
    | .ok x' => opOk e keep x x' ev && stepsOk e asf lt keep x' evs
    | _ => false

theorem opOk_keep (hk : RegistryOk e) (hi : SysInv e d x) {ev : Ev} (h : step e asf lt x ev = .ok x') (ho : opOk e true x x' ev = true) : KeepsStrategies e x x' := by
  intro q hq
  obtain ⟨h1, ⟨h2, h3, -⟩ | ⟨op, p, rfl, h2, h3, h4, h5, h6, -⟩⟩ := step_cases hk hi h
  · exact h3 q
  · by_cases hqp : q = p
    · subst hqp
      simp only [opOk, h2, h4] at ho
      simp at ho
      rw [ho] at hq
      cases hq
    · exact h5 q hqp

theorem opOk_type (hk : RegistryOk e) (hi : SysInv e d x) {ev : Ev} (h : step e asf lt x ev = .ok x') (ho : opOk e false x x' ev = true) : ChangesType e x x' := by
  intro q hq
  obtain ⟨h1, ⟨h2, h3, -⟩ | ⟨op, p, rfl, h2, h3, h4, h5, h6, -⟩⟩ := step_cases hk hi h
  · exact absurd (h3 q) hq
  · by_cases hqp : q = p
    · subst hqp
      simp only [opOk, h2, h4] at ho
      simpa using ho
    · exact absurd (h5 q hqp) hq

theorem stepsOk_hist {Ok : Sys → Sys → Prop} {keep : Bool} (hk : RegistryOk e)
    (hok : ∀ {x x' ev}, SysInv e d x → step e asf lt x ev = .ok x' → opOk e keep x x' ev = true → Ok x x') (evs : List Ev) :
    ∀ {x y : Sys}, Hist e d asf lt Ok x → stepsOk e asf lt keep x evs = true → steps e asf lt x evs = .ok y → Hist e d asf lt Ok y := by
  induction evs with
  | nil => intro x y h _ hs; cases hs; exact h
  | cons ev evs ih =>
    intro x y h ho hs
    rw [steps] at hs
    rw [stepsOk] at ho
    cases hx : step e asf lt x ev with
    | ok x' =>
      rw [hx] at hs ho
      simp only [Bool.and_eq_true] at ho hs
      exact ih (.next ev h hx (hok (h.inv hk) hx ho.1)) ho.2 hs
    | dangling => rw [hx] at hs; cases hs
    | stuck => rw [hx] at hs; cases hs

/-- A timeout is pending at /1 after strategies for other prefixes were set and, in the second history, replaced and unset. -/
def exEvs (keep : Bool) : List Ev :=
  [.table (.scInsert [gc 1] st2), .table (.fibInsert [gc 1]), .table (.fibSet [gc 1] 7 1), .forward [gc 1] [gc 1, gc 2] (some 1) (some 5), .table (.scInsert [gc 5] st2)] ++
  (if keep then [] else [.table (.scErase [gc 5]), .table (.scInsert [gc 1, gc 3] st1), .table (.scErase [gc 1, gc 3])])

def exHistOk (keep : Bool) : Bool :=
  (init exEnv st1).any (fun s => stepsOk exEnv 2 8 keep (startSys s) (exEvs keep) && (match steps exEnv 2 8 (startSys s) (exEvs keep) with
    | .ok x => x.timers.any (fun t => decide (t.holder = some [gc 1]))
    | _ => false))

theorem exHist {Ok : Sys → Sys → Prop} {keep : Bool} (hok : ∀ {x x' ev}, SysInv exEnv st1 x → step exEnv 2 8 x ev = .ok x' → opOk exEnv keep x x' ev = true → Ok x x')
    (h : exHistOk keep = true) : ∃ x, Hist exEnv st1 2 8 Ok x ∧ ∃ t ∈ x.timers, t.holder = some [gc 1] := by
  unfold exHistOk at h
  rw [Option.any_eq_true] at h
  obtain ⟨s, hs, h⟩ := h
  rw [Bool.and_eq_true] at h
  obtain ⟨h1, h2⟩ := h
  split at h2
  · rename_i x hx
    rw [List.any_eq_true] at h2
    obtain ⟨t, ht, h2⟩ := h2
    exact ⟨x, stepsOk_hist exRegistry hok _ (.start hs) h1 hx, t, ht, by simpa using h2⟩
  · cases h2

/-- The hypotheses of `C118_alive_partial` and `C118_held_partial` are met. -/
example : ∃ x, Hist exEnv st1 2 8 (KeepsStrategies exEnv) x ∧ ∃ t ∈ x.timers, t.holder = some [gc 1] :=
  exHist (fun a b c => opOk_keep exRegistry a b c) (keep := true) (by decide +kernel)
example : ∃ x, Hist exEnv st1 2 8 (ChangesType exEnv) x ∧ ∃ t ∈ x.timers, t.holder = some [gc 1] :=
  exHist (fun a b c => opOk_type exRegistry a b c) (keep := false) (by decide +kernel)

end Verif.Tb
