import Verif.Tables.AccessLearn
import Verif.Tables.AccessProps

/-! # C132: from the Data to the next Interest

Tables and contents together: the latest Data for a prefix decides what an Interest finds in the next eight seconds (`C132_sent`), and nothing is found that no Data has said
(`C132_no_other`). -/
namespace Verif.Tb

variable {e : Env} {d : Name} {s s' : Tables}

theorem run_app (a b : List Op) : ∀ {s s1 s2 : Tables}, run e s a = some s1 → run e s1 b = some s2 → run e s (a ++ b) = some s2 := by
  induction a with
  | nil => intro s s1 s2 h1 h2; cases h1; exact h2
  | cons op a ih =>
    intro s s1 s2 h1 h2
    rw [run, Option.bind_eq_some_iff] at h1
    obtain ⟨t, h3, h4⟩ := h1
    rw [List.cons_append, run, h3, Option.bind_some]
    exact ih h4 h2

theorem accGet_op {q n : Name} {r : Tables × Option Name} (h : accGet e s q n = some r) : run e s [.measGet n] = some r.1 := by
  unfold accGet at h
  rw [Option.bind_eq_some_iff] at h
  obtain ⟨s1, h1, h2⟩ := h
  rw [Option.map_eq_some_iff] at h2
  obtain ⟨_, -, rfl⟩ := h2
  rw [run, show Op.run e s (.measGet n) = some s1 from h1]; rfl

theorem useEntry_op {L : Time} {m : Name} (h : useEntry e s L m = some s') : run e s [.measExtend m L, .measWrite m] = some s' := by
  unfold useEntry at h
  rw [Option.bind_eq_some_iff] at h
  obtain ⟨s1, h1, h2⟩ := h
  rw [run, show Op.run e s (.measExtend m L) = some s1 from h1, Option.bind_some, run, show Op.run e s1 (.measWrite m) = some s' from h2]; rfl

/-- To the tables, Data is a sequence of operations that changes no strategy. -/
theorem add_ops {q name m : Name} (h : addPrefixMeasurements e q name s = some (s', m)) : ∃ ops, run e s ops = some s' ∧ NoStrategyChange ops := by
  have use : ∀ {s1 : Tables} {m' : Name} {a : List Op}, run e s a = some s1 → NoStrategyChange a →
      (useEntry e s1 accessLifetime m').map (fun s => (s, m')) = some (s', m) → ∃ ops, run e s ops = some s' ∧ NoStrategyChange ops := by
    intro s1 m' a ha hn hu
    rw [Option.map_eq_some_iff] at hu
    obtain ⟨s2, h2, h3⟩ := hu
    cases h3
    refine ⟨_, run_app _ _ ha (useEntry_op h2), fun op ho => ?_⟩
    rcases List.mem_append.mp ho with ho | ho
    · exact hn op ho
    · simp only [List.mem_cons, List.not_mem_nil, or_false] at ho
      rcases ho with rfl | rfl <;> exact ⟨fun _ _ hh => (by cases hh), fun _ hh => (by cases hh)⟩
  have get : ∀ (x : Name), NoStrategyChange [Op.measGet x] := by
    intro x op ho
    rw [List.mem_singleton.mp ho]
    exact ⟨fun _ _ hh => (by cases hh), fun _ hh => (by cases hh)⟩
  unfold addPrefixMeasurements at h
  rw [Option.bind_eq_some_iff] at h
  obtain ⟨r, h1, h2⟩ := h
  have hr : ∃ a, run e s a = some r.1 ∧ NoStrategyChange a := by
    by_cases hn : name = []
    · rw [if_pos hn] at h1; cases h1; exact ⟨[], rfl, fun _ hh => (by cases hh)⟩
    · rw [if_neg hn] at h1; exact ⟨_, accGet_op h1, get _⟩
  obtain ⟨a, ha, hna⟩ := hr
  cases hm : r.2 with
  | some m' => rw [hm] at h2; exact use ha hna h2
  | none =>
    rw [hm] at h2
    dsimp only at h2
    rw [Option.bind_eq_some_iff] at h2
    obtain ⟨r', h3, h4⟩ := h2
    rw [Option.bind_eq_some_iff] at h4
    obtain ⟨m', -, h5⟩ := h4
    refine use (run_app _ _ ha (accGet_op h3)) (fun op ho => ?_) h5
    rcases List.mem_append.mp ho with ho | ho
    · exact hna op ho
    · exact get _ op ho

theorem add_name (h : Reachable e d s) {q name m : Name} (ha : addPrefixMeasurements e q name s = some (s', m)) : m = name.dropLast.take 32 ∨ m = name.take 32 := by
  rcases add_spec h q name with ⟨m', s1, hw, -, -, -, hh⟩ | ⟨-, -, hh⟩
  · rw [hh, Option.map_eq_some_iff] at ha
    obtain ⟨_, -, hx⟩ := ha
    cases hx
    rcases hw with ⟨-, -, h⟩ | ⟨-, -, h⟩
    · exact .inl h
    · exact .inr h
  · rw [hh] at ha; cases ha

theorem run_reach (ops : List Op) : ∀ {s s' : Tables}, Reachable e d s → run e s ops = some s' → Reachable e d s' := by
  induction ops with
  | nil => intro s s' h hr; cases hr; exact h
  | cons op ops ih =>
    intro s s' h hr
    rw [run, Option.bind_eq_some_iff] at hr
    obtain ⟨s1, h1, h2⟩ := hr
    exact ih (reachable_step h h1) h2

namespace Access

theorem quiet_run {q : Name} {ty : Nat} {m : Name} (l : List JEv) : ∀ {j j' : Joint}, Reachable e d j.tables → Quiet m l → jrun e q ty j l = some j' →
    (∃ ops, Tb.run e j.tables ops = some j'.tables ∧ NoStrategyChange ops) ∧ look j'.st.mt m = look j.st.mt m := by
  induction l with
  | nil => intro j j' _ _ h; cases h; exact ⟨⟨[], rfl, fun _ hh => (by cases hh)⟩, rfl⟩
  | cons ev l ih =>
    intro j j' hr hq h
    rw [jrun, Option.bind_eq_some_iff] at h
    obtain ⟨j1, h1, h2⟩ := h
    obtain ⟨q1, q2, q3⟩ := hq ev List.mem_cons_self
    have one : (∃ ops, Tb.run e j.tables ops = some j1.tables ∧ NoStrategyChange ops) ∧ look j1.st.mt m = look j.st.mt m := by
      cases ev with
      | table op =>
        simp only [jstep, Option.map_eq_some_iff] at h1
        obtain ⟨s1, h3, rfl⟩ := h1
        refine ⟨⟨[op], by rw [Tb.run, h3]; rfl, fun o ho => ?_⟩, rfl⟩
        rw [List.mem_singleton.mp ho]
        exact ⟨fun p st hh => q1 p st (by rw [hh]), fun p hh => q2 p (by rw [hh])⟩
      | gone f => cases h1; exact ⟨⟨[], rfl, fun _ hh => (by cases hh)⟩, rfl⟩
      | data name f r =>
        simp only [jstep, learn, Option.map_eq_some_iff] at h1
        obtain ⟨⟨s1, m'⟩, h3, rfl⟩ := h1
        obtain ⟨n1, n2⟩ := q3 name f r rfl
        have hne : m ≠ m' := by
          intro hh
          subst hh
          rcases add_name hr h3 with h | h
          · exact n1 h.symm
          · exact n2 h.symm
        refine ⟨add_ops h3, ?_⟩
        dsimp only
        simp only [update, look_put, if_neg hne]
        split
        · rfl
        · rw [look_drop, if_neg hne]
    obtain ⟨⟨a, ha, hna⟩, hl⟩ := one
    obtain ⟨⟨b, hb, hnb⟩, hl2⟩ := ih (run_reach a hr ha) (fun ev he => hq ev (List.mem_cons_of_mem _ he)) h2
    refine ⟨⟨a ++ b, run_app a b ha hb, fun o ho => ?_⟩, hl2.trans hl⟩
    rcases List.mem_append.mp ho with ho | ho
    · exact hna o ho
    · exact hnb o ho

theorem update_last (st : St) (m : Name) (f : FaceId) (r : Nat) : ∃ mi, look (update st m f r).mt m = some mi ∧ mi.lastNexthop = f := by
  simp only [update, look_put, if_pos]
  refine ⟨_, rfl, ?_⟩
  split
  · rfl
  · rename_i hh; exact Decidable.of_not_not hh

/-- **C132.** After Data from a face, an Interest below the prefix of this Data finds that face as the next hop to try, for eight seconds, whatever else happens but a change of
strategies or later Data for this prefix, if no measurements entry has come into being for a longer prefix of the Interest's name. -/
theorem C132_sent (hk : RegistryOk e) {q inst : Name} {ty : Nat} {j j1 j2 : Joint} (h : Reachable e d j.tables) (hq : scAt e j.tables q = some inst) (ht : e.styp inst = some ty)
    (data interest : Name) (face : FaceId) (rtt : Nat) (hc : InCharge e j.tables q data) (hlt : q.length < data.length) (h1 : jstep e q ty j (.data data face rtt) = some j1)
    (l : List JEv) (h2 : jrun e q ty j1 l = some j2) (hl : Quiet (data.dropLast.take 32) l) (hnow : j2.tables.now < j.tables.now + 8000000000)
    (hp : data.dropLast.take 32 <+: interest) (hno : ∀ x, x <+: interest → (measAt e j2.tables x).isSome → x.length ≤ (data.dropLast.take 32).length) :
    ∃ mi, known e q ty j2 interest = some (some mi) ∧ mi.lastNexthop = face := by
  obtain ⟨s1, hs1⟩ := C132_where hk h q data hc
  rw [if_pos hlt] at hs1
  simp only [jstep, learn, hs1, Option.map_some, Option.some.injEq] at h1
  obtain ⟨a, ha, hna⟩ := add_ops hs1
  have hr1 := run_reach a h ha
  subst h1
  obtain ⟨⟨ops, ho, hno'⟩, hlook⟩ := quiet_run l hr1 hl h2
  have hf := C132_found hk h q data interest _ inst ty ops j2.tables hq ht hs1 ho hno' hnow hp hno
  obtain ⟨mi, hm, hface⟩ := update_last (if ((view e j.tables (data.dropLast.take 32)).meas.map (fun x => decide (ty ∈ x.info))).getD false then j.st
    else { j.st with mt := drop j.st.mt (data.dropLast.take 32) }) (data.dropLast.take 32) face rtt
  refine ⟨mi, ?_, hface⟩
  unfold known
  rw [hf, Option.map_some, Option.bind_some, hlook]
  exact congrArg some hm

/-- What the joint model stores is what a history of `Access.run` stores, with the same Data. -/
theorem joint_hist {q : Name} {ty : Nat} (l : List JEv) : ∀ {j j' : Joint} {h : List Ev}, j.st = run {} h → jrun e q ty j l = some j' →
    ∃ h', j'.st = run {} (h ++ h') ∧ ∀ m f r, Ev.data m f r ∈ h' → ∃ name, JEv.data name f r ∈ l := by
  induction l with
  | nil => intro j j' h hj hr; cases hr; exact ⟨[], by simpa using hj, fun _ _ _ hh => (by cases hh)⟩
  | cons ev l ih =>
    intro j j' h hj hr
    rw [jrun, Option.bind_eq_some_iff] at hr
    obtain ⟨j1, h1, h2⟩ := hr
    have one : ∃ g, j1.st = run {} (h ++ g) ∧ ∀ m f r, Ev.data m f r ∈ g → ∃ name, ev = JEv.data name f r := by
      cases ev with
      | table op =>
        simp only [jstep, Option.map_eq_some_iff] at h1
        obtain ⟨s1, h3, rfl⟩ := h1
        exact ⟨[], by simpa using hj, fun _ _ _ hh => (by cases hh)⟩
      | gone f =>
        cases h1
        exact ⟨[.gone f], by rw [run_snoc, ← hj]; rfl, fun _ _ _ hh => (by simp at hh)⟩
      | data name f r =>
        simp only [jstep, learn, Option.map_eq_some_iff] at h1
        obtain ⟨⟨s1, m⟩, h3, rfl⟩ := h1
        dsimp only
        split
        · refine ⟨[.data m f r], by rw [run_snoc, ← hj]; rfl, fun m' f' r' hh => ?_⟩
          have := List.mem_singleton.mp hh
          cases this
          exact ⟨name, rfl⟩
        · refine ⟨[.cleared m, .data m f r], ?_, fun m' f' r' hh => ?_⟩
          · rw [show h ++ [Ev.cleared m, .data m f r] = (h ++ [.cleared m]) ++ [.data m f r] by simp, run_snoc, run_snoc, ← hj]; rfl
          · simp only [List.mem_cons, List.not_mem_nil, or_false, reduceCtorEq, false_or] at hh
            cases hh
            exact ⟨name, rfl⟩
    obtain ⟨g, hg, hg2⟩ := one
    obtain ⟨h', a, b⟩ := ih hg h2
    refine ⟨g ++ h', by rw [← List.append_assoc]; exact a, fun m f r hh => ?_⟩
    rcases List.mem_append.mp hh with hh | hh
    · obtain ⟨name, rfl⟩ := hg2 m f r hh
      exact ⟨name, List.mem_cons_self⟩
    · obtain ⟨name, hn⟩ := b m f r hh
      exact ⟨name, List.mem_cons_of_mem _ hn⟩

/-- **C132.** Whatever an Interest finds was said by Data: Data has come from the next hop it names, and each round-trip time was measured with Data from that next hop. -/
theorem C132_no_other {q : Name} {ty : Nat} (l : List JEv) (j : Joint) (hr : jrun e q ty { tables := s } l = some j) (interest : Name) (mi : Mt)
    (h : known e q ty j interest = some (some mi)) :
    (∃ name r, JEv.data name mi.lastNexthop r ∈ l) ∧ ∀ t ∈ mi.rtt, ∃ name, JEv.data name mi.lastNexthop t ∈ l := by
  obtain ⟨h', a, b⟩ := joint_hist (h := []) l rfl hr
  rw [List.nil_append] at a
  unfold known at h
  rw [Option.map_eq_some_iff] at h
  obtain ⟨r, -, hr2⟩ := h
  rw [Option.bind_eq_some_iff] at hr2
  obtain ⟨m, -, hm⟩ := hr2
  rw [a] at hm
  constructor
  · obtain ⟨before, rtt, after, hx, -⟩ := (C132_last h' m mi.lastNexthop).1 (by rw [hm]; rfl)
    obtain ⟨name, hn⟩ := b m mi.lastNexthop rtt (by rw [hx]; simp)
    exact ⟨name, rtt, hn⟩
  · intro t ht
    obtain ⟨m', hm'⟩ := C132_samples h' m mi hm t ht
    exact b m' _ t hm'

/-- Data from two faces, a removed face and other operations; then Interests for the prefix, and after the end of the eight seconds. -/
def exLearn (l : List JEv) (interest : Name) : Option (Option Mt) :=
  (exRun [.scInsert [gc 1] st2]).bind (fun s => (jrun exEnv [gc 1] 2 { tables := s } l).bind (fun j => known exEnv [gc 1] 2 j interest))

example : exLearn [.data [gc 1, gc 2, gc 3] 256 10, .data [gc 1, gc 2, gc 4] 257 20, .gone 256, .data [gc 1, gc 5, gc 4] 256 30, .table (.tick 7999999999), .table (.measCleanup [gc 1, gc 2])]
    [gc 1, gc 2, gc 9] = some (some { lastNexthop := 257, rtt := [20] }) := by decide +kernel
example : exLearn [.data [gc 1, gc 2, gc 3] 256 10, .table (.tick 8000000000), .table (.measCleanup [gc 1, gc 2])] [gc 1, gc 2, gc 9] = some none := by decide +kernel
/-- A new entry starts without the old next hop and samples. -/
example : exLearn [.data [gc 1, gc 2, gc 3] 256 10, .gone 256, .table (.tick 8000000000), .table (.measCleanup [gc 1, gc 2]), .data [gc 1, gc 2, gc 3] 256 40] [gc 1, gc 2, gc 9] =
    some (some { lastNexthop := 256, rtt := [40] }) := by decide +kernel

end Access
end Verif.Tb
