import Verif.Tables.AccessorLemmas

/-! Properties C116 (strategies do not see each other's measurements) and C117 (which measurements the ASF strategy uses). -/
namespace Verif.Tb

variable {e : Env} {d : Name} {s s' : Tables}

/-! ### C116: strategies are kept apart -/

/-- **C116.** A strategy that asks for the measurements of a name gets the entry of (the first 32 components of) the name exactly when it is the strategy in
charge of the name; otherwise it gets nothing. The question is always answered. -/
theorem C116_get (h : Reachable e d s) (q name : Name) :
    ∃ s' r, accGet e s q name = some (s', r) ∧ ∀ m, r = some m ↔ InCharge e s q name ∧ m = name.take 32 := by
  obtain ⟨s', r, h1, h2, -⟩ := accGet_spec h q name
  exact ⟨s', r, h1, h2⟩

/-- **C116.** The same for the measurements of a FIB entry (the entry of the default FIB entry is the one of the root). -/
theorem C116_getFib (hk : RegistryOk e) (h : Reachable e d s) (q p : Name) (hp : (fibAt e s p).isSome ∨ p = []) :
    ∃ s' r, accGetFib e s q p = some (s', r) ∧ ∀ m, r = some m ↔ InCharge e s q p ∧ m = p := by
  obtain ⟨s', r, h1, h2, -⟩ := accGetFib_spec hk h q hp
  exact ⟨s', r, h1, h2⟩

/-- **C116.** The same for the parent of an entry; the root has none. -/
theorem C116_getParent (hk : RegistryOk e) (h : Reachable e d s) (q n : Name) (hn : (measAt e s n).isSome) :
    ∃ s' r, accGetParent e s q n = some (s', r) ∧ ∀ m, r = some m ↔ n ≠ [] ∧ InCharge e s q n.dropLast ∧ m = n.dropLast := by
  obtain ⟨s', h1⟩ := C71_contracts_suffice hk h (.measGetParent n) hn
  have hr := reachable_step h h1
  have h1 : measGetParent e s n = some s' := h1
  unfold accGetParent
  rw [h1, Option.bind_some]
  rcases measGetParent_fwd h.inv.tree h1 with ⟨h2, -⟩ | ⟨h2, hg⟩
  · rw [if_pos h2]
    exact ⟨_, _, rfl, fun m => ⟨fun hm => (by cases hm), fun hm => absurd h2 hm.1⟩⟩
  · rw [if_neg h2]
    obtain ⟨r, h3, h4⟩ := got_filter h q _ hr hg
    rw [h3]
    exact ⟨_, _, rfl, fun m => by rw [h4]; exact ⟨fun hm => ⟨h2, hm⟩, fun hm => hm.2⟩⟩

/-- **C116.** A search for the longest entry satisfying a predicate gives this entry exactly when the strategy is in charge of it. -/
theorem C116_lpm (h : Reachable e d s) (q : Name) (pred : MeasEntry → Bool) (name : Name) :
    ∃ r, accLpm e s q (fun _ => pred) name = some r ∧
      ∀ m, r = some m ↔ InCharge e s q m ∧ LongestPrefix (fun n => ∃ x, measAt e s n = some x ∧ pred x = true) name m := by
  unfold accLpm
  rcases measLpm_spec h pred name with ⟨n, h1, h2⟩ | ⟨h1, h2⟩
  · rw [h1]
    obtain ⟨x, hx, -⟩ := h2.2.1
    simp only
    rcases filter_spec h q (n := n) (by rw [hx]; rfl) with ⟨h3, h4⟩ | ⟨h3, h4⟩
    · exact ⟨_, h4, fun m => ⟨fun hm => by cases hm; exact ⟨h3, h2⟩, fun hm => by rw [LongestPrefix.unique hm.2 h2]⟩⟩
    · exact ⟨_, h4, fun m => ⟨fun hm => (by cases hm), fun hm => absurd (LongestPrefix.unique hm.2 h2 ▸ hm.1) h3⟩⟩
  · rw [h1]
    exact ⟨_, rfl, fun m => ⟨fun hm => (by cases hm), fun hm => absurd hm.2.2.1 (h2 m hm.2.1)⟩⟩

/-- **C116.** No entry is given to two strategies. -/
theorem C116_apart (h : Reachable e d s) (q q' name name' : Name) (s1 s2 : Tables) (m : Name)
    (h1 : accGet e s q name = some (s1, some m)) (h2 : accGet e s q' name' = some (s2, some m)) : q = q' := by
  obtain ⟨_, _, h3, h4⟩ := C116_get h q name
  obtain ⟨_, _, h5, h6⟩ := C116_get h q' name'
  rw [h1] at h3; cases h3
  rw [h2] at h5; cases h5
  obtain ⟨a1, a2⟩ := (h4 m).1 rfl
  obtain ⟨b1, b2⟩ := (h6 m).1 rfl
  rw [inCharge_take h, ← a2] at a1
  rw [inCharge_take h, ← b2] at b1
  exact a1.unique b1

/-- **C116.** Whatever a strategy finds stored on an entry it is given was stored by a strategy of its own type. -/
theorem C116_info (h : Reachable e d s) (q name m : Name) (x : MeasEntry) (h1 : accGet e s q name = some (s', some m))
    (hx : measAt e s' m = some x) : ∀ t ∈ x.info, ∃ inst, scAt e s q = some inst ∧ e.styp inst = some t := by
  obtain ⟨_, _, h2, h3, h4, h5⟩ := accGet_spec h q name
  rw [h1] at h2; cases h2
  obtain ⟨a1, a2⟩ := (h3 m).1 rfl
  intro t ht
  have := C22_measurements_owner h5 m x hx t ht
  obtain ⟨-, q', inst, b1, b2, b3⟩ := C21_effective h5 m
  rw [inCharge_take h, ← a2] at a1
  have hq : q' = q := InCharge.unique (s := s') b3 ((inCharge_congr (grown_got h4).1).2 a1)
  subst hq
  unfold effTyp at this
  rw [b1] at this
  exact ⟨inst, by rw [← (grown_got h4).1]; exact b2, this⟩

/-- The strategy for /1 (type 2) and the default one (type 1), a route for /1/2. -/
def accState : Option Tables := exRun [.scInsert [gc 1] st2, .fibInsert [gc 1, gc 2], .fibSet [gc 1, gc 2] 7 1]

/-- The strategy at /1 gets the entry of /1/2/3, the default strategy does not. -/
example : (accState.bind (fun s => accGet exEnv s [gc 1] [gc 1, gc 2, gc 3])).map Prod.snd = some (some [gc 1, gc 2, gc 3]) := by decide +kernel
example : (accState.bind (fun s => accGet exEnv s [] [gc 1, gc 2, gc 3])).map Prod.snd = some none := by decide +kernel
/-- The parent of /1 belongs to the default strategy. -/
example : (accState.bind (fun s => (accGet exEnv s [gc 1] [gc 1]).bind (fun r => accGetParent exEnv r.1 [gc 1] [gc 1]))).map Prod.snd = some none := by
  decide +kernel
example : (accState.bind (fun s => accGetFib exEnv s [gc 1] [gc 1, gc 2])).map Prod.snd = some (some [gc 1, gc 2]) := by decide +kernel
/-- Information that the strategy has stored is found. -/
example : (accState.bind (fun s => (accGet exEnv s [gc 1] [gc 1, gc 2]).bind (fun r => (measWrite exEnv r.1 [gc 1, gc 2]).bind (fun s =>
    (accGet exEnv s [gc 1] [gc 1, gc 2]).map (fun r => ((measAt exEnv r.1 [gc 1, gc 2]).map (·.info), r.2)))))) =
    some (some [2], some [gc 1, gc 2]) := by decide +kernel

/-! ### C117: the measurements of the ASF strategy -/

/-- Without a forwarding hint (the FIB entry is a prefix of the name), the information is kept at the longer of the FIB prefix and the prefix of the strategy. -/
theorem C117_found (hk : RegistryOk e) (h : Reachable e d s) (lifetime : Time) (q p name : Name) (hp : (fibAt e s p).isSome ∨ p = [])
    (hc : InCharge e s q name) (hn : p <+: name) :
    ∃ s', getOrCreateNamespaceInfo e lifetime q p name s = some (s', if q.length ≤ p.length then p else q) := by
  rcases getOrCreate_spec hk h lifetime hp hc with ⟨m, s1, hm, h1, -, h2, h3⟩ | ⟨h1, h2, -⟩
  · obtain ⟨_, s2, -, -, h4, -⟩ := useEntry_spec hk h1 lifetime h2
    have hm : m = if q.length ≤ p.length then p else q := by
      rcases hm with ⟨a, rfl⟩ | ⟨a, b, rfl⟩
      · rw [if_pos a.1.length_le]
      · have hl : ¬ q.length ≤ p.length := fun hl => a (inCharge_prefix hc hn (List.prefix_of_prefix_length_le hc.1 hn hl))
        rw [if_neg hl, Nat.max_eq_right (by omega), ← List.prefix_iff_eq_take.1 hc.1, List.take_of_length_le (sc_depth h hc.2.1)]
    rw [h3, h4, hm]
    exact ⟨s2, rfl⟩
  · have hq := hc.1.length_le
    have : p = name := hn.eq_of_length_le h2
    subst this
    exact absurd hc h1

/-- With a forwarding hint, the FIB entry need not be a prefix of the name. The strategy then goes through exactly when it is in charge of the FIB entry's
prefix or the name is longer than this prefix. Otherwise the assertion fails (or a null pointer is used). -/
theorem C117_hint (hk : RegistryOk e) (h : Reachable e d s) (lifetime : Time) (q p name : Name) (hp : (fibAt e s p).isSome ∨ p = [])
    (hc : InCharge e s q name) :
    (getOrCreateNamespaceInfo e lifetime q p name s).isSome ↔ InCharge e s q p ∨ p.length < name.length := by
  rcases getOrCreate_spec hk h lifetime hp hc with ⟨m, s1, hm, h1, -, h2, h3⟩ | ⟨h1, h2, h3⟩
  · obtain ⟨_, s2, -, -, h4, -⟩ := useEntry_spec hk h1 lifetime h2
    rw [h3, h4]
    refine ⟨fun _ => ?_, fun _ => rfl⟩
    rcases hm with ⟨a, -⟩ | ⟨-, b, -⟩
    · exact .inl a
    · exact .inr b
  · rw [h3]
    refine ⟨fun hh => (by cases hh), fun hh => ?_⟩
    rcases hh with hh | hh
    · exact absurd hh h1
    · omega

/-- **The code breaks the property that no Interest stops the forwarder.** ASF is the strategy for /1 only, there is a route for /5/6, and an Interest named /1/2
with the forwarding hint /5/6 arrives: no measurements entry is found. -/
theorem C117_crash : ∃ s, exRun [.scInsert [gc 1] st2, .fibInsert [gc 5, gc 6], .fibSet [gc 5, gc 6] 7 1] = some s ∧
    (fibAt exEnv s [gc 5, gc 6]).isSome ∧ InCharge exEnv s [gc 1] [gc 1, gc 2] ∧
    ∀ lifetime, getOrCreateNamespaceInfo exEnv lifetime [gc 1] [gc 5, gc 6] [gc 1, gc 2] s = none := by
  have hrun : (exRun [.scInsert [gc 1] st2, .fibInsert [gc 5, gc 6], .fibSet [gc 5, gc 6] 7 1]).isSome := by decide +kernel
  obtain ⟨s, hs⟩ := Option.isSome_iff_exists.1 hrun
  have hf : (exRun [.scInsert [gc 1] st2, .fibInsert [gc 5, gc 6], .fibSet [gc 5, gc 6] 7 1]).all (fun s =>
      (fibAt exEnv s [gc 5, gc 6]).isSome && (scAt exEnv s [gc 1]).isSome && !(scAt exEnv s [gc 1, gc 2]).isSome &&
      !(scAt exEnv s [gc 5, gc 6]).isSome) = true := by decide +kernel
  rw [hs] at hf
  simp only [Option.all_some, Bool.and_eq_true, Bool.not_eq_true'] at hf
  obtain ⟨⟨⟨f1, f2⟩, f3⟩, f4⟩ := hf
  have hc : InCharge exEnv s [gc 1] [gc 1, gc 2] := by
    refine ⟨⟨[gc 2], rfl⟩, f2, fun x hx hA => ?_⟩
    have := hx.length_le
    rcases Nat.lt_or_ge x.length 2 with hl | hl
    · simp; omega
    · rw [hx.eq_of_length_le hl, f3] at hA
      cases hA
  refine ⟨s, hs, f1, hc, fun lifetime => ?_⟩
  have := C117_hint exRegistry (exRun_reachable hs) lifetime [gc 1] [gc 5, gc 6] [gc 1, gc 2] (.inl f1) hc
  cases hg : getOrCreateNamespaceInfo exEnv lifetime [gc 1] [gc 5, gc 6] [gc 1, gc 2] s with
  | none => rfl
  | some r =>
    rw [hg] at this
    rcases this.1 rfl with hh | hh
    · have := hh.1
      have hne : ¬ [gc 1] <+: [gc 5, gc 6] := by decide
      exact absurd this hne
    · exact absurd hh (by decide)

/-- What Data, Nacks and timeouts are recorded on: the longest entry that is a prefix of the Interest's name, if the strategy is in charge of it. -/
theorem C117_lookup (hk : RegistryOk e) (h : Reachable e d s) (lifetime : Time) (q name : Name) :
    ∃ s' r, getNamespaceInfo e lifetime q name s = some (s', r) ∧
      ∀ m, r = some m ↔ InCharge e s q m ∧ LongestPrefix (fun n => (measAt e s n).isSome) name m := by
  obtain ⟨r, h1, h2⟩ := C116_lpm h q (fun _ => true) name
  have h3 : ∀ m, r = some m ↔ InCharge e s q m ∧ LongestPrefix (fun n => (measAt e s n).isSome) name m := by
    intro m
    rw [h2]
    refine and_congr Iff.rfl ⟨fun hh => hh.congr ?_, fun hh => hh.congr ?_⟩ <;> intro n <;> cases measAt e s n <;> simp
  unfold getNamespaceInfo
  rw [h1, Option.bind_some]
  cases hr : r with
  | none => exact ⟨_, _, rfl, fun m => by rw [← h3, hr]⟩
  | some m =>
    obtain ⟨_, s2, -, -, h4, -⟩ := useEntry_spec hk h lifetime ((h3 m).1 hr).2.2.1
    simp only
    rw [h4]
    exact ⟨_, _, rfl, fun m' => by rw [← h3, hr]⟩

/-- Data, Nacks and timeouts are recorded where the forwarding decision looked, for as long as the lifetime of the measurements, whatever happens in between: if the
strategy is still in charge and no measurements entry for a longer prefix of the name exists at that time. The last condition is not met in general (`C117_stale`). -/
theorem C117_same_partial (hk : RegistryOk e) (h : Reachable e d s) (lifetime : Time) (q p name m : Name) (ops : List Op) (s2 : Tables)
    (hp : (fibAt e s p).isSome ∨ p = []) (hc : InCharge e s q name) (hn : p <+: name)
    (h1 : getOrCreateNamespaceInfo e lifetime q p name s = some (s', m)) (hrun : run e s' ops = some s2) (hnow : s2.now < s.now + lifetime)
    (hc2 : InCharge e s2 q name) (hno : ∀ x, x <+: name → (measAt e s2 x).isSome → x.length ≤ m.length) :
    ∃ s3, getNamespaceInfo e lifetime q name s2 = some (s3, some m) := by
  obtain ⟨_, h2⟩ := C117_found hk h lifetime q p name hp hc hn
  rw [h1] at h2
  simp only [Option.some.injEq, Prod.mk.injEq] at h2
  obtain ⟨-, hm⟩ := h2
  have hmn : m <+: name ∧ q <+: m := by
    rw [hm]
    split
    · rename_i hl; exact ⟨hn, List.prefix_of_prefix_length_le hc.1 hn hl⟩
    · exact ⟨hc.1, List.prefix_refl q⟩
  rcases getOrCreate_spec hk h lifetime hp hc with ⟨m', s1, -, hr1, hg, hm1, h3⟩ | ⟨-, -, h3⟩
  · obtain ⟨sa, sb, h4, h5, h6, hr2⟩ := useEntry_spec hk hr1 lifetime hm1
    rw [h3, h6] at h1
    simp only [Option.map_some, Option.some.injEq, Prod.mk.injEq] at h1
    obtain ⟨rfl, rfl⟩ := h1
    have hall : run e s1 (.measExtend m' lifetime :: .measWrite m' :: ops) = some s2 := by
      rw [run, h4, Option.bind_some, run, h5, Option.bind_some]; exact hrun
    obtain ⟨x, hx, -⟩ := C23_extend_guarantee hr1 m' lifetime _ hall (by rw [hg.2.2]; exact hnow)
    have hr3 : Reachable e d s2 := by
      clear hall hx hno hc2 hnow h3 h6 h5 h4
      revert sb
      induction ops with
      | nil => intro sb hr2 hh; cases hh; exact hr2
      | cons o ops ih =>
        intro sb hr2 hh
        rw [run, Option.bind_eq_some_iff] at hh
        obtain ⟨sc, h7, h8⟩ := hh
        exact ih sc (reachable_step hr2 h7) h8
    obtain ⟨s3, r, h7, h8⟩ := C117_lookup hk hr3 lifetime q name
    have := (h8 m').2 ⟨inCharge_prefix hc2 hmn.1 hmn.2, hmn.1, (by show (measAt e s2 m').isSome = true; rw [hx]; rfl), hno⟩
    rw [this] at h7
    exact ⟨s3, h7⟩
  · rw [h3] at h1; cases h1

/-- With a forwarding hint, nothing is ever recorded where the forwarding decision looks: if the strategy is in charge of the FIB entry's prefix, decisions use the
entry of this prefix, and later lookups by name never return it. -/
theorem C117_hint_unmeasured (hk : RegistryOk e) (h : Reachable e d s) (lifetime : Time) (q p name : Name) (hp : (fibAt e s p).isSome ∨ p = [])
    (hc : InCharge e s q name) (hi : InCharge e s q p) (hn : ¬ p <+: name) :
    (∃ s', getOrCreateNamespaceInfo e lifetime q p name s = some (s', p)) ∧
    ∀ s2, Reachable e d s2 → ∀ s3, getNamespaceInfo e lifetime q name s2 ≠ some (s3, some p) := by
  refine ⟨?_, fun s2 hr s3 h1 => ?_⟩
  · rcases getOrCreate_spec hk h lifetime hp hc with ⟨m, s1, hm, h1, -, h2, h3⟩ | ⟨h1, -, -⟩
    · obtain ⟨_, s2, -, -, h4, -⟩ := useEntry_spec hk h1 lifetime h2
      rcases hm with ⟨-, rfl⟩ | ⟨a, -, -⟩
      · rw [h3, h4]; exact ⟨s2, rfl⟩
      · exact absurd hi a
    · exact absurd hi h1
  · obtain ⟨_, r, h2, h3⟩ := C117_lookup hk hr lifetime q name
    rw [h1] at h2
    cases h2
    exact hn ((h3 p).1 rfl).2.1

/-- The event that makes ASF probe looks up the information by the prefix of the FIB entry (asf-probing-module.cpp:51-60). If the route is for a shorter prefix than
the strategy, it finds nothing, in any state: ASF never probes there, although decisions do find their information (at the prefix of the strategy). -/
theorem C117_never_probed (hk : RegistryOk e) (h : Reachable e d s) (lifetime : Time) (q p name : Name) (hp : (fibAt e s p).isSome ∨ p = [])
    (hc : InCharge e s q name) (hn : p <+: name) (hl : p.length < q.length) :
    (∃ s', getOrCreateNamespaceInfo e lifetime q p name s = some (s', q)) ∧
    ∀ s2, Reachable e d s2 → ∃ s3, getNamespaceInfo e lifetime q p s2 = some (s3, none) := by
  refine ⟨?_, fun s2 hr => ?_⟩
  · have := C117_found hk h lifetime q p name hp hc hn
    rwa [if_neg (by omega)] at this
  · obtain ⟨s3, r, h1, h2⟩ := C117_lookup hk hr lifetime q p
    cases hr : r with
    | none => rw [hr] at h1; exact ⟨s3, h1⟩
    | some m =>
      obtain ⟨a, b⟩ := (h2 m).1 hr
      have h3 := a.1.length_le
      have h4 := b.1.length_le
      omega

/-- The route for /1/2 is removed while its measurements entry exists; the route for /1 is used from then on. -/
def staleOps : List Op := [.scInsert [gc 1] st2, .fibInsert [gc 1], .fibSet [gc 1] 7 1, .fibInsert [gc 1, gc 2], .fibSet [gc 1, gc 2] 8 1, .measGet [gc 1, gc 2],
  .fibErase [gc 1, gc 2]]

/-- **The condition of `C117_same_partial` fails in practice**: the decision for an Interest /1/2/3 looks at the entry of /1, and what comes back is recorded at
/1/2 (whose lifetime each such lookup extends). -/
theorem C117_stale :
    ((exRun staleOps).bind (fun s => (getOrCreateNamespaceInfo exEnv 8 [gc 1] [gc 1] [gc 1, gc 2, gc 3] s).bind (fun r =>
      (getNamespaceInfo exEnv 8 [gc 1] [gc 1, gc 2, gc 3] r.1).map (fun r' => (r.2, r'.2))))) = some ([gc 1], some [gc 1, gc 2]) := by
  decide +kernel

/-- The hypotheses of `C117_found`, `C117_same_partial` are met by an Interest /1/2/3 with a route for /1/2 and the strategy at /1. -/
example : (accState.bind (fun s => (getOrCreateNamespaceInfo exEnv 8 [gc 1] [gc 1, gc 2] [gc 1, gc 2, gc 3] s).bind (fun r =>
    (run exEnv r.1 [.tick 5]).bind (fun s => (getNamespaceInfo exEnv 8 [gc 1] [gc 1, gc 2, gc 3] s).map (fun r' => (r.2, r'.2)))))) =
    some ([gc 1, gc 2], some [gc 1, gc 2]) := by decide +kernel
/-- No route: the default FIB entry, and the information is at the prefix of the strategy. -/
example : (accState.bind (fun s => getOrCreateNamespaceInfo exEnv 8 [gc 1] [] [gc 1, gc 9] s)).map Prod.snd = some [gc 1] := by decide +kernel
/-- The route is for /1 and the strategy for /1/2 (`C117_never_probed`). -/
example : ((exRun [.scInsert [gc 1, gc 2] st2, .fibInsert [gc 1], .fibSet [gc 1] 7 1]).bind (fun s =>
    (getOrCreateNamespaceInfo exEnv 8 [gc 1, gc 2] [gc 1] [gc 1, gc 2, gc 3] s).bind (fun r =>
    (getNamespaceInfo exEnv 8 [gc 1, gc 2] [gc 1] r.1).map (fun r' => (r.2, r'.2))))) = some ([gc 1, gc 2], none) := by decide +kernel
/-- A hint in the namespace of the strategy (`C117_hint_unmeasured`): the decision looks at /1/2, the lookup for /1/9 finds nothing. -/
example : (accState.bind (fun s => (getOrCreateNamespaceInfo exEnv 8 [gc 1] [gc 1, gc 2] [gc 1, gc 9] s).bind (fun r =>
    (getNamespaceInfo exEnv 8 [gc 1] [gc 1, gc 9] r.1).map (fun r' => (r.2, r'.2))))) = some ([gc 1, gc 2], none) := by decide +kernel

end Verif.Tb
