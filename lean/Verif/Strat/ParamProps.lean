import Verif.Strat.NamesProps

/-
C83: parameters in strategy instance names.
-/
namespace Verif.Strat

open Std

/-! ### Specification -/

/-- A component that gives the parameter `k` the value `v`: `k~v`, where neither is empty and `k` has no `~` (126). -/
def Gives (c : Component) (k v : List Byte) : Prop := c.val = k ++ 126 :: v ∧ k ≠ [] ∧ v ≠ [] ∧ (126 : Byte) ∉ k

/-- The last component that gives `k` a value gives it `v`. -/
def LastGives (params : Name) (k v : List Byte) : Prop :=
  ∃ l1 c l2, params = l1 ++ c :: l2 ∧ Gives c k v ∧ ∀ c' ∈ l2, ∀ v', ¬ Gives c' k v'

/-! ### Lemmas -/

theorem gives_unique {c : Component} {k v k' v' : List Byte} (h : Gives c k v) (h' : Gives c k' v') : k = k' ∧ v = v' := by
  obtain ⟨h1, _, h3, h4⟩ := h
  obtain ⟨h1', _, h3', h4'⟩ := h'
  rw [h1] at h1'
  clear h1 h3 h3'
  rename_i a b
  clear a b
  induction k generalizing k' with
  | nil =>
    cases k' with
    | nil => simpa using h1'
    | cons a l => simp only [List.nil_append, List.cons_append, List.cons.injEq] at h1'; exact absurd (by rw [← h1'.1]; exact List.mem_cons_self) h4'
  | cons b m ih =>
    cases k' with
    | nil => simp only [List.nil_append, List.cons_append, List.cons.injEq] at h1'; exact absurd (by rw [h1'.1]; exact List.mem_cons_self) h4
    | cons a l =>
      simp only [List.cons_append, List.cons.injEq] at h1'
      obtain ⟨e1, e2⟩ := ih (fun h => h4 (List.mem_cons_of_mem _ h)) h1'.2 (fun h => h4' (List.mem_cons_of_mem _ h))
      exact ⟨by rw [h1'.1, e1], e2⟩

theorem parseParam_iff {c : Component} {k v : List Byte} : parseParam c = some (k, v) ↔ Gives c k v := by
  unfold parseParam
  constructor
  · intro h
    split at h
    · cases h
    · rename_i i hi
      split at h
      · cases h
      · rename_i hn
        simp only [Option.some.injEq, Prod.mk.injEq] at h
        obtain ⟨rfl, rfl⟩ := h
        rw [List.findIdx?_eq_some_iff_getElem] at hi
        obtain ⟨hlt, hat, hbefore⟩ := hi
        have hat' : c.val[i] = 126 := by simpa using hat
        refine ⟨?_, ?_, fun h => hn (.inr h), ?_⟩
        · rw [← hat', List.getElem_cons_drop, List.take_append_drop]
        · intro h
          rcases List.take_eq_nil_iff.1 h with h | h
          · exact hn (.inl h)
          · rw [h] at hlt; simp at hlt
        · intro hm
          obtain ⟨j, hj, hj'⟩ := List.getElem_of_mem hm
          rw [List.length_take] at hj
          have hji : j < i := by omega
          have := hbefore j hji
          rw [List.getElem_take] at hj'
          simp [hj'] at this
  · rintro ⟨h1, h2, h3, h4⟩
    have hi : c.val.findIdx? (· == 126) = some k.length := by
      rw [List.findIdx?_eq_some_iff_getElem]
      refine ⟨by rw [h1]; simp, by simp [h1], ?_⟩
      intro j hj hc
      have : c.val[j]'(by rw [h1]; simp; omega) = k[j] := by
        simp only [h1]
        rw [List.getElem_append_left hj]
      rw [this] at hc
      exact h4 (by have := List.getElem_mem hj; rwa [show k[j] = 126 by simpa using hc] at this)
    rw [hi]
    simp only
    rw [if_neg]
    · simp [h1]
    · rintro (h | h)
      · exact h2 (List.length_eq_zero_iff.1 h)
      · apply h3
        rw [h1] at h
        simpa using h

theorem parseParam_isSome {c : Component} : (∃ k v, Gives c k v) ↔ parseParam c ≠ none := by
  constructor
  · rintro ⟨k, v, h⟩
    rw [parseParam_iff.2 h]
    intro h; cases h
  · intro h
    cases hp : parseParam c with
    | none => exact absurd hp h
    | some x => exact ⟨x.1, x.2, parseParam_iff.1 hp⟩

theorem parseParameters_some {params : Name} : (∃ l, parseParameters params = some l) ↔ ∀ c ∈ params, ∃ k v, Gives c k v := by
  induction params with
  | nil => simp [parseParameters]
  | cons c cs ih =>
    simp only [parseParameters, List.mem_cons, forall_eq_or_imp, ← ih, Option.bind_eq_some_iff, Option.map_eq_some_iff]
    constructor
    · rintro ⟨l, p, hp, r, hr, _⟩
      exact ⟨⟨p.1, p.2, parseParam_iff.1 hp⟩, r, hr⟩
    · rintro ⟨⟨k, v, hg⟩, r, hr⟩
      exact ⟨_, (k, v), parseParam_iff.2 hg, r, hr, rfl⟩

theorem lastGives_cons {c : Component} {cs : Name} {k v : List Byte} :
    LastGives (c :: cs) k v ↔ LastGives cs k v ∨ (Gives c k v ∧ ∀ c' ∈ cs, ∀ v', ¬ Gives c' k v') := by
  constructor
  · rintro ⟨l1, c', l2, h1, h2, h3⟩
    cases l1 with
    | nil =>
      simp only [List.nil_append, List.cons.injEq] at h1
      obtain ⟨rfl, rfl⟩ := h1
      exact .inr ⟨h2, h3⟩
    | cons a l1 =>
      simp only [List.cons_append, List.cons.injEq] at h1
      exact .inl ⟨l1, c', l2, h1.2, h2, h3⟩
  · rintro (⟨l1, c', l2, h1, h2, h3⟩ | ⟨h1, h2⟩)
    · exact ⟨c :: l1, c', l2, by rw [h1]; rfl, h2, h3⟩
    · exact ⟨[], c, cs, rfl, h1, h2⟩

theorem parseParameters_mem {params : Name} {l : List (List Byte × List Byte)} (h : parseParameters params = some l) (k v : List Byte) :
    (k, v) ∈ l ↔ LastGives params k v := by
  induction params generalizing l k v with
  | nil =>
    simp only [parseParameters, Option.some.injEq] at h
    subst h
    simp [LastGives]
  | cons c cs ih =>
    simp only [parseParameters, Option.bind_eq_some_iff, Option.map_eq_some_iff] at h
    obtain ⟨⟨pk, pv⟩, hp, r, hr, rfl⟩ := h
    have hg := parseParam_iff.1 hp
    have this := fun k v => ih hr k v
    rw [lastGives_cons, ← this]
    -- a parameter of the rest is given by a component of the rest
    have hex : (∃ x, (pk, x) ∈ r) ↔ ∃ c' ∈ cs, ∃ v', Gives c' pk v' := by
      constructor
      · rintro ⟨x, hx⟩
        obtain ⟨l1, c', l2, rfl, hg', _⟩ := (this pk x).1 hx
        exact ⟨c', by simp, x, hg'⟩
      · clear ih hg hp this
        rintro ⟨c', hc, v', hg'⟩
        induction cs generalizing r with
        | nil => cases hc
        | cons d ds ih2 =>
          simp only [parseParameters, Option.bind_eq_some_iff, Option.map_eq_some_iff] at hr
          obtain ⟨⟨qk, qv⟩, hq, r', hr', rfl⟩ := hr
          rcases List.mem_cons.1 hc with rfl | hc
          · have e := (gives_unique hg' (parseParam_iff.1 hq)).1
            split
            · rename_i ha
              rw [List.any_eq_true] at ha
              obtain ⟨⟨a, b⟩, h1, h2⟩ := ha
              have : a = qk := by simpa using h2
              subst this
              exact ⟨b, by rw [e]; exact h1⟩
            · exact ⟨qv, by rw [e]; exact List.mem_cons_self⟩
          · obtain ⟨x, hx⟩ := ih2 r' hr' hc
            split
            · exact ⟨x, hx⟩
            · exact ⟨x, List.mem_cons_of_mem _ hx⟩
    split
    · rename_i ha
      rw [List.any_eq_true] at ha
      obtain ⟨⟨a, b⟩, h1, h2⟩ := ha
      have : a = pk := by simpa using h2
      subst this
      constructor
      · exact .inl
      · rintro (h | ⟨h3, h4⟩)
        · exact h
        · obtain ⟨rfl, rfl⟩ := gives_unique h3 hg
          obtain ⟨c', h5, v', h6⟩ := hex.1 ⟨b, h1⟩
          exact absurd h6 (h4 c' h5 v')
    · rename_i ha
      rw [List.mem_cons]
      constructor
      · rintro (h | h)
        · cases h
          refine .inr ⟨hg, ?_⟩
          intro c' h5 v' h6
          obtain ⟨x, hx⟩ := hex.2 ⟨c', h5, v', h6⟩
          apply ha
          rw [List.any_eq_true]
          exact ⟨_, hx, by simp⟩
        · exact .inl h
      · rintro (h | ⟨h3, h4⟩)
        · exact .inr h
        · obtain ⟨rfl, rfl⟩ := gives_unique h3 hg
          exact .inl rfl

/-! ### C83 -/

/-- The parameters of a name are accepted by the parser exactly if every component gives one; then the parameters are those that are given,
and if one is given several times its last value counts. -/
theorem C83_parameters (params : Name) :
    ((∃ l, parseParameters params = some l) ↔ ∀ c ∈ params, ∃ k v, Gives c k v) ∧
    ∀ l, parseParameters params = some l → ∀ k v, (k, v) ∈ l ↔ LastGives params k v :=
  ⟨parseParameters_some, fun _ h k v => parseParameters_mem h k v⟩

/-- A strategy that takes no parameters is instantiated only by a name without parameters. A strategy that takes some is instantiated only
if every component after the version gives one, and it accepts them. -/
theorem C83_create {ctors : Name → Ctor} {reg : Registry} {inst r m : Name} (h : create ctors reg inst = .instance r m) :
    match (ctors r).params with
    | none => (parseInstanceName inst).params = []
    | some ok => (∀ c ∈ (parseInstanceName inst).params, ∃ k v, Gives c k v) ∧
        ∃ l, ok l = true ∧ ∀ k v, (k, v) ∈ l ↔ LastGives (parseInstanceName inst).params k v := by
  unfold create at h
  split at h
  · cases h
  · rename_i r' hr'
    simp only at h
    split at h
    · cases h
    · split at h
      · cases h
      · split at h
        · rename_i hc
          split at h
          · simp only [Created.instance.injEq] at h
            obtain ⟨rfl, _⟩ := h
            rw [hc]
            assumption
          · cases h
        · rename_i ok hc
          split at h
          · cases h
          · rename_i ps hps
            split at h
            · rename_i hok
              simp only [Created.instance.injEq] at h
              obtain ⟨rfl, _⟩ := h
              rw [hc]
              exact ⟨parseParameters_some.1 ⟨ps, hps⟩, ps, hok, fun k v => parseParameters_mem hps k v⟩
            · cases h

/-- What follows the version in an instance name are its parameters. -/
theorem C83_params_of_name {base params : Name} {v : Component} (hb : base ≠ []) (hv : isVersion v = true)
    (hp : ∀ c ∈ params, isVersion c = false) : (parseInstanceName (base ++ v :: params)).params = params := by
  rw [parse_versioned hb hv hp]

theorem insertSorted_notMem {n : Name} {reg reg' : Registry} (hs : Sorted reg) (h : insertSorted n reg = some reg') : n ∉ reg := by
  induction reg generalizing reg' with
  | nil => simp
  | cons r l ih =>
    replace hs := List.pairwise_cons.1 hs
    unfold insertSorted at h
    split at h
    · rename_i hlt
      intro hm
      rcases List.mem_cons.1 hm with rfl | hm
      · rw [ReflCmp.compare_self (cmp := Name.cmp)] at hlt; cases hlt
      · have := TransCmp.lt_trans hlt (hs.1 n hm)
        rw [ReflCmp.compare_self (cmp := Name.cmp)] at this; cases this
    · cases h
    · rename_i hgt
      rw [Option.map_eq_some_iff] at h
      obtain ⟨x, hx, _⟩ := h
      intro hm
      rcases List.mem_cons.1 hm with rfl | hm
      · rw [ReflCmp.compare_self (cmp := Name.cmp)] at hgt; cases hgt
      · exact ih hs.2 hx hm

/-- Only names that end with a version are registered, and none twice. -/
theorem C83_registered {names : List Name} {reg : Registry} (h : registerAll [] names = some reg) :
    names.Nodup ∧ ∀ n ∈ names, 1 < n.length ∧ ∃ v, n.getLast? = some v ∧ isVersion v = true := by
  have key : ∀ (names : List Name) (reg reg' : Registry), reg.Pairwise (fun a b => Name.cmp a b = .lt) → registerAll reg names = some reg' →
      (names.Nodup ∧ ∀ n ∈ names, n ∉ reg) ∧ ∀ n ∈ names, 1 < n.length ∧ ∃ v, n.getLast? = some v ∧ isVersion v = true := by
    intro names
    induction names with
    | nil => intro reg reg' _ _; simp
    | cons n l ih =>
      intro reg reg' hs h
      simp only [registerAll, Option.bind_eq_some_iff] at h
      obtain ⟨reg1, h1, h2⟩ := h
      have hreg1 : registerAll reg [n] = some reg1 := by simp [registerAll, h1]
      obtain ⟨hs1, hmem⟩ := registerAll_spec hs hreg1
      obtain ⟨⟨i1, i2⟩, i3⟩ := ih reg1 reg' hs1 h2
      unfold register at h1
      split at h1
      · rename_i hc
        have hn : n ∉ reg := insertSorted_notMem hs h1
        refine ⟨⟨List.nodup_cons.2 ⟨fun hm => i2 n hm ((hmem n).2 (by simp)), i1⟩, ?_⟩, ?_⟩
        · intro x hx
          rcases List.mem_cons.1 hx with rfl | hx
          · exact hn
          · exact fun hr => i2 x hx ((hmem x).2 (.inr hr))
        · intro x hx
          rcases List.mem_cons.1 hx with rfl | hx
          · refine ⟨hc.1, ?_⟩
            obtain ⟨v, h4, h5⟩ := (Option.any_eq_true _ _).1 hc.2
            exact ⟨v, h4, h5⟩
          · exact i3 x hx
      · cases h1
  exact ⟨(key names [] reg List.Pairwise.nil h).1.1, (key names [] reg List.Pairwise.nil h).2⟩

/-- retx-suppression-initial~10 given twice, and a component without value. -/
example : (parseParameters [g "n~1", g "m~2", g "n~3"]).any (fun l => l.length == 2 && l.contains (("n~3".toUTF8.toList.take 1), ("n~3".toUTF8.toList.drop 2))) = true ∧
    parseParameters [g "n~1", g "m~"] = none ∧ parseParameters [g "~1"] = none := by decide +kernel

example : ∃ reg, registerAll [] supplied = some reg ∧
    create (fun _ => ⟨none⟩) reg (strategyBase "random" ++ [ver 1]) = .instance (strategyBase "random" ++ [ver 1]) (strategyBase "random" ++ [ver 1]) ∧
    create (fun _ => ⟨none⟩) reg (strategyBase "random" ++ [ver 1, g "n~1"]) = .exception ∧
    create (fun _ => ⟨some (fun _ => true)⟩) reg (strategyBase "random" ++ [ver 1, g "n~1"]) =
      .instance (strategyBase "random" ++ [ver 1]) (strategyBase "random" ++ [ver 1, g "n~1"]) := by
  have h1 : (registerAll [] supplied).any (fun reg =>
    create (fun _ => ⟨none⟩) reg (strategyBase "random" ++ [ver 1]) == .instance (strategyBase "random" ++ [ver 1]) (strategyBase "random" ++ [ver 1]) &&
    create (fun _ => ⟨none⟩) reg (strategyBase "random" ++ [ver 1, g "n~1"]) == .exception &&
    create (fun _ => ⟨some (fun _ => true)⟩) reg (strategyBase "random" ++ [ver 1, g "n~1"]) ==
      .instance (strategyBase "random" ++ [ver 1]) (strategyBase "random" ++ [ver 1, g "n~1"])) = true := by decide +kernel
  rw [Option.any_eq_true] at h1
  obtain ⟨reg, h2, h3⟩ := h1
  simp only [Bool.and_eq_true, beq_iff_eq] at h3
  exact ⟨reg, h2, h3.1.1, h3.1.2, h3.2⟩

end Verif.Strat
