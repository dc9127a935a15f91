import Verif.Tool.Autoreg
import Verif.Mgmt.NetProps

/-
C109: what nfd-autoreg registers.
-/
namespace Verif.Ar

open Net (Addr Network)

/-! ### Specification -/

/-- 224.0.0.0/4 and ff00::/8 -/
def Multicast : Addr → Prop
  | .v4 b => ∃ x r, b = x :: r ∧ 224 ≤ x.val ∧ x.val ≤ 239
  | .v6 b _ => ∃ r, b = 255 :: r

/-- A TCP or UDP face with a unicast remote address. -/
def Unicast (x : Lib) (f : Face) (a : Addr) : Prop :=
  ∃ u, x.parseUri f.remote = some u ∧ u.scheme ∈ ["udp4".toList, "udp6".toList, "tcp4".toList, "tcp6".toList] ∧ a = (x.parseAddr u.host).getD (.v4 [0, 0, 0, 0]) ∧
    ¬Multicast a

/-- The address is in the whitelist, or there is none, and it is not in the blacklist. -/
def Admitted (o : Options) (a : Addr) : Prop :=
  (o.white = [] ∨ ∃ n ∈ o.white, n.contains a = true) ∧ ∀ n ∈ o.black, n.contains a = false

/-- The prefix is to be registered on the face. -/
def Wanted (x : Lib) (o : Options) (f : Face) (n : Name) : Prop :=
  ∃ a, Unicast x f a ∧ (n ∈ o.all ∨ n ∈ o.auto ∧ f.persistency = .onDemand ∧ Admitted o a)

/-- The program has learnt of the face: it was created while it ran and is not local, or was in the list of faces at the start. -/
def Learnt (l : List Event) (f : Face) : Prop :=
  .notification true f ∈ l ∧ f.isLocal = false ∨ ∃ fs, .dataset fs ∈ l ∧ f ∈ fs

/-- Remote FaceUris in what NFD sends parse, and addresses have the right length. -/
def Sound (x : Lib) (l : List Event) : Prop :=
  (∀ f, Learnt l f → (x.parseUri f.remote).isSome) ∧ ∀ h a, x.parseAddr h = some a → a.Ok

/-! ### Lemmas -/

theorem multicast_iff (a : Addr) : isMulticast a = true ↔ Multicast a := by
  cases a with
  | v4 b =>
    cases b with
    | nil => simp [isMulticast, Multicast]
    | cons y r =>
      simp only [isMulticast, Multicast, List.head?_cons, Option.any_some, decide_eq_true_eq]
      constructor
      · intro h; exact ⟨y, r, rfl, h.1, by omega⟩
      · rintro ⟨_, _, h, h1, h2⟩
        cases h
        exact ⟨h1, by omega⟩
  | v6 b i =>
    cases b with
    | nil => simp [isMulticast, Multicast]
    | cons y r =>
      simp only [isMulticast, Multicast, List.head?_cons, Option.any_some, decide_eq_true_eq]
      constructor
      · intro h; exact ⟨r, by rw [show y = 255 from Fin.ext h]⟩
      · rintro ⟨_, h⟩
        cases h
        rfl

theorem schema_iff (s : List Char) : hasAllowedSchema s = true ↔ s ∈ ["udp4".toList, "udp6".toList, "tcp4".toList, "tcp6".toList] := by
  simp only [hasAllowedSchema, Bool.or_eq_true, beq_iff_eq, List.mem_cons, List.not_mem_nil, or_false]
  constructor
  · rintro (((h | h) | h) | h) <;> simp [h]
  · rintro (h | h | h | h) <;> simp [h]

theorem zero_le : ∀ {n : Nat} {b : List Net.Byte}, b.length = n → Net.leBytes (List.replicate n 0) b = true
  | 0, _, _ => rfl
  | n + 1, [], h => by cases h
  | n + 1, y :: r, h => by
    have := zero_le (n := n) (b := r) (by simpa using h)
    simp only [List.replicate_succ, Net.leBytes, this, Bool.and_true, Bool.or_eq_true, decide_eq_true_eq, beq_iff_eq]
    by_cases h0 : y = 0
    · exact Or.inr h0.symm
    · have : y.val ≠ 0 := fun hc => h0 (Fin.ext hc)
      exact Or.inl (Fin.lt_def.2 (by show 0 < y.val; omega))

theorem le_full : ∀ {n : Nat} {b : List Net.Byte}, b.length = n → Net.leBytes b (List.replicate n 255) = true
  | 0, [], _ => rfl
  | n + 1, [], h => by cases h
  | n + 1, y :: r, h => by
    have := le_full (n := n) (b := r) (by simpa using h)
    simp only [List.replicate_succ, Net.leBytes, this, Bool.and_true, Bool.or_eq_true, decide_eq_true_eq, beq_iff_eq]
    by_cases h0 : y = 255
    · exact Or.inr h0
    · have h1 : y.val ≠ 255 := fun hc => h0 (Fin.ext hc)
      have := y.isLt
      exact Or.inl (Fin.lt_def.2 (by show y.val < 255; omega))

/-- Without a whitelist, all unicast addresses are allowed. -/
theorem everything {a : Addr} (ha : a.Ok) (hm : ¬Multicast a) : isListed [maxV4, maxV6] a = true := by
  cases a with
  | v4 b =>
    have h1 : Net.leBytes [0, 0, 0, 0] b = true := zero_le (n := 4) ha
    have h2 : Net.leBytes b [255, 255, 255, 255] = true := le_full (n := 4) ha
    simp only [isListed, List.any_cons, maxV4, Network.contains, Addr.le, h1, h2]
    rfl
  | v6 b i =>
    have h1 := zero_le (n := 16) ha
    have h2 := le_full (n := 16) ha
    have h3 : b ≠ List.replicate 16 255 := fun h => hm ⟨List.replicate 15 255, h⟩
    simp only [isListed, List.any_cons, maxV6, Network.contains, Addr.le, h2, if_neg h3, Bool.and_true, List.any_nil, Bool.or_false, Bool.or_eq_true]
    right
    by_cases h : List.replicate 16 0 = b
    · rw [if_pos h]; exact decide_eq_true (Nat.zero_le _)
    · rw [if_neg h]; exact h1

theorem address_ok {x : Lib} (h : ∀ h a, x.parseAddr h = some a → a.Ok) (t : List Char) : (addressOf x t).Ok := by
  unfold addressOf
  cases ht : x.parseAddr t with
  | none => rfl
  | some a => exact h t a ht

theorem listed_iff {o o' : Options} (hs : start o = some o') {a : Addr} (ha : a.Ok) (hm : ¬Multicast a) :
    (!isListed o'.black a && isListed o'.white a) = true ↔ Admitted o a := by
  unfold start at hs
  split at hs
  · cases hs
  · have hb : isListed o.black a = false ↔ ∀ n ∈ o.black, n.contains a = false := by
      simp [isListed]
    split at hs
    · rename_i hw
      cases hs
      have hw' : o.white = [] := List.isEmpty_iff.1 hw
      simp only [everything ha hm, Bool.and_true, Bool.not_eq_true', hb, Admitted, hw', true_or, true_and]
    · rename_i hw
      cases hs
      have hw' : o.white ≠ [] := fun h => hw (List.isEmpty_iff.2 h)
      simp only [Bool.and_eq_true, Bool.not_eq_true', hb, Admitted, hw', false_or]
      simp only [isListed, List.any_eq_true]
      exact And.comm

theorem start_fields {o o' : Options} (hs : start o = some o') : o'.all = o.all ∧ o'.auto = o.auto ∧ o'.cost = o.cost := by
  unfold start at hs
  split at hs
  · cases hs
  · split at hs <;> cases hs <;> exact ⟨rfl, rfl, rfl⟩

theorem needed_iff {x : Lib} {o o' : Options} (hs : start o = some o') (hx : ∀ h a, x.parseAddr h = some a → a.Ok) {f : Face} {u : Uri}
    (hu : x.parseUri f.remote = some u) (q : Request) :
    q ∈ registerPrefixesIfNeeded x o' f.id u f.persistency ↔ q = ⟨q.name, f.id, 64, o.cost, 2 ^ 63 - 1⟩ ∧ Wanted x o f q.name := by
  obtain ⟨h1, h2, h3⟩ := start_fields hs
  have hreg : ∀ l, q ∈ registerPrefixesForFace o' f.id l ↔ q = ⟨q.name, f.id, 64, o.cost, 2 ^ 63 - 1⟩ ∧ q.name ∈ l := by
    intro l
    simp only [registerPrefixesForFace, List.mem_map, h3]
    constructor
    · rintro ⟨n, hn, rfl⟩; exact ⟨rfl, hn⟩
    · rintro ⟨h, hn⟩; exact ⟨q.name, hn, h.symm⟩
  have hok := address_ok hx u.host
  unfold registerPrefixesIfNeeded
  by_cases hsch : hasAllowedSchema u.scheme = true
  · rw [if_pos hsch]
    by_cases hm : isMulticast (addressOf x u.host) = true
    · rw [if_neg (by simp [hm])]
      simp only [List.not_mem_nil, false_iff]
      rintro ⟨-, a, ⟨u', hu', -, ha, hnm⟩, -⟩
      rw [hu] at hu'; cases hu'
      exact hnm (ha ▸ (multicast_iff _).1 hm)
    · rw [if_pos (by simpa using hm)]
      have hnm : ¬Multicast (addressOf x u.host) := fun h => hm ((multicast_iff _).2 h)
      have huni : Unicast x f (addressOf x u.host) := ⟨u, hu, (schema_iff _).1 hsch, rfl, hnm⟩
      have hw : Wanted x o f q.name ↔ q.name ∈ o.all ∨ q.name ∈ o.auto ∧ f.persistency = .onDemand ∧ Admitted o (addressOf x u.host) := by
        constructor
        · rintro ⟨a, ⟨u', hu', -, ha, -⟩, h⟩
          rw [hu] at hu'; cases hu'
          have : a = addressOf x u.host := ha
          rw [← this]; exact h
        · exact fun h => ⟨_, huni, h⟩
      rw [List.mem_append, hreg, hw, h1]
      have hl := listed_iff hs hok hnm
      by_cases hc : f.persistency = .onDemand ∧ Admitted o (addressOf x u.host)
      · rw [if_pos (by rw [Bool.and_assoc, Bool.and_eq_true]; exact ⟨decide_eq_true hc.1, hl.2 hc.2⟩), hreg, h2]
        constructor
        · rintro (⟨a, b⟩ | ⟨a, b⟩)
          · exact ⟨a, Or.inl b⟩
          · exact ⟨a, Or.inr ⟨b, hc⟩⟩
        · rintro ⟨a, b | b⟩
          · exact Or.inl ⟨a, b⟩
          · exact Or.inr ⟨a, b.1⟩
      · rw [if_neg (by rw [Bool.and_assoc, Bool.and_eq_true]; exact fun h => hc ⟨of_decide_eq_true h.1, hl.1 h.2⟩)]
        simp only [List.not_mem_nil, or_false]
        constructor
        · rintro ⟨a, b⟩; exact ⟨a, Or.inl b⟩
        · rintro ⟨a, b | b⟩
          · exact ⟨a, b⟩
          · exact absurd b.2 hc
  · rw [if_neg hsch]
    simp only [List.not_mem_nil, false_iff]
    rintro ⟨-, a, ⟨u', hu', h, -⟩, -⟩
    rw [hu] at hu'; cases hu'
    exact hsch ((schema_iff _).2 h)

theorem dataset_iff {x : Lib} {o o' : Options} (hs : start o = some o') (hx : ∀ h a, x.parseAddr h = some a → a.Ok) :
    ∀ {l : List Face}, (∀ f ∈ l, (x.parseUri f.remote).isSome) →
      ∃ r, onDataset x o' l = some r ∧ ∀ q, q ∈ r ↔ ∃ f ∈ l, q = ⟨q.name, f.id, 64, o.cost, 2 ^ 63 - 1⟩ ∧ Wanted x o f q.name
  | [], _ => ⟨[], rfl, by simp⟩
  | f :: l, h => by
    obtain ⟨r, h1, h2⟩ := dataset_iff hs hx (l := l) (fun g hg => h g (List.mem_cons_of_mem _ hg))
    obtain ⟨u, hu⟩ := Option.isSome_iff_exists.1 (h f (List.mem_cons_self ..))
    refine ⟨registerPrefixesIfNeeded x o' f.id u f.persistency ++ r, by simp only [onDataset, hu, h1, Option.bind_some, Option.map_some], ?_⟩
    intro q
    simp only [List.mem_append, needed_iff hs hx hu, h2, List.mem_cons, exists_eq_or_imp]

theorem learnt_cons {e : Event} {l : List Event} {f : Face} : Learnt (e :: l) f ↔ Learnt [e] f ∨ Learnt l f := by
  unfold Learnt
  simp only [List.mem_cons, List.not_mem_nil, or_false]
  constructor
  · rintro (⟨h | h, hl⟩ | ⟨fs, h | h, hf⟩)
    · exact Or.inl (Or.inl ⟨h, hl⟩)
    · exact Or.inr (Or.inl ⟨h, hl⟩)
    · exact Or.inl (Or.inr ⟨fs, h, hf⟩)
    · exact Or.inr (Or.inr ⟨fs, h, hf⟩)
  · rintro ((⟨h, hl⟩ | ⟨fs, h, hf⟩) | (⟨h, hl⟩ | ⟨fs, h, hf⟩))
    · exact Or.inl ⟨Or.inl h, hl⟩
    · exact Or.inr ⟨fs, Or.inl h, hf⟩
    · exact Or.inl ⟨Or.inr h, hl⟩
    · exact Or.inr ⟨fs, Or.inr h, hf⟩

theorem step_iff {x : Lib} {o o' : Options} (hs : start o = some o') {e : Event} (hx : Sound x [e]) :
    ∃ r, step x o' e = some r ∧ ∀ q, q ∈ r ↔ ∃ f, Learnt [e] f ∧ q = ⟨q.name, f.id, 64, o.cost, 2 ^ 63 - 1⟩ ∧ Wanted x o f q.name := by
  cases e with
  | dataset fs =>
    have hl : ∀ f, Learnt [.dataset fs] f ↔ f ∈ fs := by
      intro f; simp [Learnt]
    obtain ⟨r, h1, h2⟩ := dataset_iff hs hx.2 (l := fs) (fun f hf => hx.1 f ((hl f).2 hf))
    exact ⟨r, h1, fun q => by rw [h2]; simp only [hl]⟩
  | datasetFailed =>
    refine ⟨[], rfl, fun q => ?_⟩
    simp [Learnt]
  | notification c f =>
    have hl : ∀ g, Learnt [.notification c f] g ↔ g = f ∧ c = true ∧ f.isLocal = false := by
      intro g
      simp only [Learnt, List.mem_singleton, Event.notification.injEq, reduceCtorEq, false_and, exists_false, or_false]
      constructor
      · rintro ⟨⟨rfl, rfl⟩, h⟩; exact ⟨rfl, rfl, h⟩
      · rintro ⟨rfl, rfl, h⟩; exact ⟨⟨rfl, rfl⟩, h⟩
    by_cases hc : c = true ∧ f.isLocal = false
    · obtain ⟨u, hu⟩ := Option.isSome_iff_exists.1 (hx.1 f ((hl f).2 ⟨rfl, hc⟩))
      refine ⟨registerPrefixesIfNeeded x o' f.id u f.persistency, by simp only [step, onNotification, hc.1, hc.2, hu, Option.map_some]; rfl, ?_⟩
      intro q
      rw [needed_iff hs hx.2 hu]
      constructor
      · exact fun h => ⟨f, (hl f).2 ⟨rfl, hc⟩, h⟩
      · rintro ⟨g, hg, h⟩
        obtain ⟨rfl, -⟩ := (hl g).1 hg
        exact h
    · refine ⟨[], ?_, ?_⟩
      · simp only [step, onNotification]
        rw [if_neg (by simpa using hc)]
      · intro q
        simp only [List.not_mem_nil, false_iff]
        rintro ⟨g, hg, -⟩
        exact hc ((hl g).1 hg).2

theorem run_iff {x : Lib} {o o' : Options} (hs : start o = some o') : ∀ {l : List Event}, Sound x l →
    ∃ r, run x o' l = (r, false) ∧ ∀ q, q ∈ r ↔ ∃ f, Learnt l f ∧ q = ⟨q.name, f.id, 64, o.cost, 2 ^ 63 - 1⟩ ∧ Wanted x o f q.name
  | [], _ => ⟨[], rfl, by simp [Learnt]⟩
  | e :: l, hx => by
    obtain ⟨r1, h1, h2⟩ := step_iff hs (e := e) ⟨fun f hf => hx.1 f (learnt_cons.2 (Or.inl hf)), hx.2⟩
    obtain ⟨r2, h3, h4⟩ := run_iff hs (l := l) ⟨fun f hf => hx.1 f (learnt_cons.2 (Or.inr hf)), hx.2⟩
    refine ⟨r1 ++ r2, by simp only [run, h1, h3], ?_⟩
    intro q
    rw [List.mem_append, h2, h4]
    constructor
    · rintro (⟨f, a, b⟩ | ⟨f, a, b⟩)
      · exact ⟨f, learnt_cons.2 (Or.inl a), b⟩
      · exact ⟨f, learnt_cons.2 (Or.inr a), b⟩
    · rintro ⟨f, a, b⟩
      rcases learnt_cons.1 a with a | a
      · exact Or.inl ⟨f, a, b⟩
      · exact Or.inr ⟨f, a, b⟩

theorem dataset_none (x : Lib) (o : Options) : ∀ l : List Face, onDataset x o l = none ↔ ∃ f ∈ l, x.parseUri f.remote = none
  | [] => by simp [onDataset]
  | f :: l => by
    have ih := dataset_none x o l
    simp only [onDataset, List.mem_cons, exists_eq_or_imp, ← ih]
    cases x.parseUri f.remote with
    | none => simp
    | some u => simp

theorem step_none (x : Lib) (o : Options) (e : Event) : step x o e = none ↔ ∃ f, Learnt [e] f ∧ x.parseUri f.remote = none := by
  cases e with
  | dataset fs => simp [step, dataset_none, Learnt]
  | datasetFailed => simp [step, Learnt]
  | notification c f =>
    simp only [step, onNotification, Learnt, List.mem_singleton, Event.notification.injEq, reduceCtorEq, false_and, exists_false, or_false]
    cases c <;> cases hl : f.isLocal <;> simp [hl]
    · constructor
      · intro h; exact ⟨f, ⟨rfl, hl⟩, h⟩
      · rintro ⟨g, ⟨rfl, -⟩, h⟩; exact h

theorem run_ends (x : Lib) (o : Options) : ∀ l : List Event, (run x o l).2 = true ↔ ∃ f, Learnt l f ∧ x.parseUri f.remote = none
  | [] => by simp [run, Learnt]
  | e :: l => by
    have ih := run_ends x o l
    have h2 : (∃ f, Learnt (e :: l) f ∧ x.parseUri f.remote = none) ↔
        (∃ f, Learnt [e] f ∧ x.parseUri f.remote = none) ∨ ∃ f, Learnt l f ∧ x.parseUri f.remote = none := by
      constructor
      · rintro ⟨f, h, h'⟩
        rcases learnt_cons.1 h with h | h
        · exact Or.inl ⟨f, h, h'⟩
        · exact Or.inr ⟨f, h, h'⟩
      · rintro (⟨f, h, h'⟩ | ⟨f, h, h'⟩)
        · exact ⟨f, learnt_cons.2 (Or.inl h), h'⟩
        · exact ⟨f, learnt_cons.2 (Or.inr h), h'⟩
    rw [h2, ← step_none x o e, ← ih]
    rw [show run x o (e :: l) = (match step x o e with | none => ([], true) | some r => (r ++ (run x o l).1, (run x o l).2)) from rfl]
    cases step x o e with
    | none => simp
    | some r => simp

/-! ### Properties -/

/-- C109: given a prefix, nfd-autoreg runs on, and requests exactly the registrations wanted, for exactly the faces it has learnt of: with
the cost asked for, origin autoreg, and without end. -/
theorem C109_registers {x : Lib} {o : Options} {l : List Event} (hx : Sound x l) (ho : o.auto ≠ [] ∨ o.all ≠ []) :
    ∃ r, main x o l = some (r, false) ∧
      ∀ q, q ∈ r ↔ ∃ f, Learnt l f ∧ q = ⟨q.name, f.id, 64, o.cost, 2 ^ 63 - 1⟩ ∧ Wanted x o f q.name := by
  have : ∃ o', start o = some o' := by
    unfold start
    rw [if_neg (by simp only [Bool.and_eq_true, List.isEmpty_iff]; rintro ⟨h1, h2⟩; rcases ho with h | h; exact h h1; exact h h2)]
    exact ⟨_, rfl⟩
  obtain ⟨o', hs⟩ := this
  obtain ⟨r, h1, h2⟩ := run_iff hs hx
  exact ⟨r, by simp only [main, hs, Option.map_some, h1], h2⟩

/-- C109: the program is ended by an exception exactly if it learns of a face whose remote FaceUri does not parse. -/
theorem C109_ends {x : Lib} {o : Options} {l : List Event} (ho : o.auto ≠ [] ∨ o.all ≠ []) :
    (∃ r, main x o l = some (r, true)) ↔ ∃ f, Learnt l f ∧ x.parseUri f.remote = none := by
  have : ∃ o', start o = some o' := by
    unfold start
    rw [if_neg (by simp only [Bool.and_eq_true, List.isEmpty_iff]; rintro ⟨h1, h2⟩; rcases ho with h | h; exact h h1; exact h h2)]
    exact ⟨_, rfl⟩
  obtain ⟨o', hs⟩ := this
  simp only [main, hs, Option.map_some, Option.some.injEq]
  rw [← run_ends x o' l]
  constructor
  · rintro ⟨r, h⟩; rw [h]
  · intro h; exact ⟨(run x o' l).1, by rw [← h]⟩

/-- C109: without any prefix it does not start. -/
theorem C109_nothing (x : Lib) (o : Options) (l : List Event) (h1 : o.auto = []) (h2 : o.all = []) : main x o l = none := by
  simp only [main, start, h1, h2]; rfl

/-- C109: no prefix is registered on a local face that appears after the start. -/
theorem C109_local_partial {x : Lib} {o : Options} {l : List Event} (hx : Sound x l) {r : List Request} (hm : main x o l = some (r, false))
    {q : Request} (hq : q ∈ r) (hn : ∀ fs, .dataset fs ∈ l → ∀ f ∈ fs, f.isLocal = false) : ∃ f, Learnt l f ∧ f.id = q.face ∧ f.isLocal = false := by
  have ho : o.auto ≠ [] ∨ o.all ≠ [] := by
    by_cases h1 : o.auto = []
    · by_cases h2 : o.all = []
      · rw [C109_nothing x o l h1 h2] at hm; cases hm
      · exact Or.inr h2
    · exact Or.inl h1
  obtain ⟨r', h1, h2⟩ := C109_registers hx ho
  rw [hm] at h1
  cases h1
  obtain ⟨f, h3, h4, -⟩ := (h2 q).1 hq
  refine ⟨f, h3, by rw [h4], ?_⟩
  rcases h3 with h3 | ⟨fs, h3, h5⟩
  · exact h3.2
  · exact hn fs h3 f h5

/-- A blacklisted subnet (here of IPv4): nothing but the prefixes for all faces is registered on faces to its addresses. -/
theorem C109_blacklist {x : Lib} {o : Options} {f : Face} {n : Name} {b : List Net.Byte} {len : Nat} {net : Network} (hb : b.length = 4)
    (hn : Net.makeNetwork (.v4 b) len = some net) (hm : net ∈ o.black) (hx : ∀ h a, x.parseAddr h = some a → a.Ok)
    (hf : ∀ a, Unicast x f a → ∃ c, a = .v4 c ∧ Net.agree b c len) (hw : Wanted x o f n) : n ∈ o.all := by
  obtain ⟨a, hu, h | ⟨-, -, ha⟩⟩ := hw
  · exact h
  · obtain ⟨c, rfl, hc⟩ := hf a hu
    obtain ⟨u, -, -, hadr, -⟩ := hu
    have hok : (Addr.v4 c).Ok := by rw [hadr]; exact address_ok hx u.host
    have := Net.C64_subnet4 b hb len (.v4 c) hok
    split at this
    · obtain ⟨n', h1, h2⟩ := this
      rw [hn] at h1; cases h1
      have h3 := h2.2 ⟨trivial, hc⟩
      rw [ha.2 net hm] at h3
      cases h3
    · rw [hn] at this; cases this

/-! ### Examples and the violation -/

abbrev exLib : Lib where
  parseUri t := if t.take 7 = "tcp4://".toList then some ⟨"tcp4".toList, t.drop 7⟩ else if t.take 7 = "udp4://".toList then some ⟨"udp4".toList, t.drop 7⟩ else none
  parseAddr t := if t = "10.0.0.9".toList then some (.v4 [10, 0, 0, 9]) else if t = "127.0.0.1".toList then some (.v4 [127, 0, 0, 1]) else
    if t = "10.0.1.9".toList then some (.v4 [10, 0, 1, 9]) else none
abbrev exN (b : Byte) : Name := [⟨8, [b]⟩]
abbrev exO : Options := { auto := [exN 1], all := [exN 2], black := [⟨.v4 [10, 0, 1, 0], .v4 [10, 0, 1, 255]⟩] }
abbrev exF (n : Nat) (t : String) (p : Persistency) (b : Bool) : Face := ⟨n, t.toList, p, b⟩

theorem exLib_ok : ∀ h a, exLib.parseAddr h = some a → a.Ok := by
  intro h a ha
  dsimp only [exLib] at ha
  repeat' split at ha
  all_goals first | (cases ha; rfl) | cases ha

abbrev exL : List Event := [.dataset [exF 260 "udp4://10.0.0.9" .onDemand false], .notification true (exF 261 "tcp4://10.0.1.9" .onDemand false),
  .notification true (exF 262 "tcp4://127.0.0.1" .onDemand true), .notification false (exF 263 "udp4://10.0.0.9" .onDemand false)]

example : main exLib exO exL = some ([⟨exN 2, 260, 64, 255, 2 ^ 63 - 1⟩, ⟨exN 1, 260, 64, 255, 2 ^ 63 - 1⟩, ⟨exN 2, 261, 64, 255, 2 ^ 63 - 1⟩], false) := by
  decide +kernel

example : main exLib exO (exL ++ [.notification true (exF 264 "tcp9" .onDemand false)]) =
    some ([⟨exN 2, 260, 64, 255, 2 ^ 63 - 1⟩, ⟨exN 1, 260, 64, 255, 2 ^ 63 - 1⟩, ⟨exN 2, 261, 64, 255, 2 ^ 63 - 1⟩], true) := by decide +kernel

/-- The hypotheses of C109_registers and C109_local_partial. -/
example : Sound exLib exL ∧ (exO.auto ≠ [] ∨ exO.all ≠ []) ∧ ∀ fs, .dataset fs ∈ exL → ∀ f ∈ fs, f.isLocal = false := by
  refine ⟨⟨?_, exLib_ok⟩, by decide, ?_⟩
  · intro f hf
    simp only [Learnt, exL, List.mem_cons, List.not_mem_nil, or_false, reduceCtorEq, false_or, Event.notification.injEq, Event.dataset.injEq] at hf
    rcases hf with ⟨h | h | h, hl⟩ | ⟨fs, h, hf⟩
    · rw [h.2]; decide +kernel
    · rw [h.2] at hl; cases hl
    · exact absurd h.1 (by decide)
    · subst h
      rw [List.mem_singleton.1 hf]; decide +kernel
  · intro fs h f hf
    simp only [exL, List.mem_cons, List.not_mem_nil, or_false, reduceCtorEq, Event.dataset.injEq] at h
    subst h
    rw [List.mem_singleton.1 hf]

/-- The hypotheses of C109_blacklist: 10.0.1.0/24, and a face to 10.0.1.9. -/
example : Net.makeNetwork (.v4 [10, 0, 1, 0]) 24 = some ⟨.v4 [10, 0, 1, 0], .v4 [10, 0, 1, 255]⟩ ∧
    (∀ a, Unicast exLib (exF 261 "tcp4://10.0.1.9" .onDemand false) a → ∃ c, a = .v4 c ∧ Net.agree [10, 0, 1, 0] c 24) ∧
    Wanted exLib exO (exF 261 "tcp4://10.0.1.9" .onDemand false) (exN 2) := by
  have hu : exLib.parseUri "tcp4://10.0.1.9".toList = some ⟨"tcp4".toList, "10.0.1.9".toList⟩ := by decide +kernel
  have ha : (exLib.parseAddr "10.0.1.9".toList).getD (.v4 [0, 0, 0, 0]) = .v4 [10, 0, 1, 9] := by decide +kernel
  refine ⟨by decide +kernel, ?_, .v4 [10, 0, 1, 9], ⟨_, hu, by decide +kernel, ha.symm, ?_⟩, Or.inl (List.mem_singleton_self _)⟩
  · rintro a ⟨u, h, -, h2, -⟩
    have he : u = ⟨"tcp4".toList, "10.0.1.9".toList⟩ := Option.some.inj (h.symm.trans hu)
    refine ⟨[10, 0, 1, 9], by rw [h2, he]; exact ha, ?_⟩
    unfold Net.agree
    decide +kernel
  · rintro ⟨y, r, h, h1, -⟩
    cases h
    exact absurd h1 (by decide)

/-- C109, violation: at the start the prefixes are registered on local faces too, although the options speak of non-local faces: an
application that has connected over TCP from this host is made the next hop. -/
theorem C109_local_at_start : ∃ (x : Lib) (o : Options) (f : Face) (r : List Request), Sound x [.dataset [f]] ∧ f.isLocal = true ∧
    main x o [.dataset [f]] = some (r, false) ∧ r.any (fun q => q.face == f.id) = true := by
  refine ⟨exLib, exO, exF 262 "tcp4://127.0.0.1" .onDemand true, [⟨exN 2, 262, 64, 255, 2 ^ 63 - 1⟩, ⟨exN 1, 262, 64, 255, 2 ^ 63 - 1⟩],
    ⟨?_, exLib_ok⟩, rfl, by decide +kernel, by decide +kernel⟩
  intro f hf
  simp only [Learnt, List.mem_singleton, reduceCtorEq, false_and, false_or, Event.dataset.injEq] at hf
  obtain ⟨fs, rfl, hf⟩ := hf
  rw [List.mem_singleton.1 hf]; decide +kernel

end Verif.Ar
