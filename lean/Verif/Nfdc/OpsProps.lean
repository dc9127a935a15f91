import Verif.Nfdc.OpsSpec
import Verif.Nfdc.ArgsLemmas

/-! C102: what the face and route commands of nfdc do and what their exit codes mean. -/
namespace Verif.Nfdc.Ops

/-- How the search for faces can end. -/
inductive Found (x : World) (t : Target) (multi : Bool) : Hist → Code → List Status → Prop
  | canon (u : Uri) : t = .uri u → Found x t multi [.canon u none] .canonizeError []
  | ask (pre : Hist) (f : Filter) (r : Option (List Status)) (c : Code) (l : List Status) :
      (∀ k ∈ pre, ∃ u v, k = Call.canon u v) → (∀ k ∈ pre, ∀ u, k ≠ Call.canon u none) → Asks x pre t f →
      (r = none → c = .error ∧ l = []) → (∀ l', r = some l' → l = l' ∧
        ((l = [] ∧ c = .notFound) ∨ (1 < l.length ∧ c = .ambiguous ∧ (multi = false ∨ ∃ n, t = .id n)) ∨ (l ≠ [] ∧ c = .ok ∧ (multi = false ∨ (∃ n, t = .id n) → l.length = 1)))) →
      Found x t multi (pre ++ [.query f r]) c l

theorem findQuery_found (x : World) (t : Target) (m1 m2 : Bool) (pre : Hist) (f : Filter) (hp : ∀ k ∈ pre, ∃ u v, k = Call.canon u v)
    (hn : ∀ k ∈ pre, ∀ u, k ≠ Call.canon u none) (ha : Asks x pre t f) (hm : m2 = m1 ∨ (m2 = false ∧ ∃ n, t = .id n)) (hm2 : (∃ n, t = .id n) → m2 = false) :
    Found x t m1 (findQuery x pre f m2).1 (findQuery x pre f m2).2.1 (findQuery x pre f m2).2.2 := by
  unfold findQuery
  dsimp only
  cases hr : x.query pre f with
  | none => exact .ask pre f none _ _ hp hn ha (fun _ => ⟨rfl, rfl⟩) (by simp)
  | some l =>
    dsimp only
    by_cases h0 : l.length = 0
    · rw [if_pos h0]
      refine .ask pre f (some l) _ _ hp hn ha (by simp) ?_
      intro l' hl'; cases hl'
      exact ⟨rfl, .inl ⟨List.length_eq_zero_iff.1 h0, rfl⟩⟩
    · rw [if_neg h0]
      by_cases h1 : l.length > 1 ∧ m2 = false
      · rw [if_pos h1]
        refine .ask pre f (some l) _ _ hp hn ha (by simp) ?_
        intro l' hl'; cases hl'
        refine ⟨rfl, .inr (.inl ⟨h1.1, rfl, ?_⟩)⟩
        rcases hm with h | h
        · exact .inl (h ▸ h1.2)
        · exact .inr h.2
      · rw [if_neg h1]
        refine .ask pre f (some l) _ _ hp hn ha (by simp) ?_
        intro l' hl'; cases hl'
        refine ⟨rfl, .inr (.inr ⟨fun h => h0 (List.length_eq_zero_iff.2 h), rfl, ?_⟩)⟩
        intro hh
        have : m2 = false := by
          rcases hh with h | h
          · rcases hm with h2 | h2
            · rw [h2, h]
            · exact h2.1
          · exact hm2 h
        have : ¬ l.length > 1 := fun h => h1 ⟨h, this⟩
        show l.length = 1
        omega

theorem findTarget_found (x : World) (t : Target) (m : Bool) : Found x t m (findTarget x [] t m).1 (findTarget x [] t m).2.1 (findTarget x [] t m).2.2 := by
  unfold findTarget
  cases t with
  | id n => exact findQuery_found x (.id n) m false [] _ (by simp) (by simp) (.id n) (.inr ⟨rfl, n, rfl⟩) (fun _ => rfl)
  | uri u =>
    simp only [findFace, findCanonize]
    by_cases hc : x.canCanonize u.scheme = true
    · rw [if_pos hc]
      unfold canonize
      cases hu : x.canon [] u with
      | none => exact .canon u rfl
      | some c =>
        exact findQuery_found x (.uri u) m m _ _ (by simp) (by simp) (.canon u c hc (by simp)) (.inl rfl) (by simp)
    · rw [if_neg hc]
      exact findQuery_found x (.uri u) m m [] _ (by simp) (by simp) (.plain u (by simpa using hc)) (.inl rfl) (by simp)

theorem findTarget_ex (x : World) (t : Target) (m : Bool) : ∃ h c l, findTarget x [] t m = (h, c, l) ∧ Found x t m h c l :=
  ⟨_, _, _, rfl, findTarget_found x t m⟩

theorem Asks.mono {x : World} {h h' : Hist} {t : Target} {f : Filter} (hs : ∀ k ∈ h, k ∈ h') (ha : Asks x h t f) : Asks x h' t f := by
  cases ha with
  | id n => exact .id n
  | plain u hc => exact .plain u hc
  | canon u c hc hm => exact .canon u c hc (hs _ hm)

/-- What is known about the calls of the search. -/
theorem Found.facts {x : World} {t : Target} {m : Bool} {h : Hist} {c : Code} {l : List Status} (hf : Found x t m h c l) (tail : Hist) :
    (∀ k ∈ h, isCommand k = false) ∧
    (c = .ok → l ≠ [] ∧ Matches x (h ++ tail) t l ∧ (m = false ∨ (∃ n, t = .id n) → ∃ s, l = [s])) ∧
    (c = .notFound → Matches x (h ++ tail) t []) ∧
    (c = .ambiguous → Matches x (h ++ tail) t l ∧ 1 < l.length ∧ (m = false ∨ ∃ n, t = .id n)) ∧
    (c = .error → NoAnswer x (h ++ tail) t) ∧
    (c = .canonizeError → NotCanonical (h ++ tail) t) ∧
    (∀ l', Matches x h t l' → l' = l ∧ (c = .ok ∨ c = .notFound ∨ c = .ambiguous)) := by
  cases hf with
  | canon u hu =>
    refine ⟨by simp [isCommand], by simp, by simp, by simp, by simp, fun _ => ⟨u, hu, by simp⟩, ?_⟩
    rintro l' ⟨f, _, h⟩
    simp at h
  | ask pre f r c l hp hn ha h1 h2 =>
    have hA : Asks x ((pre ++ [.query f r]) ++ tail) t f := ha.mono (fun k hk => by simp [hk])
    have hQ : Call.query f r ∈ (pre ++ [.query f r]) ++ tail := by simp
    refine ⟨?_, ?_, ?_, ?_, ?_, ?_, ?_⟩
    · intro k hk
      simp only [List.mem_append, List.mem_singleton] at hk
      rcases hk with hk | rfl
      · obtain ⟨u, v, rfl⟩ := hp k hk; rfl
      · rfl
    · rintro rfl
      cases r with
      | none => cases (h1 rfl).1
      | some l' =>
        obtain ⟨rfl, h3⟩ := h2 l' rfl
        rcases h3 with ⟨_, h⟩ | ⟨_, h, _⟩ | ⟨h3, _, h4⟩
        · cases h
        · cases h
        · refine ⟨h3, ⟨f, hA, hQ⟩, fun hm => ?_⟩
          exact List.length_eq_one_iff.1 (h4 hm)
    · rintro rfl
      cases r with
      | none => cases (h1 rfl).1
      | some l' =>
        obtain ⟨rfl, h3⟩ := h2 l' rfl
        rcases h3 with ⟨rfl, _⟩ | ⟨_, h, _⟩ | ⟨_, h, _⟩
        · exact ⟨f, hA, hQ⟩
        · cases h
        · cases h
    · rintro rfl
      cases r with
      | none => cases (h1 rfl).1
      | some l' =>
        obtain ⟨rfl, h3⟩ := h2 l' rfl
        rcases h3 with ⟨_, h⟩ | ⟨h3, _, h4⟩ | ⟨_, h, _⟩
        · cases h
        · exact ⟨⟨f, hA, hQ⟩, h3, h4⟩
        · cases h
    · rintro rfl
      cases r with
      | none => exact ⟨f, hA, hQ⟩
      | some l' =>
        obtain ⟨rfl, h3⟩ := h2 l' rfl
        rcases h3 with ⟨_, h⟩ | ⟨_, h, _⟩ | ⟨_, h, _⟩ <;> cases h
    · rintro rfl
      cases r with
      | none => cases (h1 rfl).1
      | some l' =>
        obtain ⟨rfl, h3⟩ := h2 l' rfl
        rcases h3 with ⟨_, h⟩ | ⟨_, h, _⟩ | ⟨_, h, _⟩ <;> cases h
    · rintro l' ⟨g, _, hm⟩
      simp only [List.mem_append, List.mem_singleton, Call.query.injEq] at hm
      rcases hm with hm | ⟨_, rfl⟩
      · obtain ⟨u, v, hk⟩ := hp _ hm; cases hk
      · obtain ⟨rfl, h3⟩ := h2 l' rfl
        refine ⟨rfl, ?_⟩
        rcases h3 with ⟨_, h⟩ | ⟨_, h, _⟩ | ⟨_, h, _⟩
        · exact .inr (.inl h)
        · exact .inr (.inr h)
        · exact .inl h

/-- `nfdc face destroy`: it destroys a face only if NFD has said that this is the only face the argument stands for; at most one command is sent; and the exit code
is 0 exactly if the face has been destroyed. The other exit codes: 3 there is none, 5 there are several, 4 the FaceUri is not canonical, 1 NFD has not answered or has refused. -/
theorem C102_destroy (x : World) (t : Target) (h : Hist) (n : Nat) (hr : faceDestroy x t = (h, n)) :
    (n = 0 ↔ ∃ i, .destroy i true ∈ h) ∧
    (∀ k ∈ h, isCommand k = true → ∃ i r s, k = .destroy i r ∧ Matches x h t [s] ∧ s.id = i) ∧
    (h.filter isCommand).length ≤ 1 ∧
    ((n = 0 ∧ ∃ s, Matches x h t [s]) ∨ (n = 3 ∧ Matches x h t []) ∨ (n = 5 ∧ ∃ l, 1 < l.length ∧ Matches x h t l) ∨ (n = 4 ∧ NotCanonical h t) ∨
      (n = 1 ∧ (NoAnswer x h t ∨ ∃ i, .destroy i false ∈ h))) := by
  obtain ⟨h0, c, l, he, hf⟩ := findTarget_ex x t false
  unfold faceDestroy at hr
  rw [he] at hr
  obtain ⟨k1, k2, k3, k4, k5, k6, k7⟩ := hf.facts []
  have hno : ∀ i r, Call.destroy i r ∉ h0 := fun i r hm => by have := k1 _ hm; simp [isCommand] at this
  have hnil : h0.filter isCommand = [] := by rw [List.filter_eq_nil_iff]; intro k hk; rw [k1 k hk]; simp
  rw [List.append_nil] at k2 k3 k4 k5 k6
  by_cases hc : c = .ok
  · subst hc
    obtain ⟨hl, _, hone⟩ := k2 rfl
    obtain ⟨s, rfl⟩ := hone (.inl rfl)
    dsimp only at hr
    rw [Prod.mk.injEq] at hr
    obtain ⟨rfl, rfl⟩ := hr
    have hM : Matches x (h0 ++ [.destroy s.id (x.destroy h0 s.id)]) t [s] := ((hf.facts [.destroy s.id (x.destroy h0 s.id)]).2.1 rfl).2.1
    refine ⟨?_, ?_, ?_, ?_⟩
    · constructor
      · intro h
        refine ⟨s.id, ?_⟩
        cases hd : x.destroy h0 s.id with
        | false => rw [hd] at h; simp at h
        | true => simp
      · rintro ⟨i, hi⟩
        simp only [List.mem_append, List.mem_singleton, Call.destroy.injEq] at hi
        rcases hi with hi | ⟨_, hi⟩
        · exact absurd hi (hno i true)
        · rw [← hi]; rfl
    · intro k hk hc
      simp only [List.mem_append, List.mem_singleton] at hk
      rcases hk with hk | rfl
      · rw [k1 k hk] at hc; cases hc
      · exact ⟨s.id, _, s, rfl, hM, rfl⟩
    · rw [List.filter_append, hnil]; exact Nat.le_refl 1
    · cases hd : x.destroy h0 s.id with
      | true => exact .inl ⟨by simp, s, by rw [hd] at hM; exact hM⟩
      | false => exact .inr (.inr (.inr (.inr ⟨by simp, .inr ⟨s.id, by simp⟩⟩)))
  · obtain ⟨rfl, rfl⟩ : h0 = h ∧ c.num = n := by cases c <;> simp_all
    refine ⟨?_, ?_, by rw [hnil]; simp, ?_⟩
    · constructor
      · intro h; cases c <;> simp_all [Code.num]
      · rintro ⟨i, hi⟩; exact absurd hi (hno i true)
    · intro k hk hc; rw [k1 k hk] at hc; cases hc
    · cases c with
      | ok => exact absurd rfl hc
      | error => exact .inr (.inr (.inr (.inr ⟨rfl, .inl (k5 rfl)⟩)))
      | notFound => exact .inr (.inl ⟨rfl, k3 rfl⟩)
      | canonizeError => exact .inr (.inr (.inr (.inl ⟨rfl, k6 rfl⟩)))
      | ambiguous => exact .inr (.inr (.inl ⟨rfl, l, (k4 rfl).2.1, (k4 rfl).1⟩))

theorem register_spec (x : World) (h : Hist) (a : AddArgs) (face : Nat) : ∃ p r, registerRoute x h a face = (h ++ [.register p r], if r then 0 else 1) ∧
    p.face = face ∧ RouteAsked a p := by
  refine ⟨_, _, rfl, rfl, rfl, ?_, ?_, ?_, ?_, ?_, rfl⟩
  · cases a.origin <;> rfl
  · cases a.cost <;> rfl
  · cases a.noInherit <;> cases a.capture <;> (dsimp only; decide)
  · cases a.noInherit <;> cases a.capture <;> (dsimp only; decide)
  · cases a.noInherit <;> cases a.capture <;> (dsimp only; decide)

/-- The face that a new route leads to: the only one the argument stands for; or, if NFD has said that there is none, one that NFD has just created for the
(canonical) remote FaceUri, which is not an Ethernet one. -/
def Nexthop (x : World) (h : Hist) (t : Target) (face : Nat) : Prop :=
  (∃ s, Matches x h t [s] ∧ s.id = face) ∨
  (Matches x h t [] ∧ ∃ u c i, t = .uri u ∧ u.scheme ≠ "ether" ∧ .canon u (some c) ∈ h ∧ .create { uri := some c } (.ok i) ∈ h ∧ i.id = face)

/-- `nfdc route add`: the only commands are one to create a face, if none matches, and one to register the route asked for, toward that face. The exit
code is 0 exactly if NFD has accepted the route. -/
theorem C102_route_add (x : World) (a : AddArgs) (h : Hist) (n : Nat) (hr : routeAdd x a = (h, n)) :
    (n = 0 ↔ ∃ p, .register p true ∈ h) ∧
    (∀ k ∈ h, isCommand k = true → (∃ p r, k = .register p r ∧ RouteAsked a p ∧ Nexthop x h a.nexthop p.face) ∨
      ∃ u c r, k = .create { uri := some c } r ∧ a.nexthop = .uri u ∧ u.scheme ≠ "ether" ∧ .canon u (some c) ∈ h ∧ Matches x h a.nexthop []) ∧
    (h.filter isCreate).length ≤ 1 ∧ (h.filter (fun k => isCommand k && !isCreate k)).length ≤ 1 ∧
    (n = 0 ∨ (n = 3 ∧ Matches x h a.nexthop []) ∨ (n = 5 ∧ ∃ l, 1 < l.length ∧ Matches x h a.nexthop l) ∨ (n = 4 ∧ NotCanonical h a.nexthop) ∨
      (n = 1 ∧ (NoAnswer x h a.nexthop ∨ (∃ p, .register p false ∈ h) ∨ ∃ p c o, .create p (.fail c o) ∈ h))) := by
  obtain ⟨h0, c, l, he, hf⟩ := findTarget_ex x a.nexthop false
  unfold routeAdd at hr
  rw [he] at hr
  obtain ⟨k1, k2, k3, k4, k5, k6, _⟩ := hf.facts []
  rw [List.append_nil] at k2 k3 k4 k5 k6
  have hreg : ∀ p r, Call.register p r ∉ h0 := fun p r hm => by have := k1 _ hm; simp [isCommand] at this
  have hnil1 : h0.filter isCreate = [] := by
    rw [List.filter_eq_nil_iff]; intro k hk
    have := k1 k hk
    cases k <;> simp_all [isCreate, isCommand]
  have hnil2 : h0.filter (fun k => isCommand k && !isCreate k) = [] := by
    rw [List.filter_eq_nil_iff]; intro k hk; rw [k1 k hk]; simp
  have quiet : ∀ m, m ≠ 0 → h0 = h → m = n → (n = 0 ↔ ∃ p, .register p true ∈ h) ∧
    (∀ k ∈ h, isCommand k = true → (∃ p r, k = .register p r ∧ RouteAsked a p ∧ Nexthop x h a.nexthop p.face) ∨
      ∃ u c r, k = .create { uri := some c } r ∧ a.nexthop = .uri u ∧ u.scheme ≠ "ether" ∧ .canon u (some c) ∈ h ∧ Matches x h a.nexthop []) ∧
    (h.filter isCreate).length ≤ 1 ∧ (h.filter (fun k => isCommand k && !isCreate k)).length ≤ 1 := by
    rintro m hm rfl rfl
    refine ⟨⟨fun h => absurd h hm, ?_⟩, ?_, by rw [hnil1]; simp, by rw [hnil2]; simp⟩
    · rintro ⟨p, hp⟩; exact absurd hp (hreg p true)
    · intro k hk hc; rw [k1 k hk] at hc; cases hc
  cases c with
  | ok =>
    obtain ⟨_, _, hone⟩ := k2 rfl
    obtain ⟨s, rfl⟩ := hone (.inl rfl)
    dsimp only at hr
    obtain ⟨p, r, hp, hface, hask⟩ := register_spec x h0 a s.id
    rw [hp, Prod.mk.injEq] at hr
    obtain ⟨rfl, rfl⟩ := hr
    have hM := ((hf.facts [.register p r]).2.1 rfl).2.1
    refine ⟨?_, ?_, ?_, ?_, ?_⟩
    · constructor
      · intro h
        cases r with
        | false => simp at h
        | true => exact ⟨p, by simp⟩
      · rintro ⟨q, hq⟩
        simp only [List.mem_append, List.mem_singleton, Call.register.injEq] at hq
        rcases hq with hq | ⟨_, hq⟩
        · exact absurd hq (hreg q true)
        · rw [← hq]; rfl
    · intro k hk hc
      simp only [List.mem_append, List.mem_singleton] at hk
      rcases hk with hk | rfl
      · rw [k1 k hk] at hc; cases hc
      · exact .inl ⟨p, r, rfl, hask, .inl ⟨s, hM, hface.symm⟩⟩
    · rw [List.filter_append, hnil1]; exact Nat.zero_le 1
    · rw [List.filter_append, hnil2]; exact Nat.le_refl 1
    · cases r with
      | true => exact .inl rfl
      | false => exact .inr (.inr (.inr (.inr ⟨rfl, .inr (.inl ⟨p, by simp⟩)⟩)))
  | error =>
    dsimp only at hr
    rw [Prod.mk.injEq] at hr
    obtain ⟨q1, q2, q3, q4⟩ := quiet 1 (by simp) hr.1 hr.2
    refine ⟨q1, q2, q3, q4, .inr (.inr (.inr (.inr ⟨hr.2.symm, .inl ?_⟩)))⟩
    rw [← hr.1]; exact k5 rfl
  | canonizeError =>
    dsimp only at hr
    rw [Prod.mk.injEq] at hr
    obtain ⟨q1, q2, q3, q4⟩ := quiet 4 (by simp) hr.1 hr.2
    refine ⟨q1, q2, q3, q4, .inr (.inr (.inr (.inl ⟨hr.2.symm, ?_⟩)))⟩
    rw [← hr.1]; exact k6 rfl
  | ambiguous =>
    dsimp only at hr
    rw [Prod.mk.injEq] at hr
    obtain ⟨q1, q2, q3, q4⟩ := quiet 5 (by simp) hr.1 hr.2
    refine ⟨q1, q2, q3, q4, .inr (.inr (.inl ⟨hr.2.symm, l, (k4 rfl).2.1, ?_⟩))⟩
    rw [← hr.1]; exact (k4 rfl).1
  | notFound =>
    dsimp only at hr
    cases ht : a.nexthop with
    | id m =>
      rw [ht] at hr
      dsimp only at hr
      rw [Prod.mk.injEq] at hr
      obtain ⟨q1, q2, q3, q4⟩ := quiet 3 (by simp) hr.1 hr.2
      rw [ht] at q2 k3
      exact ⟨q1, q2, q3, q4, .inr (.inl ⟨hr.2.symm, hr.1 ▸ k3 rfl⟩)⟩
    | uri u =>
      rw [ht] at hr
      dsimp only at hr
      by_cases hs : u.scheme = "ether"
      · rw [if_pos hs] at hr
        rw [Prod.mk.injEq] at hr
        obtain ⟨q1, q2, q3, q4⟩ := quiet 3 (by simp) hr.1 hr.2
        rw [ht] at q2 k3
        exact ⟨q1, q2, q3, q4, .inr (.inl ⟨hr.2.symm, hr.1 ▸ k3 rfl⟩)⟩
      · rw [if_neg hs] at hr
        have hM0 := fun tail => (hf.facts tail).2.2.1 rfl
        rw [ht] at hM0
        unfold canonize at hr
        have hnil1' : ∀ v, (h0 ++ [Call.canon u v]).filter isCreate = [] := fun v => by rw [List.filter_append, hnil1]; rfl
        have hnil2' : ∀ v, (h0 ++ [Call.canon u v]).filter (fun k => isCommand k && !isCreate k) = [] := fun v => by rw [List.filter_append, hnil2]; rfl
        cases hcu : x.canon h0 u with
        | none =>
          rw [hcu] at hr
          dsimp only at hr
          rw [Prod.mk.injEq] at hr
          obtain ⟨rfl, rfl⟩ := hr
          refine ⟨⟨by simp, ?_⟩, ?_, by rw [hnil1']; simp, by rw [hnil2']; simp, .inr (.inr (.inr (.inl ⟨rfl, u, rfl, by simp⟩)))⟩
          · rintro ⟨p, hp⟩
            simp only [List.mem_append, List.mem_singleton, reduceCtorEq, or_false] at hp
            exact absurd hp (hreg p true)
          · intro k hk hc
            simp only [List.mem_append, List.mem_singleton] at hk
            rcases hk with hk | rfl
            · rw [k1 k hk] at hc; cases hc
            · cases hc
        | some cu =>
          rw [hcu] at hr
          dsimp only at hr
          cases hcr : x.create (h0 ++ [.canon u (some cu)]) { uri := some cu } with
          | fail d o =>
            rw [hcr] at hr
            dsimp only at hr
            rw [Prod.mk.injEq] at hr
            obtain ⟨rfl, rfl⟩ := hr
            refine ⟨⟨by simp, ?_⟩, ?_, ?_, ?_, .inr (.inr (.inr (.inr ⟨rfl, .inr (.inr ⟨{ uri := some cu }, d, o, by simp⟩)⟩)))⟩
            · rintro ⟨p, hp⟩
              simp only [List.mem_append, List.mem_singleton, reduceCtorEq, or_false] at hp
              exact absurd hp (hreg p true)
            · intro k hk hc
              simp only [List.mem_append, List.mem_singleton] at hk
              rcases hk with (hk | rfl) | rfl
              · rw [k1 k hk] at hc; cases hc
              · cases hc
              · refine .inr ⟨u, cu, _, rfl, rfl, hs, by simp, ?_⟩
                rw [List.append_assoc]; exact hM0 _
            · rw [List.filter_append, hnil1']; exact Nat.le_refl 1
            · rw [List.filter_append, hnil2']; exact Nat.zero_le 1
          | ok i =>
            rw [hcr] at hr
            dsimp only at hr
            obtain ⟨p, r, hp, hface, hask⟩ := register_spec x (h0 ++ [.canon u (some cu)] ++ [.create { uri := some cu } (.ok i)]) a i.id
            rw [hp, Prod.mk.injEq] at hr
            obtain ⟨rfl, rfl⟩ := hr
            have hM : Matches x (h0 ++ [.canon u (some cu)] ++ [.create { uri := some cu } (.ok i)] ++ [.register p r]) (.uri u) [] := by
              rw [List.append_assoc, List.append_assoc]; exact hM0 _
            refine ⟨?_, ?_, ?_, ?_, ?_⟩
            · constructor
              · intro h
                cases r with
                | false => simp at h
                | true => exact ⟨p, by simp⟩
              · rintro ⟨q, hq⟩
                simp only [List.mem_append, List.mem_singleton, Call.register.injEq, reduceCtorEq, or_false] at hq
                rcases hq with hq | ⟨_, hq⟩
                · exact absurd hq (hreg q true)
                · rw [← hq]; rfl
            · intro k hk hc
              simp only [List.mem_append, List.mem_singleton] at hk
              rcases hk with ((hk | rfl) | rfl) | rfl
              · rw [k1 k hk] at hc; cases hc
              · cases hc
              · exact .inr ⟨u, cu, _, rfl, rfl, hs, by simp, hM⟩
              · exact .inl ⟨p, r, rfl, hask, .inr ⟨hM, u, cu, i, rfl, hs, by simp, by simp, hface.symm⟩⟩
            · rw [List.filter_append, List.filter_append, hnil1']; exact Nat.le_refl 1
            · rw [List.filter_append, List.filter_append, hnil2']; exact Nat.le_refl 1
            · cases r with
              | true => exact .inl rfl
              | false => exact .inr (.inr (.inr (.inr ⟨rfl, .inr (.inl ⟨p, by simp⟩)⟩)))

theorem faceIds_mem (l : List Status) (i : Nat) : i ∈ faceIds l ↔ ∃ s ∈ l, s.id = i := by
  induction l with
  | nil => simp [faceIds]
  | cons s l ih =>
    unfold faceIds
    split
    · rename_i hm
      rw [ih]
      constructor
      · rintro ⟨t, ht, rfl⟩; exact ⟨t, by simp [ht], rfl⟩
      · rintro ⟨t, ht, rfl⟩
        cases List.mem_cons.1 ht with
        | inl h => subst h; exact ih.1 hm
        | inr h => exact ⟨t, h, rfl⟩
    · simp only [List.mem_cons, ih]
      constructor
      · rintro (rfl | ⟨t, ht, rfl⟩)
        · exact ⟨s, .inl rfl, rfl⟩
        · exact ⟨t, .inr ht, rfl⟩
      · rintro ⟨t, rfl | ht, rfl⟩
        · exact .inl rfl
        · exact .inr ⟨t, ht, rfl⟩

theorem faceIds_nodup (l : List Status) : (faceIds l).Nodup := by
  induction l with
  | nil => simp [faceIds]
  | cons s l ih =>
    unfold faceIds
    split
    · exact ih
    · rename_i h; exact List.nodup_cons.2 ⟨h, ih⟩

theorem unregisterAll_spec (x : World) (name origin : Nat) (fs : List Nat) : ∀ (h : Hist) (n : Nat), ∃ rs : List Bool, rs.length = fs.length ∧
    (unregisterAll x name origin h fs n).1 = h ++ (fs.zip rs).map (fun z => .unregister ⟨name, z.1, origin⟩ z.2) ∧
    (unregisterAll x name origin h fs n).2 = if rs.all (fun r => r) then n else 1 := by
  induction fs with
  | nil => intro h n; exact ⟨[], rfl, by simp [unregisterAll], by simp [unregisterAll]⟩
  | cons f fs ih =>
    intro h n
    obtain ⟨rs, h1, h2, h3⟩ := ih (h ++ [.unregister ⟨name, f, origin⟩ (x.unregister h ⟨name, f, origin⟩)]) (if x.unregister h ⟨name, f, origin⟩ then n else 1)
    refine ⟨x.unregister h ⟨name, f, origin⟩ :: rs, by simp [h1], ?_, ?_⟩
    · rw [unregisterAll]; rw [h2]; simp
    · rw [unregisterAll]; rw [h3]
      cases x.unregister h ⟨name, f, origin⟩ <;> simp

/-- `nfdc route remove`: one command for each face that the argument stands for, about the prefix and origin asked for (static by default), and nothing
else. The exit code is 0 exactly if there are such faces and NFD has accepted all of these commands. -/
theorem C102_route_remove (x : World) (name : Nat) (t : Target) (origin : Option Nat) (h : Hist) (n : Nat) (hr : routeRemove x name t origin = some (h, n)) :
    (∀ k ∈ h, isCommand k = true → ∃ l s r, Matches x h t l ∧ s ∈ l ∧ k = .unregister ⟨name, s.id, askedOrigin origin⟩ r) ∧
    (∀ l, Matches x h t l → ∀ s ∈ l, ∃ r, .unregister ⟨name, s.id, askedOrigin origin⟩ r ∈ h) ∧
    (n = 0 ↔ (∃ l, l ≠ [] ∧ Matches x h t l) ∧ ∀ p r, .unregister p r ∈ h → r = true) ∧
    (n = 0 ∨ (n = 3 ∧ Matches x h t []) ∨ (n = 4 ∧ NotCanonical h t) ∨ (n = 1 ∧ (NoAnswer x h t ∨ ∃ p, .unregister p false ∈ h))) := by
  obtain ⟨h0, c, l, he, hf⟩ := findTarget_ex x t true
  unfold routeRemove at hr
  rw [he] at hr
  obtain ⟨k1, k2, k3, k4, k5, k6, k7⟩ := hf.facts []
  rw [List.append_nil] at k2 k3 k4 k5 k6
  have hun : ∀ p r, Call.unregister p r ∉ h0 := fun p r hm => by have := k1 _ hm; simp [isCommand] at this
  have hor : origin.getD originStatic = askedOrigin origin := by cases origin <;> rfl
  have quiet : h0 = h → (c ≠ .ok ∧ c ≠ .ambiguous) → n ≠ 0 →
    (∀ k ∈ h, isCommand k = true → ∃ l s r, Matches x h t l ∧ s ∈ l ∧ k = .unregister ⟨name, s.id, askedOrigin origin⟩ r) ∧
    (∀ l, Matches x h t l → ∀ s ∈ l, ∃ r, .unregister ⟨name, s.id, askedOrigin origin⟩ r ∈ h) ∧
    (n = 0 ↔ (∃ l, l ≠ [] ∧ Matches x h t l) ∧ ∀ p r, .unregister p r ∈ h → r = true) := by
    rintro rfl hc hn
    have hl : ∀ l', Matches x h0 t l' → l' = [] := by
      intro l' hm
      obtain ⟨rfl, h4⟩ := k7 l' hm
      rcases h4 with rfl | rfl | rfl
      · exact absurd rfl hc.1
      · obtain ⟨he2, _⟩ := k7 [] (k3 rfl)
        exact he2.symm
      · exact absurd rfl hc.2
    refine ⟨?_, ?_, ?_⟩
    · intro k hk hc; rw [k1 k hk] at hc; cases hc
    · intro l' hm s hs; rw [hl l' hm] at hs; cases hs
    · exact ⟨fun h => absurd h hn, fun ⟨⟨l', h1, h2⟩, _⟩ => absurd (hl l' h2) h1⟩
  cases c with
  | ambiguous => cases hr
  | error =>
    simp only [Option.some.injEq, Prod.mk.injEq] at hr
    obtain ⟨q1, q2, q3⟩ := quiet hr.1 (by simp) (by rw [← hr.2]; simp [Code.num])
    exact ⟨q1, q2, q3, .inr (.inr (.inr ⟨hr.2.symm, .inl (hr.1 ▸ k5 rfl)⟩))⟩
  | notFound =>
    simp only [Option.some.injEq, Prod.mk.injEq] at hr
    obtain ⟨q1, q2, q3⟩ := quiet hr.1 (by simp) (by rw [← hr.2]; simp [Code.num])
    exact ⟨q1, q2, q3, .inr (.inl ⟨hr.2.symm, hr.1 ▸ k3 rfl⟩)⟩
  | canonizeError =>
    simp only [Option.some.injEq, Prod.mk.injEq] at hr
    obtain ⟨q1, q2, q3⟩ := quiet hr.1 (by simp) (by rw [← hr.2]; simp [Code.num])
    exact ⟨q1, q2, q3, .inr (.inr (.inl ⟨hr.2.symm, hr.1 ▸ k6 rfl⟩))⟩
  | ok =>
    simp only [Option.some.injEq] at hr
    obtain ⟨rs, e1, e2, e3⟩ := unregisterAll_spec x name (origin.getD originStatic) (faceIds l) h0 0
    rw [hr] at e2 e3
    dsimp only at e2 e3
    subst e2
    have hM := ((hf.facts (((faceIds l).zip rs).map (fun z => Call.unregister ⟨name, z.1, origin.getD originStatic⟩ z.2))).2.1 rfl).2.1
    have hmem : ∀ p r, Call.unregister p r ∈ h0 ++ ((faceIds l).zip rs).map (fun z => Call.unregister ⟨name, z.1, origin.getD originStatic⟩ z.2) →
        r ∈ rs ∧ p.face ∈ faceIds l ∧ p = ⟨name, p.face, origin.getD originStatic⟩ := by
      intro p r hm
      simp only [List.mem_append, List.mem_map] at hm
      rcases hm with hm | ⟨z, hz, he⟩
      · exact absurd hm (hun p r)
      · simp only [Call.unregister.injEq] at he
        obtain ⟨rfl, rfl⟩ := he
        exact ⟨(List.of_mem_zip (a := z.1) (b := z.2) hz).2, (List.of_mem_zip (a := z.1) (b := z.2) hz).1, rfl⟩
    have hget : ∀ r ∈ rs, ∃ p, Call.unregister p r ∈ h0 ++ ((faceIds l).zip rs).map (fun z => Call.unregister ⟨name, z.1, origin.getD originStatic⟩ z.2) := by
      intro r hr
      obtain ⟨i, hi, rfl⟩ := List.getElem_of_mem hr
      refine ⟨⟨name, (faceIds l)[i]'(by omega), origin.getD originStatic⟩, ?_⟩
      rw [List.mem_append, List.mem_map]
      right
      refine ⟨((faceIds l)[i]'(by omega), rs[i]), ?_, rfl⟩
      rw [List.mem_iff_getElem]
      exact ⟨i, by rw [List.length_zip]; omega, by rw [List.getElem_zip]⟩
    have hM2 : ∀ l', Matches x (h0 ++ ((faceIds l).zip rs).map (fun z => Call.unregister ⟨name, z.1, origin.getD originStatic⟩ z.2)) t l' → l' = l := by
      rintro l' ⟨f, hA, hQ⟩
      have hQ0 : Call.query f (some l') ∈ h0 := by
        simp only [List.mem_append, List.mem_map] at hQ
        rcases hQ with hQ | ⟨z, _, hz⟩
        · exact hQ
        · cases hz
      have hA0 : Asks x h0 t f := by
        cases hA with
        | id n => exact .id n
        | plain u hc => exact .plain u hc
        | canon u c hc hm =>
          refine .canon u c hc ?_
          simp only [List.mem_append, List.mem_map] at hm
          rcases hm with hm | ⟨z, _, hz⟩
          · exact hm
          · cases hz
      exact (k7 l' ⟨f, hA0, hQ0⟩).1
    refine ⟨?_, ?_, ?_, ?_⟩
    · intro k hk hc
      have hk0 := hk
      simp only [List.mem_append, List.mem_map] at hk
      rcases hk with hk | ⟨z, hz, rfl⟩
      · rw [k1 k hk] at hc; cases hc
      · obtain ⟨s, hs, hid⟩ := (faceIds_mem l z.1).1 (List.of_mem_zip (a := z.1) (b := z.2) hz).1
        exact ⟨l, s, z.2, hM, hs, by rw [hid, hor]⟩
    · intro l' hm s hs
      rw [hM2 l' hm] at hs
      have hi := (faceIds_mem l s.id).2 ⟨s, hs, rfl⟩
      obtain ⟨i, hi, hie⟩ := List.getElem_of_mem hi
      refine ⟨rs[i]'(by omega), ?_⟩
      rw [List.mem_append, List.mem_map]
      right
      refine ⟨(s.id, rs[i]'(by omega)), ?_, by rw [hor]⟩
      rw [List.mem_iff_getElem]
      exact ⟨i, by rw [List.length_zip]; omega, by rw [List.getElem_zip, hie]⟩
    · rw [e3]
      constructor
      · intro hn
        refine ⟨⟨l, (k2 rfl).1, hM⟩, ?_⟩
        intro p r hm
        split at hn
        · rename_i hall
          exact List.all_eq_true.1 hall r (hmem p r hm).1
        · cases hn
      · rintro ⟨_, hall⟩
        rw [if_pos]
        rw [List.all_eq_true]
        intro r hr
        obtain ⟨p, hp⟩ := hget r hr
        exact hall p r hp
    · rw [e3]
      split
      · exact .inl rfl
      · rename_i hall
        refine .inr (.inr (.inr ⟨rfl, .inr ?_⟩))
        have : ∃ r ∈ rs, r = false := by simpa using hall
        obtain ⟨r, hr, rfl⟩ := this
        exact hget _ hr

end Verif.Nfdc.Ops
