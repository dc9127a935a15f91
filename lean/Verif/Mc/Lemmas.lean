import Verif.Mc.Spec

namespace Verif.Mc

theorem lookup_mem {α β : Type} [BEq α] [LawfulBEq α] {l : List (α × β)} {a : α} {b : β} (h : l.lookup a = some b) : (a, b) ∈ l := by
  induction l with
  | nil => cases h
  | cons x l ih =>
    rw [List.lookup_cons] at h
    split at h
    · rename_i hx; cases h; have := eq_of_beq hx; subst this; simp
    · exact List.mem_cons_of_mem _ (ih h)

theorem lookup_none {α β : Type} [BEq α] [LawfulBEq α] {l : List (α × β)} {a : α} (h : l.lookup a = none) (b : β) : (a, b) ∉ l := by
  induction l with
  | nil => simp
  | cons x l ih =>
    rw [List.lookup_cons] at h
    split at h
    · cases h
    · rename_i hx
      intro hm
      rcases List.mem_cons.1 hm with rfl | hm
      · simp at hx
      · exact ih h hm

/-- What always holds: exactly the faces that are not CLOSED are recorded, by local endpoint, and they are in the face table. -/
structure Inv (s : St) : Prop where
  keys : s.map.Pairwise (fun a b => a.1 ≠ b.1)
  sound : ∀ loc k, (loc, k) ∈ s.map → ∃ f, s.faces[k]? = some f ∧ f.loc = loc ∧ f.st ≠ .closed
  complete : ∀ (k : Nat) (f : Face), s.faces[k]? = some f → f.st ≠ .closed → (f.loc, k) ∈ s.map
  table : ∀ (k : Nat) (f : Face), s.faces[k]? = some f → f.table = true

theorem Inv.init : Inv init := ⟨List.Pairwise.nil, by simp [Mc.init], by simp [Mc.init], by simp [Mc.init]⟩

theorem pairwise_fst_unique {l : List (Ep × Nat)} (h : l.Pairwise (fun a b => a.1 ≠ b.1)) {a : Ep} {j k : Nat} (hj : (a, j) ∈ l) (hk : (a, k) ∈ l) : j = k := by
  induction l with
  | nil => cases hj
  | cons x l ih =>
    rw [List.pairwise_cons] at h
    rcases List.mem_cons.1 hj with hj | hj
    · rcases List.mem_cons.1 hk with hk | hk
      · rw [← hj] at hk; cases hk; rfl
      · rw [← hj] at h; exact absurd rfl (h.1 (a, k) hk)
    · rcases List.mem_cons.1 hk with hk | hk
      · rw [← hk] at h; exact absurd rfl (h.1 (a, j) hj)
      · exact ih h.2 hj hk

theorem Inv.lookup {s : St} (hi : Inv s) {k : Nat} {f : Face} (h : s.faces[k]? = some f) (hc : f.st ≠ .closed) : s.map.lookup f.loc = some k := by
  cases hl : s.map.lookup f.loc with
  | none => exact absurd (hi.complete k f h hc) (lookup_none hl k)
  | some j => rw [pairwise_fst_unique hi.keys (lookup_mem hl) (hi.complete k f h hc)]

/-- Faces are only added. -/
structure Grow (s s' : St) : Prop where
  cfg : s'.cfg = s.cfg
  netifs : s'.netifs = s.netifs
  channels : s'.channels = s.channels
  faces : ∀ (k : Nat) (f : Face), s.faces[k]? = some f → s'.faces[k]? = some f
  watch : ∀ i ∈ s.watch, i ∈ s'.watch

theorem Grow.refl (s : St) : Grow s s := ⟨rfl, rfl, rfl, fun _ _ h => h, fun _ h => h⟩
theorem Grow.trans {a b c : St} (h1 : Grow a b) (h2 : Grow b c) : Grow a c :=
  ⟨h2.cfg.trans h1.cfg, h2.netifs.trans h1.netifs, h2.channels.trans h1.channels, fun k f h => h2.faces k f (h1.faces k f h), fun i h => h2.watch i (h1.watch i h)⟩

/-- One address of one interface: `createMulticastFace` and `addFace`. -/
def place (opens : Ep → Bool) (n : Netif) (a : Addr) (s : St) : St × Option Nat :=
  match createMcast opens s n a with
  | none => (s, none)
  | some (s, k) => (register s k, some k)

theorem forAddrs_cons (opens : Ep → Bool) (n : Netif) (a : Addr) (l : List Addr) (s : St) :
    forAddrs opens n (a :: l) s = ((forAddrs opens n l (place opens n a s).1).1, (place opens n a s).2.toList ++ (forAddrs opens n l (place opens n a s).1).2) := by
  rw [forAddrs, place]
  cases createMcast opens s n a with
  | none => rfl
  | some x => rfl

/-- The local endpoint for an address. -/
def locFor (c : Config) (n : Netif) (a : Addr) : Ep := ⟨a, (remoteFor c n a).ep.port⟩

/-- What `place` does. -/
inductive Placed (opens : Ep → Bool) (n : Netif) (a : Addr) (s : St) : St × Option Nat → Prop
  | found (k : Nat) (f : Face) : s.faces[k]? = some f → f.loc = locFor s.cfg n a → f.remote = remoteFor s.cfg n a → f.st ≠ .closed →
      Placed opens n a s (s, some k)
  | new (s' : St) (f : Face) : s'.faces = s.faces ++ [f] → f.loc = locFor s.cfg n a → f.remote = remoteFor s.cfg n a → f.st = .up →
      s.map.lookup (locFor s.cfg n a) = none → Placed opens n a s (s', some s.faces.length)
  | failed : (∀ (k : Nat) (f : Face), s.faces[k]? = some f → f.loc = locFor s.cfg n a → f.st ≠ .closed → f.remote ≠ remoteFor s.cfg n a) →
      ((∃ (k : Nat) (f : Face), s.faces[k]? = some f ∧ f.loc = locFor s.cfg n a ∧ f.st ≠ .closed) ∨ locFor s.cfg n a ∈ s.channels ∨ opens (locFor s.cfg n a) = false) →
      Placed opens n a s (s, none)

theorem place_spec (opens : Ep → Bool) (n : Netif) (a : Addr) {s : St} (hi : Inv s) :
    Inv (place opens n a s).1 ∧ Grow s (place opens n a s).1 ∧ Placed opens n a s (place opens n a s) := by
  unfold place createMcast
  dsimp only
  change let x := (match (match s.map.lookup (locFor s.cfg n a) with
    | some k => match s.faces[k]? with
      | some f => if f.remote = remoteFor s.cfg n a then some (s, k) else none
      | none => none
    | none => if locFor s.cfg n a ∈ s.channels then none else if opens (locFor s.cfg n a) = false then none else
      some ({ s with faces := s.faces ++ [⟨locFor s.cfg n a, remoteFor s.cfg n a, .up, false⟩], map := s.map ++ [(locFor s.cfg n a, s.faces.length)] }, s.faces.length)) with
    | none => (s, none) | some (s, k) => (register s k, some k)); Inv x.1 ∧ Grow s x.1 ∧ Placed opens n a s x
  intro x
  cases hl : s.map.lookup (locFor s.cfg n a) with
  | some k =>
    obtain ⟨f, h1, h2, h3⟩ := hi.sound _ _ (lookup_mem hl)
    by_cases hr : f.remote = remoteFor s.cfg n a
    · have hx : x = (s, some k) := by
        simp only [x, hl, h1, hr, if_true, register]
        have ht := hi.table k f h1
        have : s.faces.set k { f with table := true } = s.faces := by
          have hf : ({ f with table := true } : Face) = f := by rw [← ht]
          rw [hf]
          obtain ⟨hlt, he⟩ := List.getElem?_eq_some_iff.1 h1
          rw [← he]; exact List.set_getElem_self hlt
        rw [hr] at this
        simp [this]
      rw [hx]
      exact ⟨hi, Grow.refl s, .found k f h1 h2 hr h3⟩
    · have hx : x = (s, none) := by simp only [x, hl, h1, hr, if_false]
      rw [hx]
      refine ⟨hi, Grow.refl s, .failed ?_ (Or.inl ⟨k, f, h1, h2, h3⟩)⟩
      intro j g hj hg hc
      have := pairwise_fst_unique hi.keys (lookup_mem hl) (by have := hi.complete j g hj hc; rwa [hg] at this)
      subst this
      rw [h1] at hj; cases hj; exact hr
  | none =>
    have hfree : ∀ (k : Nat) (f : Face), s.faces[k]? = some f → f.loc = locFor s.cfg n a → f.st ≠ .closed → f.remote ≠ remoteFor s.cfg n a := by
      intro k f h1 h2 h3
      exact absurd (by have := hi.complete k f h1 h3; rwa [h2] at this) (lookup_none hl k)
    by_cases hc : locFor s.cfg n a ∈ s.channels
    · have hx : x = (s, none) := by simp only [x, hl, hc, if_true]
      rw [hx]
      exact ⟨hi, Grow.refl s, .failed hfree (Or.inr (Or.inl hc))⟩
    · by_cases ho : opens (locFor s.cfg n a) = false
      · have hx : x = (s, none) := by simp only [x, hl, hc, ho, if_false, if_true]
        rw [hx]
        exact ⟨hi, Grow.refl s, .failed hfree (Or.inr (Or.inr ho))⟩
      · have hx : x = ({ s with faces := s.faces ++ [⟨locFor s.cfg n a, remoteFor s.cfg n a, .up, true⟩], map := s.map ++ [(locFor s.cfg n a, s.faces.length)] },
            some s.faces.length) := by
          simp only [x, hl, hc, ho, if_false, register]
          simp
        rw [hx]
        refine ⟨⟨?_, ?_, ?_, ?_⟩, ⟨rfl, rfl, rfl, ?_, fun _ h => h⟩, .new _ ⟨locFor s.cfg n a, remoteFor s.cfg n a, .up, true⟩ rfl rfl rfl rfl hl⟩
        · rw [List.pairwise_append]
          refine ⟨hi.keys, by simp, ?_⟩
          intro y hy z hz
          simp only [List.mem_singleton] at hz
          subst hz
          intro he
          exact lookup_none hl y.2 (by have he : y.1 = locFor s.cfg n a := he; rw [← he]; exact hy)
        · intro loc k hm
          rcases List.mem_append.1 hm with hm | hm
          · obtain ⟨f, h1, h2⟩ := hi.sound loc k hm
            refine ⟨f, ?_, h2⟩
            rw [List.getElem?_append_left (by have := List.getElem?_eq_some_iff.1 h1; exact this.1)]; exact h1
          · simp only [List.mem_singleton, Prod.mk.injEq] at hm
            obtain ⟨rfl, rfl⟩ := hm
            exact ⟨⟨locFor s.cfg n a, remoteFor s.cfg n a, .up, true⟩, by simp, rfl, by simp⟩
        · intro k f h1 h2
          dsimp only at h1 ⊢
          rw [List.getElem?_append] at h1
          split at h1
          · exact List.mem_append.2 (Or.inl (hi.complete k f h1 h2))
          · rename_i hk
            have hk2 : k - s.faces.length = 0 := by
              have := (List.getElem?_eq_some_iff.1 h1).1
              simpa using this
            rw [hk2] at h1
            simp only [List.getElem?_cons_zero, Option.some.injEq] at h1
            subst h1
            have : k = s.faces.length := by omega
            subst this
            simp
        · intro k f h1
          dsimp only at h1
          rw [List.getElem?_append] at h1
          split at h1
          · exact hi.table k f h1
          · rename_i hk
            have hk2 : k - s.faces.length = 0 := by
              have := (List.getElem?_eq_some_iff.1 h1).1
              simpa using this
            rw [hk2] at h1
            simp only [List.getElem?_cons_zero, Option.some.injEq] at h1
            subst h1; rfl
        · intro k f h1
          dsimp only
          rw [List.getElem?_append_left (by have := List.getElem?_eq_some_iff.1 h1; exact this.1)]; exact h1

/-- Nothing stands in the way of faces `W`. -/
def Free (opens : Ep → Bool) (W : Ep → Remote → Prop) (s : St) : Prop :=
  ∀ loc r, W loc r → opens loc = true ∧ loc ∉ s.channels ∧
    ∀ (k : Nat) (f : Face), s.faces[k]? = some f → f.loc = loc → f.st ≠ .closed → f.remote = r ∧ f.st = .up

/-- No two faces of `W` need the same local endpoint. -/
def Functional (W : Ep → Remote → Prop) : Prop := ∀ loc r r', W loc r → W loc r' → r = r'

/-- The result of a loop that places faces for all targets `T`; `K` are the faces returned. -/
structure Res (opens : Ep → Bool) (T : Netif → Addr → Prop) (s s' : St) (K : List Nat) : Prop where
  inv : Inv s'
  grow : Grow s s'
  kept : ∀ k ∈ K, ∃ f n a, s'.faces[k]? = some f ∧ T n a ∧ f.loc = locFor s.cfg n a ∧ f.remote = remoteFor s.cfg n a
  fresh : ∀ (k : Nat) (f : Face), s'.faces[k]? = some f → s.faces[k]? = some f ∨
    (k ∈ K ∧ f.st = .up ∧ ∃ n a, T n a ∧ f.loc = locFor s.cfg n a ∧ f.remote = remoteFor s.cfg n a)
  stays : ∀ (k : Nat) (f : Face) n a, T n a → s.faces[k]? = some f → f.st ≠ .closed → f.loc = locFor s.cfg n a → f.remote = remoteFor s.cfg n a → k ∈ K
  done : ∀ W, Functional W → (∀ n a, T n a → W (locFor s.cfg n a) (remoteFor s.cfg n a)) → Free opens W s → Free opens W s' ∧
    ∀ n a, T n a → ∃ (k : Nat) (f : Face), s'.faces[k]? = some f ∧ f.loc = locFor s.cfg n a ∧ f.remote = remoteFor s.cfg n a ∧ f.st = .up

theorem Res.nil {opens : Ep → Bool} {s s' : St} {T : Netif → Addr → Prop} (hT : ∀ n a, ¬ T n a) (hi : Inv s') (hg : Grow s s') (hf : s'.faces = s.faces) :
    Res opens T s s' [] := by
  refine ⟨hi, hg, by simp, ?_, fun _ _ n a h => absurd h (hT n a), ?_⟩
  · intro k f h; rw [hf] at h; exact Or.inl h
  · intro W _ _ hfr
    refine ⟨?_, fun n a h => absurd h (hT n a)⟩
    intro loc r hw
    rw [hg.channels, hf]; exact hfr loc r hw

theorem Res.trans {opens : Ep → Bool} {s s1 s2 : St} {T1 T2 : Netif → Addr → Prop} {K1 K2 : List Nat} (h1 : Res opens T1 s s1 K1) (h2 : Res opens T2 s1 s2 K2) :
    Res opens (fun n a => T1 n a ∨ T2 n a) s s2 (K1 ++ K2) := by
  have hc := h1.grow.cfg
  refine ⟨h2.inv, h1.grow.trans h2.grow, ?_, ?_, ?_, ?_⟩
  · intro k hk
    rcases List.mem_append.1 hk with hk | hk
    · obtain ⟨f, n, a, x1, x2, x3⟩ := h1.kept k hk
      exact ⟨f, n, a, h2.grow.faces k f x1, Or.inl x2, x3⟩
    · obtain ⟨f, n, a, x1, x2, x3⟩ := h2.kept k hk
      rw [hc] at x3
      exact ⟨f, n, a, x1, Or.inr x2, x3⟩
  · intro k f hf
    rcases h2.fresh k f hf with hf | ⟨x1, x2, n, a, x3, x4⟩
    · rcases h1.fresh k f hf with hf | ⟨x1, x2, n, a, x3, x4⟩
      · exact Or.inl hf
      · exact Or.inr ⟨List.mem_append.2 (Or.inl x1), x2, n, a, Or.inl x3, x4⟩
    · rw [hc] at x4
      exact Or.inr ⟨List.mem_append.2 (Or.inr x1), x2, n, a, Or.inr x3, x4⟩
  · intro k f n a ht hf hcl hl hr
    rcases ht with ht | ht
    · exact List.mem_append.2 (Or.inl (h1.stays k f n a ht hf hcl hl hr))
    · exact List.mem_append.2 (Or.inr (h2.stays k f n a ht (h1.grow.faces k f hf) hcl (by rw [hc]; exact hl) (by rw [hc]; exact hr)))
  · intro W hW hT hfr
    obtain ⟨f1, p1⟩ := h1.done W hW (fun n a h => hT n a (Or.inl h)) hfr
    obtain ⟨f2, p2⟩ := h2.done W hW (fun n a h => by rw [hc]; exact hT n a (Or.inr h)) f1
    refine ⟨f2, ?_⟩
    rintro n a (h | h)
    · obtain ⟨k, f, x1, x2⟩ := p1 n a h
      exact ⟨k, f, h2.grow.faces k f x1, x2⟩
    · obtain ⟨k, f, x1, x2⟩ := p2 n a h
      rw [hc] at x2
      exact ⟨k, f, x1, x2⟩

theorem Res.place (opens : Ep → Bool) (n : Netif) (a : Addr) {s : St} (hi : Inv s) :
    Res opens (fun n' a' => n' = n ∧ a' = a) s (Mc.place opens n a s).1 (Mc.place opens n a s).2.toList := by
  obtain ⟨h1, h2, h3⟩ := place_spec opens n a hi
  generalize Mc.place opens n a s = x at *
  cases h3 with
  | found k f c1 c2 c3 c4 =>
    refine ⟨h1, h2, ?_, fun k f h => Or.inl h, ?_, ?_⟩
    · intro j hj
      simp only [Option.toList_some, List.mem_singleton] at hj
      subst hj
      exact ⟨f, n, a, c1, ⟨rfl, rfl⟩, c2, c3⟩
    · rintro j g n' a' ⟨rfl, rfl⟩ hg hc hl hr
      have e1 := hi.lookup hg hc
      have e2 := hi.lookup c1 c4
      rw [hl, ← c2] at e1
      rw [e2] at e1
      cases e1
      simp
    · intro W hW hT hfr
      refine ⟨hfr, ?_⟩
      rintro n' a' ⟨rfl, rfl⟩
      exact ⟨k, f, c1, c2, c3, ((hfr _ _ (hT n' a' ⟨rfl, rfl⟩)).2.2 k f c1 c2 c4).2⟩
  | new s' f c1 c2 c3 c4 c5 =>
    have hnew : s'.faces[s.faces.length]? = some f := by rw [c1]; simp
    refine ⟨h1, h2, ?_, ?_, ?_, ?_⟩
    · intro j hj
      simp only [Option.toList_some, List.mem_singleton] at hj
      subst hj
      exact ⟨f, n, a, hnew, ⟨rfl, rfl⟩, c2, c3⟩
    · intro j g hg
      dsimp only at hg
      rw [c1, List.getElem?_append] at hg
      split at hg
      · exact Or.inl hg
      · have hj : j - s.faces.length = 0 := by
          have := (List.getElem?_eq_some_iff.1 hg).1
          simpa using this
        rw [hj] at hg
        simp only [List.getElem?_cons_zero, Option.some.injEq] at hg
        subst hg
        have : j = s.faces.length := by omega
        subst this
        exact Or.inr ⟨by simp, c4, n, a, ⟨rfl, rfl⟩, c2, c3⟩
    · rintro j g n' a' ⟨rfl, rfl⟩ hg hc hl hr
      have := hi.lookup hg hc
      rw [hl, c5] at this
      cases this
    · intro W hW hT hfr
      refine ⟨?_, ?_⟩
      · intro loc r hw
        obtain ⟨y1, y2, y3⟩ := hfr loc r hw
        refine ⟨y1, by rw [h2.channels]; exact y2, ?_⟩
        intro j g hg hl hc
        dsimp only at hg
        rw [c1, List.getElem?_append] at hg
        split at hg
        · exact y3 j g hg hl hc
        · have hj : j - s.faces.length = 0 := by
            have := (List.getElem?_eq_some_iff.1 hg).1
            simpa using this
          rw [hj] at hg
          simp only [List.getElem?_cons_zero, Option.some.injEq] at hg
          subst hg
          have hw2 := hT n a ⟨rfl, rfl⟩
          rw [← c2, hl] at hw2
          exact ⟨by rw [c3]; exact hW _ _ _ hw2 hw, c4⟩
      · rintro n' a' ⟨rfl, rfl⟩
        exact ⟨s.faces.length, f, hnew, c2, c3, c4⟩
  | failed c1 c2 =>
    refine ⟨h1, h2, by simp, fun k f h => Or.inl h, ?_, ?_⟩
    · rintro j g n' a' ⟨rfl, rfl⟩ hg hc hl hr
      exact absurd hr (c1 j g hg hl hc)
    · intro W hW hT hfr
      obtain ⟨y1, y2, y3⟩ := hfr _ _ (hT n a ⟨rfl, rfl⟩)
      rcases c2 with ⟨k, f, d1, d2, d3⟩ | d | d
      · exact absurd (y3 k f d1 d2 d3).1 (c1 k f d1 d2 d3)
      · exact absurd d y2
      · rw [d] at y1; cases y1

theorem Res.congr {opens : Ep → Bool} {s s' : St} {T T' : Netif → Addr → Prop} {K : List Nat} (h : Res opens T s s' K) (hT : ∀ n a, T n a ↔ T' n a) :
    Res opens T' s s' K := by
  have : T = T' := funext fun n => funext fun a => propext (hT n a)
  rw [← this]; exact h

theorem forAddrs_res (opens : Ep → Bool) (n : Netif) : ∀ (l : List Addr) {s : St}, Inv s →
    Res opens (fun n' a' => n' = n ∧ a' ∈ l) s (forAddrs opens n l s).1 (forAddrs opens n l s).2 := by
  intro l
  induction l with
  | nil => intro s hi; exact Res.nil (by simp) hi (Grow.refl s) rfl
  | cons a l ih =>
    intro s hi
    rw [forAddrs_cons]
    have h1 := Res.place opens n a hi
    refine (h1.trans (ih h1.inv)).congr ?_
    intro n' a'
    simp only [List.mem_cons]
    grind

theorem pick_iff (n : Netif) (v6 : Bool) (a : Addr) : pick n v6 = some a ↔ a.v6 = v6 ∧ FirstUsable n a := by
  unfold pick FirstUsable Usable
  rw [Option.map_eq_some_iff]
  constructor
  · rintro ⟨⟨a', sc⟩, h1, rfl⟩
    rw [List.find?_eq_some_iff_append] at h1
    obtain ⟨h1, pre, post, h2, h3⟩ := h1
    simp only [Bool.and_eq_true, beq_iff_eq, Bool.or_eq_true] at h1
    refine ⟨h1.1, pre, sc, post, h2, h1.2, ?_⟩
    intro x hx hv hu
    have := h3 x hx
    simp only [Bool.not_and, Bool.not_or, Bool.or_eq_true, Bool.not_eq_true', beq_eq_false_iff_ne, ne_eq, Bool.and_eq_true] at this
    rcases this with h | h
    · exact h (by rw [hv]; exact h1.1)
    · rcases hu with hu | hu
      · exact h.1 hu
      · exact h.2 hu
  · rintro ⟨h0, pre, sc, post, h2, h3, h4⟩
    refine ⟨(a, sc), ?_, rfl⟩
    rw [List.find?_eq_some_iff_append]
    refine ⟨by simp [h0]; exact h3, pre, post, h2, ?_⟩
    intro x hx
    have := h4 x hx
    simp only [Bool.not_and, Bool.not_or, Bool.or_eq_true, Bool.not_eq_true', beq_eq_false_iff_ne, ne_eq, Bool.and_eq_true]
    by_cases hv : x.1.v6 = v6
    · right
      have := this (by rw [hv, h0])
      exact ⟨fun h => this (Or.inl h), fun h => this (Or.inr h)⟩
    · exact Or.inl hv

theorem mem_picks (n : Netif) (a : Addr) : a ∈ (pick n false).toList ++ (pick n true).toList ↔ FirstUsable n a := by
  simp only [List.mem_append, Option.mem_toList, pick_iff]
  constructor
  · rintro (h | h) <;> exact h.2
  · intro h
    cases hv : a.v6 with
    | false => exact Or.inl ⟨rfl, h⟩
    | true => exact Or.inr ⟨rfl, h⟩

theorem applyNetif_res (opens : Ep → Bool) (n : Netif) {s : St} (hi : Inv s) :
    Res opens (fun n' a' => n' = n ∧ Eligible s.cfg n ∧ FirstUsable n a') s (applyNetif opens s n).1 (applyNetif opens s n).2 := by
  unfold applyNetif
  by_cases h1 : s.cfg.enabled = false
  · rw [if_pos h1]; exact Res.nil (by simp [Eligible, h1]) hi (Grow.refl s) rfl
  rw [if_neg h1]
  by_cases h2 : n.up = false
  · rw [if_pos h2]; exact Res.nil (by simp [Eligible, h2]) hi (Grow.refl s) rfl
  rw [if_neg h2]
  by_cases h3 : n.loopback = true
  · rw [if_pos h3]; exact Res.nil (by simp [Eligible, h3]) hi (Grow.refl s) rfl
  rw [if_neg h3]
  by_cases h4 : n.multicast = false
  · rw [if_pos h4]; exact Res.nil (by simp [Eligible, h4]) hi (Grow.refl s) rfl
  rw [if_neg h4]
  by_cases h5 : s.cfg.pred n = false
  · rw [if_pos h5]; exact Res.nil (by simp [Eligible, h5]) hi (Grow.refl s) rfl
  rw [if_neg h5]
  dsimp only
  have he : Eligible s.cfg n := by
    simp only [Bool.not_eq_false, Bool.not_eq_true] at h1 h2 h3 h4 h5
    exact ⟨h1, h2, h3, h4, h5⟩
  by_cases h6 : (pick n false).toList ++ (pick n true).toList = []
  · rw [if_pos h6]
    refine Res.nil ?_ ⟨hi.keys, hi.sound, hi.complete, hi.table⟩ ⟨rfl, rfl, rfl, fun _ _ h => h, ?_⟩ rfl
    · rintro n' a' ⟨_, _, hu⟩
      have := (mem_picks n a').2 hu
      rw [h6] at this; cases this
    · intro i hi2
      dsimp only
      split <;> simp [hi2]
  · rw [if_neg h6]
    refine (forAddrs_res opens n _ hi).congr ?_
    intro n' a'
    rw [mem_picks]
    exact ⟨fun h => ⟨h.1, he, h.2⟩, fun h => ⟨h.1, h.2.2⟩⟩

theorem forNetifs_res (opens : Ep → Bool) : ∀ (l : List Netif) {s : St}, Inv s →
    Res opens (fun n a => n ∈ l ∧ Eligible s.cfg n ∧ FirstUsable n a) s (forNetifs opens l s).1 (forNetifs opens l s).2 := by
  intro l
  induction l with
  | nil => intro s hi; exact Res.nil (by simp) hi (Grow.refl s) rfl
  | cons n l ih =>
    intro s hi
    have h1 := applyNetif_res opens n hi
    refine (h1.trans (ih h1.inv)).congr ?_
    intro n' a'
    rw [h1.grow.cfg]
    simp only [List.mem_cons]
    grind

theorem groupFor_iff (c : Config) (n : Netif) (a : Addr) (r : Remote) : GroupFor c n a r ↔ r = remoteFor c n a := by
  unfold GroupFor remoteFor
  cases h : a.v6 <;> simp

theorem wanted_iff (c : Config) (l : List Netif) (loc : Ep) (r : Remote) :
    Wanted c l loc r ↔ ∃ n a, n ∈ l ∧ Eligible c n ∧ FirstUsable n a ∧ loc = locFor c n a ∧ r = remoteFor c n a := by
  unfold Wanted locFor
  constructor
  · rintro ⟨n, h1, h2, a, h3, h4, h5⟩
    rw [groupFor_iff] at h4
    subst h4
    exact ⟨n, a, h1, h2, h3, h5, rfl⟩
  · rintro ⟨n, a, h1, h2, h3, h4, rfl⟩
    exact ⟨n, h1, h2, a, h3, (groupFor_iff ..).2 rfl, h4⟩

/-! ### Closing -/

theorem close_spec {s : St} (hi : Inv s) (k : Nat) : Inv (close s k) ∧ (close s k).cfg = s.cfg ∧ (close s k).netifs = s.netifs ∧
    (close s k).channels = s.channels ∧ (close s k).watch = s.watch ∧
    (∀ j, j ≠ k → (close s k).faces[j]? = s.faces[j]?) ∧
    (∀ f, s.faces[k]? = some f → (close s k).faces[k]? = some (if f.st = .up then { f with st := .closing } else f)) ∧
    (s.faces[k]? = none → (close s k).faces[k]? = none) := by
  unfold close
  cases hk : s.faces[k]? with
  | none => exact ⟨hi, rfl, rfl, rfl, rfl, fun _ _ => rfl, by simp, fun _ => hk⟩
  | some f =>
    dsimp only
    by_cases hu : f.st = .up
    · rw [if_pos hu]
      have hlt := (List.getElem?_eq_some_iff.1 hk).1
      refine ⟨⟨hi.keys, ?_, ?_, ?_⟩, rfl, rfl, rfl, rfl, ?_, ?_, by simp⟩
      · intro loc j hm
        obtain ⟨g, x1, x2, x3⟩ := hi.sound loc j hm
        by_cases hj : j = k
        · subst hj
          rw [hk] at x1; cases x1
          exact ⟨{ f with st := .closing }, by simp [hlt], x2, by simp⟩
        · exact ⟨g, by dsimp only; rw [List.getElem?_set_ne (Ne.symm hj)]; exact x1, x2, x3⟩
      · intro j g hg hc
        by_cases hj : j = k
        · subst hj
          dsimp only at hg
          rw [List.getElem?_set_self hlt] at hg
          cases hg
          exact hi.complete j f hk (by rw [hu]; simp)
        · dsimp only at hg
          rw [List.getElem?_set_ne (Ne.symm hj)] at hg
          exact hi.complete j g hg hc
      · intro j g hg
        by_cases hj : j = k
        · subst hj
          dsimp only at hg
          rw [List.getElem?_set_self hlt] at hg
          cases hg
          exact hi.table j f hk
        · dsimp only at hg
          rw [List.getElem?_set_ne (Ne.symm hj)] at hg
          exact hi.table j g hg
      · intro j hj
        dsimp only
        rw [List.getElem?_set_ne (Ne.symm hj)]
      · intro g hg
        cases hg
        rw [if_pos hu]
        simp [hlt]
    · rw [if_neg hu]
      refine ⟨hi, rfl, rfl, rfl, rfl, fun _ _ => rfl, ?_, by simp⟩
      intro g hg
      cases hg
      rw [if_neg hu]; exact hk

theorem foldl_close_spec : ∀ (l : List Nat) {s : St}, Inv s → Inv (l.foldl close s) ∧ (l.foldl close s).cfg = s.cfg ∧ (l.foldl close s).netifs = s.netifs ∧
    (l.foldl close s).channels = s.channels ∧ (l.foldl close s).watch = s.watch ∧
    (∀ (j : Nat), j ∉ l → (l.foldl close s).faces[j]? = s.faces[j]?) ∧
    (∀ (j : Nat) (f : Face), (l.foldl close s).faces[j]? = some f → ∃ g : Face, s.faces[j]? = some g ∧ f.loc = g.loc ∧ f.remote = g.remote ∧
      (f.st = g.st ∨ (g.st = .up ∧ f.st = .closing)) ∧ (j ∈ l → f.st ≠ .up)) ∧
    (∀ (j : Nat) (g : Face), s.faces[j]? = some g → ∃ f : Face, (l.foldl close s).faces[j]? = some f) := by
  intro l
  induction l with
  | nil =>
    intro s hi
    exact ⟨hi, rfl, rfl, rfl, rfl, fun _ _ => rfl, fun j f h => ⟨f, h, rfl, rfl, Or.inl rfl, by simp⟩, fun j g h => ⟨g, h⟩⟩
  | cons k l ih =>
    intro s hi
    obtain ⟨a0, a1, a2, a3, a4, a5, a6, a7⟩ := close_spec hi k
    obtain ⟨b0, b1, b2, b3, b4, b5, b6, b7⟩ := ih a0
    rw [List.foldl_cons]
    have hback : ∀ (j : Nat) (f : Face), (close s k).faces[j]? = some f → ∃ g : Face, s.faces[j]? = some g ∧ f.loc = g.loc ∧ f.remote = g.remote ∧
      (f.st = g.st ∨ (g.st = .up ∧ f.st = .closing)) ∧ (j = k → f.st ≠ .up) := by
      intro j f h
      by_cases hj : j = k
      · subst hj
        cases hs : s.faces[j]? with
        | none => rw [a7 hs] at h; cases h
        | some g =>
          rw [a6 g hs] at h
          cases h
          refine ⟨g, rfl, ?_⟩
          by_cases hu : g.st = .up
          · rw [if_pos hu]; exact ⟨rfl, rfl, Or.inr ⟨hu, rfl⟩, fun _ => by simp⟩
          · rw [if_neg hu]; exact ⟨rfl, rfl, Or.inl rfl, fun _ => hu⟩
      · rw [a5 j hj] at h
        exact ⟨f, h, rfl, rfl, Or.inl rfl, fun h => absurd h hj⟩
    refine ⟨b0, b1.trans a1, b2.trans a2, b3.trans a3, b4.trans a4, ?_, ?_, ?_⟩
    · intro j hj
      simp only [List.mem_cons, not_or] at hj
      rw [b5 j hj.2, a5 j hj.1]
    · intro j f h
      obtain ⟨g, c1, c2, c3, c4, c5⟩ := b6 j f h
      obtain ⟨g', d1, d2, d3, d4, d5⟩ := hback j g c1
      refine ⟨g', d1, c2.trans d2, c3.trans d3, ?_, ?_⟩
      · rcases c4 with c4 | ⟨c4, c4'⟩
        · rcases d4 with d4 | ⟨d4, d4'⟩
          · exact Or.inl (c4.trans d4)
          · exact Or.inr ⟨d4, c4.trans d4'⟩
        · rcases d4 with d4 | ⟨d4, d4'⟩
          · exact Or.inr ⟨d4 ▸ c4, c4'⟩
          · rw [c4] at d4'; cases d4'
      · intro hj
        rcases List.mem_cons.1 hj with rfl | hj
        · intro hu
          rcases c4 with c4 | ⟨c4, c4'⟩
          · exact d5 rfl (c4 ▸ hu)
          · rw [hu] at c4'; cases c4'
        · exact c5 hj
    · intro j g h
      by_cases hj : j = k
      · subst hj; exact b7 j _ (a6 g h)
      · exact b7 j g (by rw [a5 j hj]; exact h)

theorem settle_inv {s : St} (hi : Inv s) (k : Nat) : Inv (settle s k) := by
  unfold settle
  cases hk : s.faces[k]? with
  | none => exact hi
  | some f =>
    dsimp only
    by_cases hu : f.st = .closing
    · rw [if_pos hu]
      have hlt := (List.getElem?_eq_some_iff.1 hk).1
      have hm := hi.complete k f hk (by rw [hu]; simp)
      refine ⟨hi.keys.sublist List.filter_sublist, ?_, ?_, ?_⟩
      · intro loc j hj
        simp only [List.mem_filter, bne_iff_ne, ne_eq] at hj
        obtain ⟨g, x1, x2, x3⟩ := hi.sound loc j hj.1
        have hjk : j ≠ k := by
          rintro rfl
          rw [hk] at x1; cases x1
          exact hj.2 x2.symm
        exact ⟨g, by dsimp only; rw [List.getElem?_set_ne (Ne.symm hjk)]; exact x1, x2, x3⟩
      · intro j g hg hc
        dsimp only at hg
        by_cases hj : j = k
        · subst hj
          rw [List.getElem?_set_self hlt] at hg
          cases hg
          exact absurd rfl hc
        · rw [List.getElem?_set_ne (Ne.symm hj)] at hg
          simp only [List.mem_filter, bne_iff_ne, ne_eq]
          refine ⟨hi.complete j g hg hc, ?_⟩
          intro he
          have h2 := hi.complete j g hg hc
          rw [he] at h2
          exact hj (pairwise_fst_unique hi.keys h2 hm)
      · intro j g hg
        dsimp only at hg
        by_cases hj : j = k
        · subst hj
          rw [List.getElem?_set_self hlt] at hg
          cases hg
          exact hi.table j f hk
        · rw [List.getElem?_set_ne (Ne.symm hj)] at hg
          exact hi.table j g hg
    · rw [if_neg hu]; exact hi

theorem createChannels_spec : ∀ (l : List Ep) {s : St}, Inv s → Inv (createChannels s l).1 ∧ (createChannels s l).1.faces = s.faces ∧
    (createChannels s l).1.map = s.map ∧ (createChannels s l).1.netifs = s.netifs ∧ (createChannels s l).1.watch = s.watch ∧ (createChannels s l).1.cfg = s.cfg ∧
    (∀ ep ∈ (createChannels s l).1.channels, ep ∈ s.channels ∨ ep ∈ l) := by
  intro l
  induction l with
  | nil => intro s hi; exact ⟨hi, rfl, rfl, rfl, rfl, rfl, fun _ h => Or.inl h⟩
  | cons ep l ih =>
    intro s hi
    rw [createChannels]
    unfold createChannel
    by_cases h1 : ep ∈ s.channels
    · rw [if_pos h1]
      obtain ⟨a1, a2, a3, a4, a5, a6, a7⟩ := ih hi
      exact ⟨a1, a2, a3, a4, a5, a6, fun x hx => (a7 x hx).imp id (fun h => by simp [h])⟩
    · rw [if_neg h1]
      by_cases h2 : (s.map.lookup ep).isSome = true
      · rw [if_pos h2]; exact ⟨hi, rfl, rfl, rfl, rfl, rfl, fun _ h => Or.inl h⟩
      · rw [if_neg h2]
        have hi2 : Inv { s with channels := ep :: s.channels } := ⟨hi.keys, hi.sound, hi.complete, hi.table⟩
        obtain ⟨a1, a2, a3, a4, a5, a6, a7⟩ := ih hi2
        refine ⟨a1, a2, a3, a4, a5, a6, ?_⟩
        intro x hx
        rcases a7 x hx with h | h
        · rcases List.mem_cons.1 h with rfl | h
          · exact Or.inr (by simp)
          · exact Or.inl h
        · exact Or.inr (by simp [h])

theorem applyConfig_inv (opens : Ep → Bool) {s : St} (hi : Inv s) : Inv (applyConfig opens s) :=
  (foldl_close_spec _ (forNetifs_res opens s.netifs hi).inv).1

theorem Inv.of_faces {s s' : St} (hi : Inv s) (h1 : s'.faces = s.faces) (h2 : s'.map = s.map) : Inv s' :=
  ⟨h2 ▸ hi.keys, fun loc k h => by rw [h1]; exact hi.sound loc k (h2 ▸ h), fun k f h hc => by rw [h2]; exact hi.complete k f (h1 ▸ h) hc,
    fun k f h => hi.table k f (h1 ▸ h)⟩

theorem step_inv {s : St} (hi : Inv s) (ev : Ev) : Inv (step s ev) := by
  cases ev with
  | config c chans opens =>
    obtain ⟨a1, -⟩ := createChannels_spec chans hi
    simp only [step]
    split
    · exact applyConfig_inv opens (a1.of_faces rfl rfl)
    · exact a1
  | added n opens =>
    have h2 : Inv { s with netifs := s.netifs ++ [n] } := hi.of_faces rfl rfl
    exact (applyNetif_res opens n h2).inv
  | addr i a opens =>
    simp only [step]
    split
    · split
      · exact hi.of_faces rfl rfl
      · exact (applyNetif_res opens _ (Inv.of_faces (s' := { s with netifs := s.netifs.map (addAddr i a) }) hi rfl rfl)).inv
    · exact hi.of_faces rfl rfl
  | change f => exact hi.of_faces rfl rfl
  | close k => exact (close_spec hi k).1
  | settle k => exact settle_inv hi k

theorem run_inv (es : List Ev) : ∀ {s : St}, Inv s → Inv (run s es) := by
  induction es with
  | nil => intro s h; exact h
  | cons e es ih => intro s h; exact ih (step_inv h e)

end Verif.Mc
