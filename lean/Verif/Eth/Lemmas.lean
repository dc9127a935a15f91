import Verif.Eth.Spec
import Verif.Mc.Lemmas

namespace Verif.Eth
open Verif.Mc (lookup_mem lookup_none)

/-- What always holds: exactly the faces that are not CLOSED are recorded, by interface and group, and all faces are in the face table; one channel
per interface. -/
structure Inv (s : St) : Prop where
  keys : s.map.Pairwise (fun a b => a.1 ≠ b.1)
  sound : ∀ x g k, ((x, g), k) ∈ s.map → ∃ f, s.faces[k]? = some f ∧ f.netif = x ∧ f.group = g ∧ f.st ≠ .closed
  complete : ∀ (k : Nat) (f : Face), s.faces[k]? = some f → f.st ≠ .closed → ((f.netif, f.group), k) ∈ s.map
  table : ∀ (k : Nat) (f : Face), s.faces[k]? = some f → f.table = true
  chans : s.chans.Pairwise (fun a b => a.name ≠ b.name)

theorem Inv.init : Inv init :=
  ⟨List.Pairwise.nil, by simp [Eth.init], by simp [Eth.init], by simp [Eth.init], List.Pairwise.nil⟩

theorem key_unique {α : Type} {l : List (α × Nat)} (h : l.Pairwise (fun a b => a.1 ≠ b.1)) {a : α} {j k : Nat} (hj : (a, j) ∈ l) (hk : (a, k) ∈ l) : j = k := by
  induction l with
  | nil => cases hj
  | cons x l ih =>
    rw [List.pairwise_cons] at h
    rcases List.mem_cons.1 hj with hj | hj
    · rcases List.mem_cons.1 hk with hk | hk
      · rw [← hj] at hk; cases hk; rfl
      · rw [← hj] at h; exact absurd rfl (h.1 (a, k) hk)
    · rcases List.mem_cons.1 hk with hk | hk
      · rw [← hk] at h; exact absurd rfl (h.1 (a, j) hj)
      · exact ih h.2 hj hk

/-! ### Channels -/

instance (n : Netif) : Decidable (Usable n) := by unfold Usable; infer_instance

/-- What one interface does to the channels. -/
def chanStep (works : String → Bool) (u : Unicast) (cs : List Chan) (n : Netif) : List Chan :=
  if u.enabled = true ∧ Usable n then
    if u.listen then (createChan n.name u.idle cs).map (fun c => if c.name == n.name then listen (works n.name) c else c) else createChan n.name u.idle cs
  else cs

theorem applyUni_eq (works : String → Bool) (s : St) (n : Netif) : applyUni works s n = { s with chans := chanStep works s.uni s.chans n } := by
  unfold applyUni chanStep
  by_cases h : s.uni.enabled = true ∧ Usable n
  · rw [if_pos h]
    obtain ⟨h1, h2, h3, h4⟩ := h
    rw [if_neg (by simp [h1]), if_neg (by simp [h2]), if_neg (by simp [h3]), if_neg (by simp [h4])]
  · rw [if_neg h]
    repeat' split
    all_goals first | rfl | (exfalso; apply h; unfold Usable; simp_all)

theorem listen_name (w : Bool) (c : Chan) : (listen w c).name = c.name ∧ (listen w c).idle = c.idle := by
  unfold listen; split <;> exact ⟨rfl, rfl⟩

/-- The channels of `a` are still there in `b`, where they may have begun to listen. -/
def Keeps (a b : List Chan) : Prop :=
  ∀ c ∈ a, ∃ d ∈ b, d.name = c.name ∧ d.idle = c.idle ∧ (c.flag = true → d = c)

theorem Keeps.refl (a : List Chan) : Keeps a a := fun c h => ⟨c, h, rfl, rfl, fun _ => rfl⟩
theorem Keeps.trans {a b c : List Chan} (h1 : Keeps a b) (h2 : Keeps b c) : Keeps a c := by
  intro x hx
  obtain ⟨y, hy, y1, y2, y3⟩ := h1 x hx
  obtain ⟨z, hz, z1, z2, z3⟩ := h2 y hy
  refine ⟨z, hz, z1.trans y1, z2.trans y2, fun h => ?_⟩
  have := y3 h; subst this
  exact z3 h

theorem createChan_keeps (x : String) (i : Nat) (cs : List Chan) : ∀ c ∈ cs, c ∈ createChan x i cs := by
  intro c hc; unfold createChan; split
  · exact hc
  · simp [hc]

theorem createChan_mem (x : String) (i : Nat) (cs : List Chan) (c : Chan) (h : c ∈ createChan x i cs) :
    c ∈ cs ∨ (c = ⟨x, i, false, false⟩ ∧ ∀ d ∈ cs, d.name ≠ x) := by
  unfold createChan at h; split at h
  · exact Or.inl h
  · rename_i hn
    rcases List.mem_append.1 h with h | h
    · exact Or.inl h
    · refine Or.inr ⟨by simpa using h, fun d hd hx => hn ?_⟩
      rw [List.any_eq_true]; exact ⟨d, hd, by simp [hx]⟩

theorem createChan_has (x : String) (i : Nat) (cs : List Chan) : ∃ c ∈ createChan x i cs, c.name = x := by
  unfold createChan; split
  · rename_i h; rw [List.any_eq_true] at h; obtain ⟨c, hc, h⟩ := h; exact ⟨c, hc, by simpa using h⟩
  · exact ⟨_, List.mem_append_right _ (List.mem_singleton.2 rfl), rfl⟩

theorem createChan_pairwise (x : String) (i : Nat) {cs : List Chan} (h : cs.Pairwise (fun a b => a.name ≠ b.name)) :
    (createChan x i cs).Pairwise (fun a b => a.name ≠ b.name) := by
  unfold createChan; split
  · exact h
  · rename_i hn
    rw [List.pairwise_append]
    refine ⟨h, by simp, ?_⟩
    intro a ha b hb hab
    rw [List.mem_singleton] at hb; subst hb
    exact hn (List.any_eq_true.2 ⟨a, ha, by simp at hab; simp [hab]⟩)

theorem listenMap_pairwise (x : String) (w : Bool) {cs : List Chan} (h : cs.Pairwise (fun a b => a.name ≠ b.name)) :
    (cs.map (fun c => if c.name == x then listen w c else c)).Pairwise (fun a b => a.name ≠ b.name) := by
  rw [List.pairwise_map]
  refine h.imp ?_
  intro a b hab
  have e : ∀ c : Chan, (if c.name == x then listen w c else c).name = c.name := by
    intro c; split
    · exact (listen_name w c).1
    · rfl
  rw [e, e]; exact hab

theorem chanStep_pairwise (works : String → Bool) (u : Unicast) {cs : List Chan} (n : Netif) (h : cs.Pairwise (fun a b => a.name ≠ b.name)) :
    (chanStep works u cs n).Pairwise (fun a b => a.name ≠ b.name) := by
  unfold chanStep
  split
  · split
    · exact listenMap_pairwise _ _ (createChan_pairwise _ _ h)
    · exact createChan_pairwise _ _ h
  · exact h

theorem chanStep_keeps (works : String → Bool) (u : Unicast) (cs : List Chan) (n : Netif) : Keeps cs (chanStep works u cs n) := by
  intro c hc
  unfold chanStep
  split
  · have h1 := createChan_keeps n.name u.idle cs c hc
    split
    · refine ⟨_, List.mem_map.2 ⟨c, h1, rfl⟩, ?_⟩
      split
      · refine ⟨(listen_name _ c).1, (listen_name _ c).2, ?_⟩
        intro h; unfold listen; rw [if_pos h]
      · exact ⟨rfl, rfl, fun _ => rfl⟩
    · exact ⟨c, h1, rfl, rfl, fun _ => rfl⟩
  · exact ⟨c, hc, rfl, rfl, fun _ => rfl⟩

/-- Where the channels come from: an old one, possibly listening now, or a new one. -/
theorem chanStep_from (works : String → Bool) (u : Unicast) (cs : List Chan) (n : Netif) (d : Chan) (h : d ∈ chanStep works u cs n) :
    (∃ c ∈ cs, d.name = c.name ∧ d.idle = c.idle ∧ (d = c ∨ (c.flag = false ∧ u.enabled = true ∧ u.listen = true ∧ Usable n ∧ n.name = c.name ∧ d = ⟨c.name, c.idle, true, works c.name⟩))) ∨
    ((∀ c ∈ cs, c.name ≠ d.name) ∧ u.enabled = true ∧ Usable n ∧ n.name = d.name ∧
      d = ⟨n.name, u.idle, u.listen, u.listen && works n.name⟩) := by
  unfold chanStep at h
  split at h
  · rename_i hu
    split at h
    · rename_i hl
      obtain ⟨c, hc, rfl⟩ := List.mem_map.1 h
      rcases createChan_mem _ _ _ _ hc with hc | ⟨rfl, hn⟩
      · refine Or.inl ⟨c, hc, ?_⟩
        split
        · rename_i hx
          have hx : c.name = n.name := by simpa using hx
          refine ⟨(listen_name _ c).1, (listen_name _ c).2, ?_⟩
          unfold listen
          split
          · exact Or.inl rfl
          · rename_i hf
            refine Or.inr ⟨by simpa using hf, hu.1, hl, hu.2, hx.symm, ?_⟩
            rw [hx]
        · exact ⟨rfl, rfl, Or.inl rfl⟩
      · refine Or.inr ?_
        simp only [beq_self_eq_true, if_true, listen, Bool.false_eq_true, if_false]
        exact ⟨hn, hu.1, hu.2, trivial, by simp [hl]⟩
    · rename_i hl
      rcases createChan_mem _ _ _ _ h with h | ⟨rfl, hn⟩
      · exact Or.inl ⟨d, h, rfl, rfl, Or.inl rfl⟩
      · exact Or.inr ⟨hn, hu.1, hu.2, rfl, by simp [hl]⟩
  · exact Or.inl ⟨d, h, rfl, rfl, Or.inl rfl⟩

/-- A usable interface has a channel afterwards; if listening is wanted it has been tried. -/
theorem chanStep_has (works : String → Bool) (u : Unicast) (cs : List Chan) (n : Netif) (h1 : u.enabled = true) (h2 : Usable n) :
    ∃ c ∈ chanStep works u cs n, c.name = n.name ∧ (u.listen = true → c.flag = true) := by
  unfold chanStep
  rw [if_pos ⟨h1, h2⟩]
  obtain ⟨c, hc, hx⟩ := createChan_has n.name u.idle cs
  split
  · refine ⟨_, List.mem_map.2 ⟨c, hc, rfl⟩, ?_⟩
    rw [if_pos (by simp [hx])]
    refine ⟨(listen_name _ c).1.trans hx, fun _ => ?_⟩
    unfold listen; split
    · assumption
    · rfl
  · rename_i hl
    exact ⟨c, hc, hx, fun h => absurd h hl⟩

theorem foldl_pairwise (works : String → Bool) (u : Unicast) (l : List Netif) : ∀ {cs : List Chan}, cs.Pairwise (fun a b => a.name ≠ b.name) →
    (l.foldl (chanStep works u) cs).Pairwise (fun a b => a.name ≠ b.name) := by
  induction l with
  | nil => intro cs h; exact h
  | cons n l ih => intro cs h; exact ih (chanStep_pairwise works u n h)

theorem foldl_keeps (works : String → Bool) (u : Unicast) (l : List Netif) : ∀ cs : List Chan, Keeps cs (l.foldl (chanStep works u) cs) := by
  induction l with
  | nil => intro cs; exact Keeps.refl cs
  | cons n l ih => intro cs; exact (chanStep_keeps works u cs n).trans (ih _)

theorem foldl_has (works : String → Bool) (u : Unicast) (l : List Netif) (cs : List Chan) (x : String) (h : WantsChannel u l x) :
    ∃ c ∈ l.foldl (chanStep works u) cs, c.name = x ∧ (u.listen = true → c.flag = true) := by
  obtain ⟨h1, n, hn, rfl, h2⟩ := h
  induction l generalizing cs with
  | nil => cases hn
  | cons m l ih =>
    rcases List.mem_cons.1 hn with rfl | hn
    · obtain ⟨c, hc, c1, c2⟩ := chanStep_has works u cs n h1 h2
      obtain ⟨d, hd, d1, -, d3⟩ := foldl_keeps works u l _ c hc
      refine ⟨d, hd, d1.trans c1, fun h => ?_⟩
      have := d3 (c2 h); rw [this]; exact c2 h
    · exact ih _ hn

/-- Where the channels come from, over all interfaces. -/
theorem foldl_from (works : String → Bool) (u : Unicast) (l : List Netif) : ∀ (cs : List Chan) (d : Chan), d ∈ l.foldl (chanStep works u) cs →
    (∃ c ∈ cs, d.name = c.name ∧ d.idle = c.idle ∧ (d = c ∨ (c.flag = false ∧ u.listen = true ∧ WantsChannel u l c.name ∧ d = ⟨c.name, c.idle, true, works c.name⟩))) ∨
    ((∀ c ∈ cs, c.name ≠ d.name) ∧ WantsChannel u l d.name ∧ d = ⟨d.name, u.idle, u.listen, u.listen && works d.name⟩) := by
  induction l with
  | nil => intro cs d h; exact Or.inl ⟨d, h, rfl, rfl, Or.inl rfl⟩
  | cons n l ih =>
    intro cs d h
    have hW : ∀ x, WantsChannel u l x → WantsChannel u (n :: l) x := fun x ⟨a, m, b, c⟩ => ⟨a, m, List.mem_cons_of_mem _ b, c⟩
    rcases ih _ d h with ⟨c, hc, c1, c2, c3⟩ | ⟨h1, h2, h3⟩
    · rcases chanStep_from works u cs n c hc with ⟨b, hb, b1, b2, b3⟩ | ⟨b1, b2, b3, b4, b5⟩
      · refine Or.inl ⟨b, hb, c1.trans b1, c2.trans b2, ?_⟩
        rcases c3 with rfl | ⟨c3, c4, c5, c6⟩
        · rcases b3 with rfl | ⟨b3, b4, b5, b6, b7, b8⟩
          · exact Or.inl rfl
          · exact Or.inr ⟨b3, b5, ⟨b4, n, List.mem_cons_self, b7, b6⟩, b8⟩
        · rcases b3 with rfl | ⟨b3, b4, b5, b6, b7, b8⟩
          · exact Or.inr ⟨c3, c4, hW _ c5, c6⟩
          · rw [b8] at c3; cases c3
      · refine Or.inr ⟨fun x hx => by rw [c1]; exact b1 x hx, ?_, ?_⟩
        · rw [c1]; exact ⟨b2, n, List.mem_cons_self, b4, b3⟩
        · rcases c3 with rfl | ⟨c3, c4, c5, c6⟩
          · rw [← b4]; exact b5
          · rw [b5] at c3; dsimp only at c3; rw [c3] at c4; cases c4
    · refine Or.inr ⟨?_, hW _ h2, h3⟩
      intro c hc hx
      obtain ⟨d', hd', e1, -⟩ := chanStep_keeps works u cs n c hc
      exact h1 d' hd' (e1.trans hx)

/-! ### Multicast faces -/

/-- Multicast faces are to be made on this interface. -/
def Elig (m : Multicast) (n : Netif) : Prop := m.enabled = true ∧ Usable n ∧ n.multicast = true ∧ m.pred n = true

instance (m : Multicast) (n : Netif) : Decidable (Elig m n) := by unfold Elig; infer_instance

theorem wants_iff (m : Multicast) (l : List Netif) (x : String) : WantsFace m l x ↔ ∃ n ∈ l, n.name = x ∧ Elig m n :=
  ⟨fun ⟨a, n, b, c, d⟩ => ⟨n, b, c, a, d⟩, fun ⟨n, b, c, a, d⟩ => ⟨a, n, b, c, d⟩⟩

theorem applyMc_not (opens : String → Bool) (s : St) (n : Netif) (h : ¬ Elig s.mc n) : applyMc opens s n = (s, none) := by
  unfold applyMc
  unfold Elig Usable at h
  cases h1 : s.mc.enabled
  · rfl
  · cases h2 : n.up
    · rfl
    · cases h3 : n.ether
      · rfl
      · cases h4 : n.address
        · rfl
        · cases h5 : n.multicast
          · rfl
          · cases h6 : s.mc.pred n
            · rfl
            · simp [*] at h

theorem applyMc_elig (opens : String → Bool) (s : St) (n : Netif) (h : Elig s.mc n) :
    applyMc opens s n = (match createMcast opens s n with | none => (s, none) | some x => (register x.1 x.2, some x.2)) := by
  obtain ⟨h1, ⟨h2, h3, h4⟩, h5, h6⟩ := h
  unfold applyMc
  simp [*]
  cases createMcast opens s n <;> rfl

/-- Faces are only added; nothing else that matters changes. -/
structure Grow (s s' : St) : Prop where
  mc : s'.mc = s.mc
  uni : s'.uni = s.uni
  netifs : s'.netifs = s.netifs
  scheme : s'.scheme = s.scheme
  faces : ∀ (k : Nat) (f : Face), s.faces[k]? = some f → s'.faces[k]? = some f

theorem Grow.refl (s : St) : Grow s s := ⟨rfl, rfl, rfl, rfl, fun _ _ h => h⟩
theorem Grow.trans {a b c : St} (h1 : Grow a b) (h2 : Grow b c) : Grow a c :=
  ⟨h2.mc.trans h1.mc, h2.uni.trans h1.uni, h2.netifs.trans h1.netifs, h2.scheme.trans h1.scheme, fun k f h => h2.faces k f (h1.faces k f h)⟩

/-- What `applyMc` does with an eligible interface. -/
inductive Placed (opens : String → Bool) (n : Netif) (s : St) : St × Option Nat → Prop
  | found (k : Nat) (f : Face) : s.faces[k]? = some f → f.netif = n.name → f.group = s.mc.group → f.st ≠ .closed → Placed opens n s (s, some k)
  | new (s' : St) : s'.faces = s.faces ++ [⟨n.name, s.mc.group, s.mc.adHoc, .live, true⟩] → s.map.lookup (n.name, s.mc.group) = none →
      Placed opens n s (s', some s.faces.length)
  | failed : s.map.lookup (n.name, s.mc.group) = none → opens n.name = false → Placed opens n s (s, none)

theorem getElem?_append_one {α : Type} {l : List α} {a b : α} {k : Nat} (h : (l ++ [a])[k]? = some b) : l[k]? = some b ∨ (k = l.length ∧ b = a) := by
  rw [List.getElem?_append] at h
  split at h
  · exact Or.inl h
  · rename_i hk
    right
    cases hd : k - l.length with
    | zero => rw [hd] at h; simp at h; exact ⟨by omega, h.symm⟩
    | succ m => rw [hd] at h; simp at h

theorem applyMc_placed (opens : String → Bool) (n : Netif) {s : St} (hi : Inv s) (h : Elig s.mc n) :
    Inv (applyMc opens s n).1 ∧ Grow s (applyMc opens s n).1 ∧ (applyMc opens s n).1.chans = s.chans ∧ Placed opens n s (applyMc opens s n) := by
  rw [applyMc_elig opens s n h]
  unfold createMcast
  cases hl : s.map.lookup (n.name, s.mc.group) with
  | some k =>
    obtain ⟨f, h1, h2, h3, h4⟩ := hi.sound _ _ _ (lookup_mem hl)
    have hr : register s k = s := by
      unfold register
      rw [h1]
      dsimp only
      have hf : ({ f with table := true } : Face) = f := by rw [← hi.table k f h1]
      rw [hf]
      obtain ⟨hlt, he⟩ := List.getElem?_eq_some_iff.1 h1
      rw [← he, List.set_getElem_self hlt]
    dsimp only
    rw [hr]
    exact ⟨hi, Grow.refl s, rfl, .found k f h1 h2 h3 h4⟩
  | none =>
    dsimp only
    by_cases ho : opens n.name = false
    · rw [if_pos ho]
      exact ⟨hi, Grow.refl s, rfl, .failed hl ho⟩
    · rw [if_neg ho]
      dsimp only
      have hr : register { s with faces := s.faces ++ [⟨n.name, s.mc.group, s.mc.adHoc, .live, false⟩], map := s.map ++ [((n.name, s.mc.group), s.faces.length)] } s.faces.length =
          { s with faces := s.faces ++ [⟨n.name, s.mc.group, s.mc.adHoc, .live, true⟩], map := s.map ++ [((n.name, s.mc.group), s.faces.length)] } := by
        unfold register
        simp
      rw [hr]
      refine ⟨⟨?_, ?_, ?_, ?_, hi.chans⟩, ⟨rfl, rfl, rfl, rfl, ?_⟩, rfl, .new _ rfl hl⟩
      · dsimp only
        rw [List.pairwise_append]
        refine ⟨hi.keys, by simp, ?_⟩
        intro a ha b hb hab
        rw [List.mem_singleton] at hb; subst hb
        obtain ⟨a1, a2⟩ := a
        dsimp only at hab; subst hab
        exact lookup_none hl a2 ha
      · intro x g k hm
        dsimp only at hm ⊢
        rcases List.mem_append.1 hm with hm | hm
        · obtain ⟨f, f1, f2⟩ := hi.sound x g k hm
          exact ⟨f, by rw [List.getElem?_append_left (List.getElem?_eq_some_iff.1 f1).1]; exact f1, f2⟩
        · simp only [List.mem_singleton, Prod.mk.injEq] at hm
          obtain ⟨⟨rfl, rfl⟩, rfl⟩ := hm
          exact ⟨⟨n.name, s.mc.group, s.mc.adHoc, .live, true⟩, by simp, rfl, rfl, by simp⟩
      · intro k f hf hc
        dsimp only at hf ⊢
        rcases getElem?_append_one hf with hf | ⟨rfl, rfl⟩
        · exact List.mem_append_left _ (hi.complete k f hf hc)
        · simp
      · intro k f hf
        dsimp only at hf
        rcases getElem?_append_one hf with hf | ⟨rfl, rfl⟩
        · exact hi.table k f hf
        · rfl
      · intro k f hf
        dsimp only
        rw [List.getElem?_append_left (List.getElem?_eq_some_iff.1 hf).1]; exact hf

theorem Inv.lookup {s : St} (hi : Inv s) {k : Nat} {f : Face} (h : s.faces[k]? = some f) (hc : f.st ≠ .closed) : s.map.lookup (f.netif, f.group) = some k := by
  cases hl : s.map.lookup (f.netif, f.group) with
  | none => exact absurd (hi.complete k f h hc) (lookup_none hl k)
  | some j => rw [key_unique hi.keys (lookup_mem hl) (hi.complete k f h hc)]

theorem Inv.withChans {s : St} (hi : Inv s) {cs : List Chan} (h : cs.Pairwise (fun a b => a.name ≠ b.name)) : Inv { s with chans := cs } :=
  ⟨hi.keys, hi.sound, hi.complete, hi.table, h⟩

/-- The loop over the interfaces. -/
structure Res (works opens : String → Bool) (l : List Netif) (s : St) (r : St × List Nat) : Prop where
  inv : Inv r.1
  grow : Grow s r.1
  chans : r.1.chans = l.foldl (chanStep works s.uni) s.chans
  fresh : ∀ (k : Nat) (f : Face), r.1.faces[k]? = some f → s.faces[k]? = some f ∨ (k ∈ r.2 ∧ f.st = .live ∧ f.adHoc = s.mc.adHoc ∧ s.map.lookup (f.netif, f.group) = none)
  kept : ∀ k ∈ r.2, ∃ f, r.1.faces[k]? = some f ∧ f.group = s.mc.group ∧ WantsFace s.mc l f.netif
  stays : ∀ (k : Nat) (f : Face), s.faces[k]? = some f → f.st ≠ .closed → f.group = s.mc.group → WantsFace s.mc l f.netif → k ∈ r.2
  made : ∀ x, WantsFace s.mc l x → opens x = true → s.map.lookup (x, s.mc.group) = none → HasFace r.1 x s.mc.group

theorem forNetifs_res (works opens : String → Bool) (l : List Netif) : ∀ {s : St}, Inv s → Res works opens l s (forNetifs works opens l s) := by
  induction l with
  | nil =>
    intro s hi
    refine ⟨hi, Grow.refl s, rfl, fun k f h => Or.inl h, ?_, ?_, ?_⟩
    · intro k hk; cases hk
    · intro k f _ _ _ hw; obtain ⟨-, n, hn, -⟩ := hw; cases hn
    · intro x hw; obtain ⟨-, n, hn, -⟩ := hw; cases hn
  | cons n l ih =>
    intro s hi
    rw [forNetifs, applyUni_eq]
    have hi1 : Inv { s with chans := chanStep works s.uni s.chans n } := hi.withChans (chanStep_pairwise works s.uni n hi.chans)
    have hmono : ∀ x, WantsFace s.mc l x → WantsFace s.mc (n :: l) x := fun x ⟨a, m, b, c⟩ => ⟨a, m, List.mem_cons_of_mem _ b, c⟩
    by_cases he : Elig s.mc n
    · obtain ⟨a1, a2, a3, a4⟩ := applyMc_placed opens n hi1 he
      generalize hs1 : ({ s with chans := chanStep works s.uni s.chans n } : St) = s1 at *
      have e1 : s1.faces = s.faces ∧ s1.map = s.map ∧ s1.mc = s.mc ∧ s1.uni = s.uni ∧ s1.netifs = s.netifs ∧ s1.scheme = s.scheme ∧ s1.chans = chanStep works s.uni s.chans n := by
        subst hs1; exact ⟨rfl, rfl, rfl, rfl, rfl, rfl, rfl⟩
      clear hs1
      obtain ⟨f1, f2, f3, f4, f5, f6, f7⟩ := e1
      have R := ih a1
      generalize applyMc opens s1 n = p at *
      have hmc : p.1.mc = s.mc := a2.mc.trans f3
      refine ⟨R.inv, ?_, ?_, ?_, ?_, ?_, ?_⟩
      · have g : Grow s s1 := ⟨f3, f4, f5, f6, fun k f h => by rw [f1]; exact h⟩
        exact g.trans (a2.trans R.grow)
      · rw [R.chans, a3, a2.uni, f4, f7]; rfl
      · intro k f hf
        rcases R.fresh k f hf with h | ⟨h1, h2, h3, h4⟩
        · cases a4 with
          | found j g => exact Or.inl (by rw [← f1]; exact h)
          | new s' hs' hl =>
            rw [hs'] at h
            rcases getElem?_append_one h with h | ⟨rfl, rfl⟩
            · exact Or.inl (by rw [← f1]; exact h)
            · exact Or.inr ⟨by simp, rfl, by rw [f3], by rw [f2, f3] at hl; rw [f3]; exact hl⟩
          | failed => exact Or.inl (by rw [← f1]; exact h)
        · refine Or.inr ⟨List.mem_append_right _ h1, h2, h3.trans (by rw [hmc]), ?_⟩
          cases hq : s.map.lookup (f.netif, f.group) with
          | none => rfl
          | some j =>
            obtain ⟨g, g1, g2, g3, g4⟩ := hi.sound _ _ _ (lookup_mem hq)
            have := a2.faces j g (by rw [f1]; exact g1)
            have := a1.lookup this g4
            rw [g2, g3, h4] at this; cases this
      · intro k hk
        rcases List.mem_append.1 hk with hk | hk
        · cases a4 with
          | found j g c1 c2 c3 c4 =>
            have hk : k = j := by simpa using hk
            subst hk
            exact ⟨g, R.grow.faces _ _ c1, by rw [c3, f3], (wants_iff ..).2 ⟨n, List.mem_cons_self, c2.symm, he⟩⟩
          | new s' hs' hl =>
            have hk : k = s1.faces.length := by simpa using hk
            subst hk
            refine ⟨_, R.grow.faces _ _ (by rw [hs']; simp; rfl), ?_, ?_⟩
            · exact congrArg Multicast.group f3
            · exact (wants_iff ..).2 ⟨n, List.mem_cons_self, rfl, he⟩
          | failed => cases hk
        · obtain ⟨f, h1, h2, h3⟩ := R.kept k hk
          exact ⟨f, h1, by rw [h2, hmc], hmono _ (by rw [← hmc]; exact h3)⟩
      · intro k f hf hc hg hw
        have hp := a2.faces k f (by rw [f1]; exact hf)
        obtain ⟨m, hm, hx, hme⟩ := (wants_iff ..).1 hw
        rcases List.mem_cons.1 hm with rfl | hm
        · have hl := hi.lookup hf hc
          cases a4 with
          | found j g c1 c2 c3 c4 =>
            rw [f1] at c1
            have := hi.lookup c1 c4
            rw [c2, c3, f3] at this
            rw [← hx, hg, this] at hl
            cases hl
            simp
          | new s' hs' hl2 => rw [f2, f3, hx, ← hg, hl] at hl2; cases hl2
          | failed hl2 => rw [f2, f3, hx, ← hg, hl] at hl2; cases hl2
        · refine List.mem_append_right _ (R.stays k f hp hc (by rw [hg, hmc]) ?_)
          rw [hmc]; exact (wants_iff ..).2 ⟨m, hm, hx, hme⟩
      · intro x hw ho hl
        have up : HasFace p.1 x s.mc.group → HasFace (forNetifs works opens l p.1).1 x s.mc.group := by
          rintro ⟨k, f, b1, b2⟩; exact ⟨k, f, R.grow.faces k f b1, b2⟩
        by_cases hx : n.name = x
        · apply up
          cases a4 with
          | found j g c1 c2 c3 c4 =>
            exfalso
            rw [f1] at c1
            have := hi.lookup c1 c4
            rw [c2, c3, f3, hx, hl] at this; cases this
          | new s' hs' hl2 => exact ⟨s1.faces.length, _, by rw [hs']; simp; rfl, hx, congrArg Multicast.group f3, rfl⟩
          | failed hl2 ho2 => rw [hx, ho] at ho2; cases ho2
        · obtain ⟨m, hm, hmx, hme⟩ := (wants_iff ..).1 hw
          rcases List.mem_cons.1 hm with rfl | hm
          · exact absurd hmx hx
          · cases hq : p.1.map.lookup (x, s.mc.group) with
            | none =>
              have := R.made x (by rw [hmc]; exact (wants_iff ..).2 ⟨m, hm, hmx, hme⟩) ho (by rw [hmc]; exact hq)
              rw [hmc] at this; exact this
            | some j =>
              obtain ⟨g, g1, g2, g3, g4⟩ := a1.sound _ _ _ (lookup_mem hq)
              apply up
              have hno : ∀ (i : Nat) (h : Face), s1.faces[i]? = some h → h.st ≠ .closed → (h.netif, h.group) ≠ (x, s.mc.group) := by
                intro i h i1 i2 i3
                rw [f1] at i1
                have := hi.lookup i1 i2
                rw [i3, hl] at this; cases this
              cases a4 with
              | found i h c1 c2 c3 c4 => exact absurd (by rw [g2, g3]) (hno j g g1 g4)
              | new s' hs' hl2 =>
                rw [hs'] at g1
                rcases getElem?_append_one g1 with g1 | ⟨rfl, rfl⟩
                · exact absurd (by rw [g2, g3]) (hno j g g1 g4)
                · exact absurd g2 hx
              | failed hl2 ho2 => exact absurd (by rw [g2, g3]) (hno j g g1 g4)
    · have hp := applyMc_not opens { s with chans := chanStep works s.uni s.chans n } n he
      rw [hp]
      have R := ih hi1
      have hw : ∀ x, WantsFace s.mc (n :: l) x → WantsFace s.mc l x := by
        intro x h
        obtain ⟨m, hm, h1, h2⟩ := (wants_iff ..).1 h
        rcases List.mem_cons.1 hm with rfl | hm
        · exact absurd h2 he
        · exact (wants_iff ..).2 ⟨m, hm, h1, h2⟩
      refine ⟨R.inv, ?_, R.chans, R.fresh, ?_, ?_, ?_⟩
      · exact ⟨R.grow.mc, R.grow.uni, R.grow.netifs, R.grow.scheme, R.grow.faces⟩
      · intro k hk
        obtain ⟨f, h1, h2, h3⟩ := R.kept k hk
        exact ⟨f, h1, h2, hmono _ h3⟩
      · intro k f h1 h2 h3 h4; exact R.stays k f h1 h2 h3 (hw _ h4)
      · intro x h1 h2 h3; exact R.made x (hw _ h1) h2 h3

/-! ### Closing -/

theorem close_cases (s : St) (k : Nat) : close s k = s ∨ ∃ f, s.faces[k]? = some f ∧ f.st = .live ∧ close s k = { s with faces := s.faces.set k { f with st := .closing } } := by
  unfold close
  cases h : s.faces[k]? with
  | none => exact Or.inl rfl
  | some f =>
    dsimp only
    by_cases hf : f.st = .live
    · rw [if_pos hf]; exact Or.inr ⟨f, rfl, hf, rfl⟩
    · rw [if_neg hf]; exact Or.inl rfl

theorem getElem?_set_cases {α : Type} {l : List α} {k j : Nat} {a b : α} (h : (l.set k a)[j]? = some b) : (j = k ∧ b = a) ∨ (j ≠ k ∧ l[j]? = some b) := by
  rw [List.getElem?_set] at h
  split at h
  · rename_i e; subst e
    split at h
    · exact Or.inl ⟨rfl, by cases h; rfl⟩
    · cases h
  · rename_i e; exact Or.inr ⟨fun h => e h.symm, h⟩

theorem close_inv {s : St} (hi : Inv s) (k : Nat) : Inv (close s k) := by
  rcases close_cases s k with h | ⟨f, h1, h2, h3⟩
  · rw [h]; exact hi
  · rw [h3]
    refine ⟨hi.keys, ?_, ?_, ?_, hi.chans⟩
    · intro x g j hm
      obtain ⟨e, e1, e2, e3, e4⟩ := hi.sound x g j hm
      by_cases hj : j = k
      · subst hj; rw [h1] at e1; cases e1
        exact ⟨_, List.getElem?_set_self (List.getElem?_eq_some_iff.1 h1).1, e2, e3, by simp⟩
      · exact ⟨e, by dsimp only; rw [List.getElem?_set_ne (fun h => hj h.symm)]; exact e1, e2, e3, e4⟩
    · intro j e he hc
      rcases getElem?_set_cases he with ⟨rfl, rfl⟩ | ⟨_, he⟩
      · exact hi.complete j f h1 (by rw [h2]; simp)
      · exact hi.complete j e he hc
    · intro j e he
      rcases getElem?_set_cases he with ⟨rfl, rfl⟩ | ⟨_, he⟩
      · exact hi.table j f h1
      · exact hi.table j e he

theorem settle_inv {s : St} (hi : Inv s) (k : Nat) : Inv (settle s k) := by
  unfold settle
  cases h1 : s.faces[k]? with
  | none => exact hi
  | some f =>
    dsimp only
    by_cases h2 : f.st = .closing
    · rw [if_pos h2]
      refine ⟨hi.keys.filter _, ?_, ?_, ?_, hi.chans⟩
      · intro x g j hm
        rw [List.mem_filter] at hm
        obtain ⟨e, e1, e2, e3, e4⟩ := hi.sound x g j hm.1
        by_cases hj : j = k
        · subst hj; rw [h1] at e1; cases e1
          have := hm.2; simp [e2, e3] at this
        · exact ⟨e, by dsimp only; rw [List.getElem?_set_ne (fun h => hj h.symm)]; exact e1, e2, e3, e4⟩
      · intro j e he hc
        rcases getElem?_set_cases he with ⟨rfl, rfl⟩ | ⟨hj, he⟩
        · exact absurd rfl hc
        · have hm := hi.complete j e he hc
          rw [List.mem_filter]
          refine ⟨hm, ?_⟩
          simp only [bne_iff_ne, ne_eq]
          intro hx
          have := hi.complete k f h1 (by rw [h2]; simp)
          rw [← hx] at this
          exact hj (key_unique hi.keys hm this)
      · intro j e he
        rcases getElem?_set_cases he with ⟨rfl, rfl⟩ | ⟨_, he⟩
        · exact hi.table j f h1
        · exact hi.table j e he
    · rw [if_neg h2]; exact hi

/-- Closing some faces. -/
structure Closed (l : List Nat) (s s' : St) : Prop where
  inv : Inv s'
  frame : s'.mc = s.mc ∧ s'.uni = s.uni ∧ s'.netifs = s.netifs ∧ s'.scheme = s.scheme ∧ s'.chans = s.chans
  back : ∀ (k : Nat) (f : Face), s'.faces[k]? = some f → ∃ g, s.faces[k]? = some g ∧ f.netif = g.netif ∧ f.group = g.group ∧ f.adHoc = g.adHoc ∧
    (f.st = .live → f = g ∧ k ∉ l)
  same : ∀ (k : Nat) (f : Face), s.faces[k]? = some f → (k ∉ l ∨ f.st ≠ .live) → s'.faces[k]? = some f

theorem foldl_close (l : List Nat) : ∀ {s : St}, Inv s → Closed l s (l.foldl close s) := by
  induction l with
  | nil => intro s hi; exact ⟨hi, ⟨rfl, rfl, rfl, rfl, rfl⟩, fun k f h => ⟨f, h, rfl, rfl, rfl, fun _ => ⟨rfl, by simp⟩⟩, fun k f h _ => h⟩
  | cons j l ih =>
    intro s hi
    rw [List.foldl_cons]
    have C := ih (close_inv hi j)
    rcases close_cases s j with h | ⟨e, h1, h2, h3⟩
    · rw [h] at C ⊢
      have hj : ∀ f, s.faces[j]? = some f → f.st ≠ .live := by
        intro f hf hl
        unfold close at h
        rw [hf] at h
        dsimp only at h
        rw [if_pos hl] at h
        have h := congrArg St.faces h
        dsimp only at h
        have : (s.faces.set j { f with st := .closing })[j]? = some f := by rw [h]; exact hf
        rw [List.getElem?_set_self (List.getElem?_eq_some_iff.1 hf).1] at this
        have := congrArg (Option.map Face.st) this
        simp [hl] at this
      refine ⟨C.inv, C.frame, ?_, ?_⟩
      · intro k f hf
        obtain ⟨g, g1, g2, g3, g4, g5⟩ := C.back k f hf
        refine ⟨g, g1, g2, g3, g4, fun hl => ⟨(g5 hl).1, ?_⟩⟩
        intro hm
        rcases List.mem_cons.1 hm with rfl | hm
        · have := (g5 hl).1; subst this
          exact hj _ g1 hl
        · exact (g5 hl).2 hm
      · intro k f hf hk
        refine C.same k f hf ?_
        rcases hk with hk | hk
        · exact Or.inl (fun h => hk (List.mem_cons_of_mem _ h))
        · exact Or.inr hk
    · rw [h3] at C ⊢
      refine ⟨C.inv, C.frame, ?_, ?_⟩
      · intro k f hf
        obtain ⟨g, g1, g2, g3, g4, g5⟩ := C.back k f hf
        rcases getElem?_set_cases g1 with ⟨rfl, rfl⟩ | ⟨hk, g1⟩
        · refine ⟨e, h1, g2, g3, g4, fun hl => ?_⟩
          have := (g5 hl).1; rw [this] at hl; cases hl
        · refine ⟨g, g1, g2, g3, g4, fun hl => ⟨(g5 hl).1, ?_⟩⟩
          intro hm
          rcases List.mem_cons.1 hm with hm | hm
          · exact hk hm
          · exact (g5 hl).2 hm
      · intro k f hf hk
        have hkj : k ≠ j := by
          rintro rfl
          rw [h1] at hf; cases hf
          rcases hk with hk | hk
          · exact hk (by simp)
          · exact hk h2
        refine C.same k f (by dsimp only; rw [List.getElem?_set_ne (fun h => hkj h.symm)]; exact hf) ?_
        rcases hk with hk | hk
        · exact Or.inl (fun h => hk (List.mem_cons_of_mem _ h))
        · exact Or.inr hk

theorem applyConfig_inv (works opens : String → Bool) {s : St} (hi : Inv s) : Inv (applyConfig works opens s) := by
  unfold applyConfig
  dsimp only
  have hi1 : Inv { s with scheme := s.uni.enabled } := ⟨hi.keys, hi.sound, hi.complete, hi.table, hi.chans⟩
  exact (foldl_close _ (forNetifs_res works opens s.netifs hi1).inv).inv

theorem applyMc_inv (opens : String → Bool) (n : Netif) {s : St} (hi : Inv s) : Inv (applyMc opens s n).1 := by
  by_cases h : Elig s.mc n
  · exact (applyMc_placed opens n hi h).1
  · rw [applyMc_not opens s n h]; exact hi

theorem step_inv {s : St} (hi : Inv s) (e : Ev) : Inv (step s e) := by
  cases e with
  | config u m works opens =>
    have hi1 : Inv { s with uni := u, mc := m } := ⟨hi.keys, hi.sound, hi.complete, hi.table, hi.chans⟩
    exact applyConfig_inv works opens hi1
  | added n works opens =>
    have hi1 : Inv { s with netifs := s.netifs ++ [n] } := ⟨hi.keys, hi.sound, hi.complete, hi.table, hi.chans⟩
    simp only [step]
    refine applyMc_inv opens n ?_
    rw [applyUni_eq]
    exact hi1.withChans (chanStep_pairwise works _ n hi1.chans)
  | change f => exact ⟨hi.keys, hi.sound, hi.complete, hi.table, hi.chans⟩
  | close k => exact close_inv hi k
  | settle k => exact settle_inv hi k

theorem run_inv (es : List Ev) : ∀ {s : St}, Inv s → Inv (run s es) := by
  induction es with
  | nil => intro s hi; exact hi
  | cons e es ih => intro s hi; exact ih (step_inv hi e)

end Verif.Eth
