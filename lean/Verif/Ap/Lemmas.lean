import Verif.Ap.Spec
namespace Verif.Ap

variable {α : Type} [DecidableEq α]

def St.cnt (s : St α) (n : List α) : Nat := s.timers.countP (fun x => decide (x.2 = n))

structure Inv (c : Cfg α) (s : St α) : Prop where
  under : ∀ n e, s.ents n = some e → c.under n = true
  one : ∀ n e, s.ents n = some e → s.cnt n + e.due.toNat = e.first.toNat
  zero : ∀ n, s.ents n = none → s.cnt n = 0
  before : ∀ t n, (t, n) ∈ s.timers → ∀ e, s.ents n = some e → t < e.expiry
  past : ∀ n u, (n, u) ∈ s.probes → u ≤ s.now
  later : ∀ n u, (n, u) ∈ s.probes → ∀ t, (t, n) ∈ s.timers → u + c.interval ≤ t
  kept : ∀ n u, (n, u) ∈ s.probes → ∀ e, s.ents n = some e → u + c.interval < e.expiry
  due : ∀ n u, (n, u) ∈ s.probes → ∀ e, s.ents n = some e → (e.due = true ∨ e.first = false) → u + c.interval ≤ s.now
  gone : ∀ n u, (n, u) ∈ s.probes → s.ents n = none → u + c.interval ≤ s.now
  spaced : Spaced c.interval s.probes
  why : ∀ t n, (t, n) ∈ s.timers → ∃ u, ((n, u) ∈ s.begun ∨ (n, u) ∈ s.probes) ∧ t ≤ u + max 5000 c.interval

theorem Inv.init (c : Cfg α) : Inv c {} := by
  constructor <;> simp [St.cnt, Spaced]

theorem cnt_pos {s : St α} {t : Nat} {n : List α} (h : (t, n) ∈ s.timers) : 0 < s.cnt n := by
  unfold St.cnt
  rw [List.countP_pos_iff]
  exact ⟨_, h, by simp⟩

theorem Inv.get {c : Cfg α} {s : St α} (h : Inv c s) {n : List α} (hn : c.under n = true) : Inv c (s.get n) := by
  unfold St.get
  split
  · exact h
  · rename_i hnone
    have hz : ∀ t, (t, n) ∉ s.timers := fun t ht => by have := cnt_pos ht; have := h.zero n hnone; omega
    obtain ⟨h1, h2, h3, h4, h5, h6, h7, h8, h9, h10, h11⟩ := h
    refine ⟨?_, ?_, ?_, ?_, h5, h6, ?_, ?_, ?_, h10, h11⟩
    · intro m e he; dsimp only at he; split at he <;> grind
    · intro m e he; dsimp only at he
      show s.cnt m + _ = _
      split at he
      · cases he; subst m; simp [h3 _ hnone]
      · exact h2 m e he
    · intro m he; dsimp only at he
      show s.cnt m = _
      split at he <;> grind
    · intro t m ht e he; dsimp only at he ht; split at he <;> grind
    · intro m u hu e he; dsimp only at he hu; split at he
      · cases he; subst m
        have := h9 _ _ hu hnone
        show _ < s.now + 4000
        omega
      · grind
    · intro m u hu e he; dsimp only at he hu; split at he <;> grind
    · intro m u hu he; dsimp only at he hu; split at he <;> grind

theorem Inv.extend {c : Cfg α} {s : St α} (h : Inv c s) (n : List α) (l : Nat) : Inv c (s.extend n l) := by
  have key : ∀ m, (s.extend n l).ents m = none ↔ s.ents m = none := by
    intro m; unfold St.extend; dsimp only; split
    · subst m; simp
    · rfl
  have key2 : ∀ m e, (s.extend n l).ents m = some e → ∃ e0, s.ents m = some e0 ∧ e.due = e0.due ∧ e.first = e0.first ∧ e0.expiry ≤ e.expiry := by
    intro m e he; unfold St.extend at he; dsimp only at he; split at he
    · subst m
      rw [Option.map_eq_some_iff] at he
      obtain ⟨e0, h0, he⟩ := he
      refine ⟨e0, h0, ?_⟩
      split at he
      · subst he; simp
      · subst he; simp only [true_and]; omega
    · exact ⟨e, he, rfl, rfl, Nat.le_refl _⟩
  obtain ⟨h1, h2, h3, h4, h5, h6, h7, h8, h9, h10, h11⟩ := h
  refine ⟨?_, ?_, ?_, ?_, h5, h6, ?_, ?_, ?_, h10, h11⟩
  · intro m e he; obtain ⟨e0, h0, -⟩ := key2 _ _ he; exact h1 _ _ h0
  · intro m e he; obtain ⟨e0, h0, ha, hb, hc⟩ := key2 _ _ he; rw [ha, hb]; exact h2 _ _ h0
  · intro m he; exact h3 _ ((key _).mp he)
  · intro t m ht e he; obtain ⟨e0, h0, ha, hb, hc⟩ := key2 _ _ he; exact Nat.lt_of_lt_of_le (h4 _ _ ht _ h0) hc
  · intro m u hu e he; obtain ⟨e0, h0, ha, hb, hc⟩ := key2 _ _ he; exact Nat.lt_of_lt_of_le (h7 _ _ hu _ h0) hc
  · intro m u hu e he hd; obtain ⟨e0, h0, ha, hb, hc⟩ := key2 _ _ he; rw [ha, hb] at hd; exact h8 _ _ hu _ h0 hd
  · intro m u hu he; exact h9 _ _ hu ((key _).mp he)

/-- The state after the lookup of a namespace. -/
structure Got (c : Cfg α) (s s1 : St α) (f : List α) (e : Ent) : Prop where
  now : s1.now = s.now
  timers : s1.timers = s.timers
  probes : s1.probes = s.probes
  begun : s1.begun = s.begun
  here : s1.ents f = some e
  expiry : s.now + c.lifetime ≤ e.expiry
  old : ∀ e0, s.ents f = some e0 → e.due = e0.due ∧ e.first = e0.first
  others : ∀ m, m ≠ f → s1.ents m = s.ents m

theorem getOrCreate_good {c : Cfg α} {s : St α} {f i : List α} (hf : c.under f = true) :
    ∃ s1 e, s.getOrCreate c f i = some (s1, f) ∧ Got c s s1 f e ∧ (Inv c s → Inv c s1) := by
  unfold St.getOrCreate
  simp only [hf, if_true, Option.map_some]
  have hg : ∃ e1, (s.get f).ents f = some e1 ∧ (∀ e0, s.ents f = some e0 → e1 = e0) ∧ (s.get f).now = s.now ∧ (s.get f).timers = s.timers ∧
      (s.get f).probes = s.probes ∧ (s.get f).begun = s.begun ∧ ∀ m, m ≠ f → (s.get f).ents m = s.ents m := by
    unfold St.get
    split
    · rename_i e h; exact ⟨e, h, (fun e0 h0 => by rw [h] at h0; cases h0; rfl), rfl, rfl, rfl, rfl, fun _ _ => rfl⟩
    · rename_i h; exact ⟨_, if_pos rfl, (fun e0 h0 => by rw [h] at h0; cases h0), rfl, rfl, rfl, rfl, fun m hm => if_neg hm⟩
  obtain ⟨e1, ha, hb, hn, ht, hp, hbg, ho⟩ := hg
  refine ⟨_, (if e1.expiry ≥ (s.get f).now + c.lifetime then e1 else { e1 with expiry := (s.get f).now + c.lifetime }), rfl, ⟨?_, ?_, ?_, ?_, ?_, ?_, ?_, ?_⟩,
    fun h => (h.get hf).extend _ _⟩
  · exact hn
  · exact ht
  · exact hp
  · exact hbg
  · simp [St.extend, ha]
  · split
    · omega
    · show _ ≤ (s.get f).now + c.lifetime; omega
  · intro e0 h0
    rw [hb _ h0]
    split <;> simp
  · intro m hm
    simp only [St.extend]; rw [if_neg hm]; exact ho m hm

theorem Inv.begin {c : Cfg α} {s : St α} (h : Inv c s) {f : List α} {e : Ent} (he : s.ents f = some e) (hf : e.first = false) {r : Nat} (hr : r ≤ 5000)
    (hl : 5000 < c.lifetime) (hx : s.now + c.lifetime ≤ e.expiry) : Inv c { (s.schedule f r).setFirst f with begun := s.begun ++ [(f, s.now)] } := by
  obtain ⟨h1, h2, h3, h4, h5, h6, h7, h8, h9, h10, h11⟩ := h
  have h2f := h2 _ _ he
  rw [hf] at h2f
  have key : ∀ m e', (if m = f then (s.ents f).map (fun e => { e with first := true }) else s.ents m) = some e' →
      (m = f ∧ e' = { e with first := true }) ∨ (m ≠ f ∧ s.ents m = some e') := by
    intro m e' h'; split at h'
    · rw [he] at h'; cases h'; left; exact ⟨‹_›, rfl⟩
    · right; exact ⟨‹_›, h'⟩
  have key0 : ∀ m, (if m = f then (s.ents f).map (fun e => { e with first := true }) else s.ents m) = none → m ≠ f ∧ s.ents m = none := by
    intro m h'; split at h'
    · rw [he] at h'; cases h'
    · exact ⟨‹_›, h'⟩
  have hcnt : ∀ m, ({ (s.schedule f r).setFirst f with begun := s.begun ++ [(f, s.now)] } : St α).cnt m = s.cnt m + if f = m then 1 else 0 := by
    intro m; simp [St.cnt, St.schedule, St.setFirst, List.countP_append, List.countP_cons]
  have hmem : ∀ t m, (t, m) ∈ s.timers ++ [(s.now + r, f)] → (t, m) ∈ s.timers ∨ (t = s.now + r ∧ m = f) := by
    intro t m; simp
  refine ⟨?_, ?_, ?_, ?_, h5, ?_, ?_, ?_, ?_, h10, ?_⟩
  · intro m e' h'; rcases key _ _ h' with ⟨rfl, rfl⟩ | ⟨a, b⟩
    · exact h1 _ _ he
    · exact h1 _ _ b
  · intro m e' h'; rw [hcnt]; rcases key _ _ h' with ⟨rfl, rfl⟩ | ⟨a, b⟩
    · simp only [if_true, Bool.toNat_true]; simp only [Bool.toNat_false] at h2f; omega
    · rw [if_neg (fun x => a x.symm)]; exact h2 _ _ b
  · intro m h'; rw [hcnt]; have := key0 _ h'; rw [if_neg (fun x => this.1 x.symm)]; exact h3 _ this.2
  · intro t m ht e' h'
    rcases hmem _ _ ht with ht | ⟨rfl, rfl⟩ <;> rcases key _ _ h' with ⟨ha, rfl⟩ | ⟨a, b⟩
    · subst m; exact h4 _ _ ht e he
    · exact h4 _ _ ht _ b
    · simp only []; omega
    · exact absurd rfl a
  · intro m u hu t ht
    rcases hmem _ _ ht with ht | ⟨rfl, rfl⟩
    · exact h6 _ _ hu _ ht
    · have := h8 _ _ hu _ he (.inr hf); omega
  · intro m u hu e' h'; rcases key _ _ h' with ⟨ha, rfl⟩ | ⟨a, b⟩
    · subst m; exact h7 _ _ hu e he
    · exact h7 _ _ hu _ b
  · intro m u hu e' h' hd; rcases key _ _ h' with ⟨ha, rfl⟩ | ⟨a, b⟩
    · subst m; exact h8 _ _ hu _ he (.inr hf)
    · exact h8 _ _ hu _ b hd
  · intro m u hu h'; exact h9 _ _ hu (key0 _ h').2
  · intro t m ht
    rcases hmem _ _ ht with ht | ⟨rfl, rfl⟩
    · obtain ⟨u, hu, hle⟩ := h11 _ _ ht
      refine ⟨u, ?_, hle⟩
      rcases hu with hu | hu
      · left; exact List.mem_append_left _ hu
      · right; exact hu
    · exact ⟨s.now, .inl (List.mem_append_right _ (by simp)), by omega⟩

theorem Inv.probe {c : Cfg α} {s : St α} (h : Inv c s) {f : List α} {e : Ent} (he : s.ents f = some e) (hd : e.due = true)
    (hl : c.interval < c.lifetime) (hx : s.now + c.lifetime ≤ e.expiry) :
    Inv c { (s.setDue f false).schedule f c.interval with probes := s.probes ++ [(f, s.now)] } := by
  obtain ⟨h1, h2, h3, h4, h5, h6, h7, h8, h9, h10, h11⟩ := h
  have h2f := h2 _ _ he
  have hf : e.first = true := by
    cases hh : e.first
    · rw [hd, hh] at h2f; simp at h2f
    · rfl
  have hc0 : s.cnt f = 0 := by rw [hd, hf] at h2f; simpa using h2f
  have hno : ∀ t, (t, f) ∉ s.timers := fun t ht => by have := cnt_pos ht; omega
  have key : ∀ m e', (if m = f then (s.ents f).map (fun e => { e with due := false }) else s.ents m) = some e' →
      (m = f ∧ e' = { e with due := false }) ∨ (m ≠ f ∧ s.ents m = some e') := by
    intro m e' h'; split at h'
    · rw [he] at h'; cases h'; left; exact ⟨‹_›, rfl⟩
    · right; exact ⟨‹_›, h'⟩
  have key0 : ∀ m, (if m = f then (s.ents f).map (fun e => { e with due := false }) else s.ents m) = none → m ≠ f ∧ s.ents m = none := by
    intro m h'; split at h'
    · rw [he] at h'; cases h'
    · exact ⟨‹_›, h'⟩
  have hcnt : ∀ m, ({ (s.setDue f false).schedule f c.interval with probes := s.probes ++ [(f, s.now)] } : St α).cnt m = s.cnt m + if f = m then 1 else 0 := by
    intro m; simp [St.cnt, St.schedule, St.setDue, List.countP_append, List.countP_cons]
  have hmem : ∀ t m, (t, m) ∈ s.timers ++ [(s.now + c.interval, f)] → (t, m) ∈ s.timers ∨ (t = s.now + c.interval ∧ m = f) := by
    intro t m; simp
  have hmem2 : ∀ m u, (m, u) ∈ s.probes ++ [(f, s.now)] → (m, u) ∈ s.probes ∨ (m = f ∧ u = s.now) := by
    intro t m; simp
  refine ⟨?_, ?_, ?_, ?_, ?_, ?_, ?_, ?_, ?_, ?_, ?_⟩
  · intro m e' h'; rcases key _ _ h' with ⟨rfl, rfl⟩ | ⟨a, b⟩
    · exact h1 _ _ he
    · exact h1 _ _ b
  · intro m e' h'; rw [hcnt]; rcases key _ _ h' with ⟨rfl, rfl⟩ | ⟨a, b⟩
    · simp [hc0, hf]
    · rw [if_neg (fun x => a x.symm)]; exact h2 _ _ b
  · intro m h'; rw [hcnt]; have := key0 _ h'; rw [if_neg (fun x => this.1 x.symm)]; exact h3 _ this.2
  · intro t m ht e' h'
    rcases hmem _ _ ht with ht | ⟨rfl, rfl⟩ <;> rcases key _ _ h' with ⟨ha, rfl⟩ | ⟨a, b⟩
    · subst m; exact h4 _ _ ht e he
    · exact h4 _ _ ht _ b
    · simp only []; omega
    · exact absurd rfl a
  · intro m u hu
    rcases hmem2 _ _ hu with hu | ⟨rfl, rfl⟩
    · exact h5 _ _ hu
    · exact Nat.le_refl _
  · intro m u hu t ht
    rcases hmem2 _ _ hu with hu | ⟨rfl, rfl⟩ <;> rcases hmem _ _ ht with ht | ⟨rfl, ha⟩
    · exact h6 _ _ hu _ ht
    · have := h5 _ _ hu; omega
    · exact absurd ht (hno _)
    · exact Nat.le_refl _
  · intro m u hu e' h'
    rcases hmem2 _ _ hu with hu | ⟨rfl, rfl⟩ <;> rcases key _ _ h' with ⟨ha, rfl⟩ | ⟨a, b⟩
    · subst m; exact h7 _ _ hu e he
    · exact h7 _ _ hu _ b
    · simp only []; omega
    · exact absurd rfl a
  · intro m u hu e' h' hd'
    rcases hmem2 _ _ hu with hu | ⟨rfl, rfl⟩ <;> rcases key _ _ h' with ⟨ha, rfl⟩ | ⟨a, b⟩
    · subst m; exact h8 _ _ hu _ he (.inl hd)
    · exact h8 _ _ hu _ b hd'
    · simp [hf] at hd'
    · exact absurd rfl a
  · intro m u hu h'
    have h0 := key0 _ h'
    rcases hmem2 _ _ hu with hu | ⟨rfl, rfl⟩
    · exact h9 _ _ hu h0.2
    · exact absurd rfl h0.1
  · show Spaced _ (s.probes ++ [(f, s.now)])
    unfold Spaced at h10 ⊢
    rw [List.pairwise_append]
    refine ⟨h10, by simp, ?_⟩
    intro a ha b hb hab
    simp only [List.mem_singleton] at hb
    subst hb
    obtain ⟨m, u⟩ := a
    simp only at hab
    subst hab
    exact h8 _ _ ha _ he (.inl hd)
  · intro t m ht
    rcases hmem _ _ ht with ht | ⟨rfl, rfl⟩
    · obtain ⟨u, hu, hle⟩ := h11 _ _ ht
      refine ⟨u, ?_, hle⟩
      rcases hu with hu | hu
      · left; exact hu
      · right; exact List.mem_append_left _ hu
    · exact ⟨s.now, .inr (List.mem_append_right _ (by simp)), by omega⟩

/-- `sendProbe` for a FIB entry in the strategy's namespace -/
theorem sendProbe_good {c : Cfg α} {s : St α} (h : Inv c s) {f i : List α} (hf : c.under f = true) {r : Nat} (hr : r ≤ 5000) {o : Bool}
    (hl : 5000 < c.lifetime) (hl2 : c.interval < c.lifetime) :
    ∃ s1 e1, s.sendProbe c f i r o = some s1 ∧ Inv c s1 ∧ s1.ents f = some e1 ∧ e1.first = true ∧ s1.now = s.now ∧
      (∀ m, m ≠ f → s1.ents m = s.ents m) ∧
      ((∃ e0, s.ents f = some e0 ∧ e0.due = true) → o = true → s1.probes = s.probes ++ [(f, s.now)]) := by
  obtain ⟨s1, e1, hg, hgot, hinv⟩ := getOrCreate_good (s := s) (i := i) hf
  have h1 := hinv h
  unfold St.sendProbe
  simp only [hg, Option.bind_eq_bind, Option.bind_some, hgot.here]
  cases hfst : e1.first
  · -- a first probe is scheduled
    have hnd : e1.due = false := by
      have := h1.one _ _ hgot.here
      rw [hfst] at this
      cases hd : e1.due
      · rfl
      · rw [hd] at this; simp at this
    have hb := h1.begin hgot.here hfst hr hl (by rw [hgot.now]; exact hgot.expiry)
    simp only [hnd, Bool.false_and, Bool.false_eq_true, if_false]
    refine ⟨_, { e1 with first := true }, rfl, hb, ?_, rfl, hgot.now, ?_, ?_⟩
    · simp [St.setFirst, St.schedule, hgot.here]
    · intro m hm; simp only [St.setFirst, St.schedule]; rw [if_neg hm]; exact hgot.others m hm
    · rintro ⟨e0, h0, hd0⟩
      have := (hgot.old _ h0).1
      rw [hnd, hd0] at this; cases this
  · simp only [if_true]
    cases hdue : (e1.due && o)
    · simp only [Bool.false_eq_true, if_false]
      refine ⟨s1, e1, rfl, h1, hgot.here, hfst, hgot.now, hgot.others, ?_⟩
      rintro ⟨e0, h0, hd0⟩ rfl
      rw [(hgot.old _ h0).1, hd0] at hdue; cases hdue
    · simp only [if_true]
      obtain ⟨s2, e2, hg2, hgot2, hinv2⟩ := getOrCreate_good (s := s1) (i := i) hf
      have h2 := hinv2 h1
      rw [hg2]
      simp only [Option.bind_some]
      have hd2 : e2.due = true := by
        rw [(hgot2.old _ hgot.here).1]; exact (Bool.and_eq_true_iff.mp hdue).1
      have hp := h2.probe hgot2.here hd2 hl2 (by rw [hgot2.now]; exact hgot2.expiry)
      refine ⟨_, { e2 with due := false }, rfl, hp, ?_, ?_, ?_, ?_, ?_⟩
      · simp [St.setDue, St.schedule, hgot2.here]
      · simp only []; rw [(hgot2.old _ hgot.here).2]; exact hfst
      · simp only [St.setDue, St.schedule]; rw [hgot2.now]; exact hgot.now
      · intro m hm; simp only [St.setDue, St.schedule]; rw [if_neg hm, hgot2.others m hm]; exact hgot.others m hm
      · intro _ _
        show s2.probes ++ [(f, s2.now)] = _
        rw [hgot2.probes, hgot2.now, hgot.probes, hgot.now]

omit [DecidableEq α] in
theorem longest_self {s : St α} {p : List α} {e : Ent} (h : s.ents p = some e) : s.longest p p.length = some p := by
  cases hp : p.length with
  | zero =>
    have : p = [] := List.length_eq_zero_iff.mp hp
    subst this
    unfold St.longest
    rw [h]; rfl
  | succ k =>
    unfold St.longest
    rw [← hp, List.take_length, h]; rfl

theorem find_shape {c : Cfg α} {s s1 : St α} {p m : List α} (h : s.find c p = some (s1, m)) : s1 = s.extend m c.lifetime ∧ c.under m = true := by
  unfold St.find at h
  rw [Option.map_eq_some_iff] at h
  obtain ⟨m', hm, he⟩ := h
  cases he
  rw [Option.filter_eq_some_iff] at hm
  exact ⟨rfl, hm.2⟩

theorem extend_first {s : St α} {m p : List α} {l : Nat} {e : Ent} (h : s.ents p = some e) :
    ∃ e', (s.extend m l).ents p = some e' ∧ e'.first = e.first ∧ e'.due = e.due ∧ e.expiry ≤ e'.expiry := by
  unfold St.extend
  dsimp only
  split
  · subst m; rw [h]
    refine ⟨_, rfl, ?_⟩
    dsimp only
    split
    · exact ⟨rfl, rfl, Nat.le_refl _⟩
    · refine ⟨rfl, rfl, ?_⟩
      show e.expiry ≤ s.now + l
      omega
  · exact ⟨e, h, rfl, rfl, Nat.le_refl _⟩

theorem Inv.fire {c : Cfg α} {s : St α} (h : Inv c s) {t : Nat} {p : List α} (hm : (t, p) ∈ s.timers) (ht : t ≤ s.now) :
    ∃ s1, s.step c (.fire t p) = some s1 ∧ Inv c s1 ∧ ∀ m e, s.ents m = some e → ∃ e', s1.ents m = some e' ∧ e'.first = e.first := by
  have hcp := cnt_pos hm
  obtain ⟨e, he⟩ : ∃ e, s.ents p = some e := by
    cases hp : s.ents p with
    | none => have := h.zero _ hp; omega
    | some e => exact ⟨e, rfl⟩
  unfold St.step
  simp only [hm, ht, and_self, if_true]
  have hfind : ({ s with timers := s.timers.erase (t, p) } : St α).find c p =
      some (({ s with timers := s.timers.erase (t, p) } : St α).extend p c.lifetime, p) := by
    unfold St.find
    rw [longest_self (s := { s with timers := s.timers.erase (t, p) }) he]
    simp [h.under _ _ he]
  rw [hfind]
  simp only []
  refine ⟨_, rfl, ?_, ?_⟩
  · have hx := h.extend p c.lifetime
    obtain ⟨e', he', hfe, hde, hle⟩ := extend_first (m := p) (l := c.lifetime) he
    obtain ⟨h1, h2, h3, h4, h5, h6, h7, h8, h9, h10, h11⟩ := hx
    have hone := h2 _ _ he'
    change s.cnt p + _ = _ at hone
    have hcnt : ∀ m, ((({ s with timers := s.timers.erase (t, p) } : St α).extend p c.lifetime).setDue p true).cnt m + (if p = m then 1 else 0) = s.cnt m := by
      intro m
      show (s.timers.erase (t, p)).countP _ + _ = s.timers.countP _
      rw [(List.perm_cons_erase hm).countP_eq]
      simp [List.countP_cons]
    have hsub : ∀ x, x ∈ s.timers.erase (t, p) → x ∈ s.timers := fun x hx => List.mem_of_mem_erase hx
    have hfe1 : e'.first = true ∧ e'.due = false ∧ s.cnt p = 1 := by
      revert hone
      cases e'.first <;> cases e'.due <;> simp <;> omega
    have key : ∀ m e1, ((({ s with timers := s.timers.erase (t, p) } : St α).extend p c.lifetime).setDue p true).ents m = some e1 →
        (m = p ∧ e1 = { e' with due := true }) ∨ (m ≠ p ∧ (s.extend p c.lifetime).ents m = some e1) := by
      intro m e1 h'
      unfold St.setDue at h'
      dsimp only at h'
      split at h'
      · left; refine ⟨‹_›, ?_⟩
        change ((s.extend p c.lifetime).ents p).map _ = _ at h'
        rw [he'] at h'; cases h'; rfl
      · right; exact ⟨‹_›, h'⟩
    have key0 : ∀ m, ((({ s with timers := s.timers.erase (t, p) } : St α).extend p c.lifetime).setDue p true).ents m = none →
        m ≠ p ∧ (s.extend p c.lifetime).ents m = none := by
      intro m h'
      unfold St.setDue at h'
      dsimp only at h'
      split at h'
      · change ((s.extend p c.lifetime).ents p).map _ = _ at h'
        rw [he'] at h'; cases h'
      · exact ⟨‹_›, h'⟩
    refine ⟨?_, ?_, ?_, ?_, h5, ?_, ?_, ?_, ?_, h10, ?_⟩
    · intro m e1 h'; rcases key _ _ h' with ⟨rfl, rfl⟩ | ⟨a, b⟩
      · exact h1 _ _ he'
      · exact h1 _ _ b
    · intro m e1 h'
      have hc := hcnt m
      rcases key _ _ h' with ⟨rfl, rfl⟩ | ⟨a, b⟩
      · rw [if_pos rfl] at hc
        simp only [hfe1.1, Bool.toNat_true]; omega
      · rw [if_neg (fun x => a x.symm)] at hc
        have := h2 _ _ b
        change s.cnt m + _ = _ at this
        omega
    · intro m h'
      have hc := hcnt m
      have h0 := key0 _ h'
      have : s.cnt m = 0 := h3 _ h0.2
      omega
    · intro t' m ht' e1 h'
      rcases key _ _ h' with ⟨rfl, rfl⟩ | ⟨a, b⟩
      · exact h4 _ _ (hsub _ ht') e' he'
      · exact h4 _ _ (hsub _ ht') _ b
    · intro m u hu t' ht'; exact h6 _ _ hu _ (hsub _ ht')
    · intro m u hu e1 h'; rcases key _ _ h' with ⟨rfl, rfl⟩ | ⟨a, b⟩
      · exact h7 _ _ hu e' he'
      · exact h7 _ _ hu _ b
    · intro m u hu e1 h' hd; rcases key _ _ h' with ⟨rfl, rfl⟩ | ⟨a, b⟩
      · have := h6 _ _ hu _ hm
        show _ ≤ s.now
        omega
      · exact h8 _ _ hu _ b hd
    · intro m u hu h'; exact h9 _ _ hu (key0 _ h').2
    · intro t' m ht'; exact h11 _ _ (hsub _ ht')
  · intro m e0 h0
    obtain ⟨e1, ha, hb, -, -⟩ := extend_first (s := ({ s with timers := s.timers.erase (t, p) } : St α)) (m := p) (l := c.lifetime) (p := m) h0
    unfold St.setDue
    dsimp only
    split
    · subst m; rw [ha]; exact ⟨_, rfl, hb⟩
    · exact ⟨e1, ha, hb⟩

/-- Every proper step keeps the invariant, and the entries but for those that expire. -/
theorem Inv.step {c : Cfg α} {s s1 : St α} (h : Inv c s) (hl : 5000 < c.lifetime) (hl2 : c.interval < c.lifetime) {ev : Ev α}
    (hu : (∀ f i r o, ev = Ev.interest f i r o → c.under f = true) ∧ (∀ f i, ev = Ev.lookup f i → c.under f = true))
    (ha : s.allowed c ev) (hs : s.step c ev = some s1) :
    Inv c s1 ∧ ∀ m e, s.ents m = some e → e.first = true → ev ≠ Ev.expire m → ∃ e', s1.ents m = some e' ∧ e'.first = true := by
  cases ev with
  | interest f i r o =>
    obtain ⟨s2, e2, h2, hi, hf, hff, -, ho, -⟩ := sendProbe_good h (hu.1 f i r o rfl) (i := i) (o := o) ha.2.2 hl hl2
    unfold St.step at hs
    simp only at hs
    rw [h2] at hs
    cases hs
    refine ⟨hi, ?_⟩
    intro m e hm he _
    by_cases hmf : m = f
    · subst m; exact ⟨e2, hf, hff⟩
    · exact ⟨e, by rw [ho m hmf]; exact hm, he⟩
  | lookup f i =>
    obtain ⟨s2, e2, h2, hg, hi⟩ := getOrCreate_good (s := s) (hu.2 f i rfl) (i := i)
    unfold St.step at hs
    simp only [h2, Option.map_some] at hs
    cases hs
    refine ⟨hi h, ?_⟩
    intro m e hm he _
    by_cases hmf : m = f
    · subst m; exact ⟨e2, hg.here, by rw [(hg.old _ hm).2]; exact he⟩
    · exact ⟨e, by rw [hg.others m hmf]; exact hm, he⟩
  | touch n =>
    unfold St.step at hs
    simp only at hs
    split at hs
    · rename_i s2 m2 hf
      cases hs
      obtain ⟨rfl, -⟩ := find_shape hf
      refine ⟨h.extend _ _, ?_⟩
      intro m e hm he _
      obtain ⟨e', ha, hb, -⟩ := extend_first (m := m2) (l := c.lifetime) hm
      exact ⟨e', ha, by rw [hb]; exact he⟩
    · cases hs
      exact ⟨h, fun m e hm he _ => ⟨e, hm, he⟩⟩
  | fire t p =>
    have hmt : (t, p) ∈ s.timers ∧ t ≤ s.now := by
      unfold St.step at hs
      simp only at hs
      split at hs
      · assumption
      · cases hs
    obtain ⟨s2, h2, hi, hk⟩ := h.fire hmt.1 hmt.2
    rw [h2] at hs
    cases hs
    refine ⟨hi, ?_⟩
    intro m e hm he _
    obtain ⟨e', ha, hb⟩ := hk m e hm
    exact ⟨e', ha, by rw [hb]; exact he⟩
  | expire n =>
    unfold St.step at hs
    simp only [Option.bind_eq_some_iff] at hs
    obtain ⟨e, he, hs⟩ := hs
    split at hs
    · rename_i hex
      cases hs
      have hno : ∀ t, (t, n) ∉ s.timers := fun t ht => by
        have := ha e he _ ht
        have := h.before _ _ ht _ he
        simp only at *
        omega
      have hz : s.cnt n = 0 := by
        unfold St.cnt
        rw [List.countP_eq_zero]
        rintro ⟨t, m⟩ hx
        simp only [decide_eq_true_eq]
        rintro rfl
        exact hno _ hx
      obtain ⟨h1, h2, h3, h4, h5, h6, h7, h8, h9, h10, h11⟩ := h
      refine ⟨⟨?_, ?_, ?_, ?_, h5, h6, ?_, ?_, ?_, h10, h11⟩, ?_⟩
      · intro m e1 h'; dsimp only at h'; split at h'
        · cases h'
        · exact h1 _ _ h'
      · intro m e1 h'; dsimp only at h'; split at h'
        · cases h'
        · exact h2 _ _ h'
      · intro m h'; dsimp only at h'; split at h'
        · subst m; exact hz
        · exact h3 _ h'
      · intro t m ht e1 h'; dsimp only at h'; split at h'
        · cases h'
        · exact h4 _ _ ht _ h'
      · intro m u hu e1 h'; dsimp only at h'; split at h'
        · cases h'
        · exact h7 _ _ hu _ h'
      · intro m u hu e1 h'; dsimp only at h'; split at h'
        · cases h'
        · exact h8 _ _ hu _ h'
      · intro m u hu h'; dsimp only at h'; split at h'
        · subst m
          have := h7 _ _ hu _ he
          show _ ≤ s.now
          omega
        · exact h9 _ _ hu h'
      · intro m e1 hm he1 hne
        refine ⟨e1, ?_, he1⟩
        dsimp only
        rw [if_neg (by rintro rfl; exact hne rfl)]
        exact hm
    · cases hs
  | tick d =>
    unfold St.step at hs
    cases hs
    obtain ⟨h1, h2, h3, h4, h5, h6, h7, h8, h9, h10, h11⟩ := h
    refine ⟨⟨h1, h2, h3, h4, ?_, h6, h7, ?_, ?_, h10, h11⟩, fun m e hm he _ => ⟨e, hm, he⟩⟩
    · intro m u hu; have := h5 _ _ hu; show _ ≤ s.now + d; omega
    · intro m u hu e he hd; have := h8 _ _ hu _ he hd; show _ ≤ s.now + d; omega
    · intro m u hu he; have := h9 _ _ hu he; show _ ≤ s.now + d; omega

omit [DecidableEq α] in
theorem Proper.head {c : Cfg α} {ev : Ev α} {es : List (Ev α)} (h : Proper c (ev :: es)) :
    ((∀ f i r o, ev = Ev.interest f i r o → c.under f = true) ∧ (∀ f i, ev = Ev.lookup f i → c.under f = true)) ∧ Proper c es :=
  ⟨⟨fun f i r o he => h.1 f i r o (by rw [he]; exact List.mem_cons_self), fun f i he => h.2 f i (by rw [he]; exact List.mem_cons_self)⟩,
   fun f i r o hm => h.1 f i r o (List.mem_cons_of_mem _ hm), fun f i hm => h.2 f i (List.mem_cons_of_mem _ hm)⟩

theorem Inv.runs {c : Cfg α} (hl : 5000 < c.lifetime) (hl2 : c.interval < c.lifetime) {es : List (Ev α)} :
    ∀ {s s' : St α}, Inv c s → Proper c es → Runs c s es s' →
    Inv c s' ∧ ∀ m e, s.ents m = some e → e.first = true → Ev.expire m ∉ es → ∃ e', s'.ents m = some e' ∧ e'.first = true := by
  induction es with
  | nil => intro s s' h _ hr; cases hr; exact ⟨h, fun m e hm he _ => ⟨e, hm, he⟩⟩
  | cons ev es ih =>
    intro s s' h hp hr
    obtain ⟨s1, ha, hs, hr⟩ := hr
    obtain ⟨hu, hp⟩ := hp.head
    obtain ⟨h1, hk1⟩ := h.step hl hl2 hu ha hs
    obtain ⟨h2, hk2⟩ := ih h1 hp hr
    refine ⟨h2, ?_⟩
    intro m e hm he hne
    obtain ⟨e', ha', hb'⟩ := hk1 m e hm he (fun hx => hne (by rw [hx]; exact List.mem_cons_self))
    exact hk2 m e' ha' hb' (fun hx => hne (List.mem_cons_of_mem _ hx))

/-! No prefix of the FIB entries is in the strategy's namespace. -/

structure Quiet (c : Cfg α) (s : St α) : Prop where
  due : ∀ n e, s.ents n = some e → e.due = false
  timers : ∀ t f, (t, f) ∈ s.timers → ∀ n, n <+: f → c.under n = false
  probes : s.probes = []

theorem Quiet.get {c : Cfg α} {s : St α} (h : Quiet c s) (n : List α) : Quiet c (s.get n) := by
  unfold St.get
  split
  · exact h
  · refine ⟨?_, h.timers, h.probes⟩
    intro m e he; dsimp only at he; split at he
    · cases he; rfl
    · exact h.due _ _ he

theorem Quiet.extend {c : Cfg α} {s : St α} (h : Quiet c s) (n : List α) (l : Nat) : Quiet c (s.extend n l) := by
  refine ⟨?_, h.timers, h.probes⟩
  intro m e he; unfold St.extend at he; dsimp only at he; split at he
  · rw [Option.map_eq_some_iff] at he
    obtain ⟨e0, h0, he⟩ := he
    have := h.due _ _ h0
    split at he <;> subst he <;> exact this
  · exact h.due _ _ he

theorem Quiet.search {c : Cfg α} {name : List α} {k : Nat} : ∀ {len : Nat} {s s1 : St α} {n : List α}, Quiet c s → St.search c name k len s = some (s1, n) → Quiet c s1 := by
  induction k with
  | zero => intro len s s1 n _ h; unfold St.search at h; cases h
  | succ k ih =>
    intro len s s1 n h hs
    unfold St.search at hs
    dsimp only at hs
    split at hs
    · cases hs; exact h.get _
    · exact ih (h.get _) hs

theorem Quiet.getOrCreate {c : Cfg α} {s s1 : St α} {f i n : List α} (h : Quiet c s) (hs : s.getOrCreate c f i = some (s1, n)) : Quiet c s1 := by
  unfold St.getOrCreate at hs
  rw [Option.map_eq_some_iff] at hs
  obtain ⟨⟨s2, m⟩, h2, he⟩ := hs
  cases he
  refine Quiet.extend ?_ _ _
  split at h2
  · cases h2; exact h.get _
  · exact Quiet.search (h.get _) h2

omit [DecidableEq α] in
theorem longest_prefix {s : St α} {n m : List α} : ∀ {k : Nat}, s.longest n k = some m → m <+: n := by
  intro k
  induction k with
  | zero => intro h; unfold St.longest at h; split at h <;> cases h; exact List.nil_prefix
  | succ k ih =>
    intro h; unfold St.longest at h; split at h
    · cases h; exact List.take_prefix _ _
    · exact ih h

theorem Quiet.step {c : Cfg α} {s s1 : St α} (h : Quiet c s) {ev : Ev α}
    (hu : ∀ f i r o, ev = Ev.interest f i r o → ∀ n, n <+: f → c.under n = false) (hs : s.step c ev = some s1) : Quiet c s1 := by
  cases ev with
  | interest f i r o =>
    unfold St.step St.sendProbe at hs
    simp only [Option.bind_eq_bind, Option.bind_eq_some_iff] at hs
    obtain ⟨⟨s2, n⟩, h2, e, he, hs⟩ := hs
    have hq := h.getOrCreate h2
    dsimp only at he hs
    rw [hq.due _ _ he] at hs
    simp only [Bool.false_and, Bool.false_eq_true, if_false] at hs
    cases hs
    split
    · exact hq
    · refine ⟨?_, ?_, hq.probes⟩
      · intro m e' h'
        simp only [St.setFirst, St.schedule] at h'
        split at h'
        · rw [Option.map_eq_some_iff] at h'
          obtain ⟨e0, h0, h'⟩ := h'
          subst h'; exact hq.due _ e0 h0
        · exact hq.due _ _ h'
      · intro t m ht
        simp only [St.setFirst, St.schedule, List.mem_append, List.mem_singleton, Prod.mk.injEq] at ht
        rcases ht with ht | ⟨-, rfl⟩
        · exact hq.timers _ _ ht
        · exact hu _ _ _ _ rfl
  | lookup f i =>
    unfold St.step at hs
    simp only [Option.map_eq_some_iff] at hs
    obtain ⟨⟨s2, n⟩, h2, hs⟩ := hs
    cases hs
    exact h.getOrCreate h2
  | touch n =>
    unfold St.step at hs
    simp only at hs
    split at hs
    · rename_i hf
      cases hs
      obtain ⟨rfl, -⟩ := find_shape hf
      exact h.extend _ _
    · cases hs; exact h
  | fire t p =>
    unfold St.step at hs
    simp only at hs
    split at hs
    · rename_i hm
      have hq : Quiet c ({ s with timers := s.timers.erase (t, p) } : St α) :=
        ⟨h.due, fun t' f' hm' => h.timers _ _ (List.mem_of_mem_erase hm'), h.probes⟩
      split at hs
      · rename_i s2 n hf
        exfalso
        unfold St.find at hf
        rw [Option.map_eq_some_iff] at hf
        obtain ⟨m', hm', he⟩ := hf
        cases he
        rw [Option.filter_eq_some_iff] at hm'
        have := h.timers _ _ hm.1 _ (longest_prefix hm'.1)
        rw [this] at hm'
        exact absurd hm'.2 (by decide)
      · cases hs; exact hq
    · cases hs
  | expire n =>
    unfold St.step at hs
    simp only [Option.bind_eq_some_iff] at hs
    obtain ⟨e, he, hs⟩ := hs
    split at hs
    · cases hs
      refine ⟨?_, h.timers, h.probes⟩
      intro m e' h'; dsimp only at h'; split at h'
      · cases h'
      · exact h.due _ _ h'
    · cases hs
  | tick d => unfold St.step at hs; cases hs; exact ⟨h.due, h.timers, h.probes⟩

theorem get_some (s : St α) (n : List α) : ∃ e, (s.get n).ents n = some e := by
  unfold St.get
  split
  · rename_i e h; exact ⟨e, h⟩
  · exact ⟨_, if_pos rfl⟩

theorem search_some {c : Cfg α} {name : List α} (hu : c.under name = true) {k : Nat} : ∀ {len : Nat} {s : St α}, 0 < k → len + k = name.length + 1 →
    ∃ s1 n e, St.search c name k len s = some (s1, n) ∧ s1.ents n = some e := by
  induction k with
  | zero => intro len s h; omega
  | succ k ih =>
    intro len s _ hk
    unfold St.search
    dsimp only
    split
    · obtain ⟨e, he⟩ := get_some s (name.take len)
      exact ⟨_, _, e, rfl, he⟩
    · rename_i hn
      cases k with
      | zero =>
        rw [List.take_of_length_le (by omega)] at hn
        exact absurd hu hn
      | succ k => exact ih (by omega) (by omega)

theorem getOrCreate_some {c : Cfg α} {s : St α} {f i : List α} (hf : f <+: i) (hu : c.under i = true) :
    ∃ s1 n e, s.getOrCreate c f i = some (s1, n) ∧ s1.ents n = some e := by
  unfold St.getOrCreate
  dsimp only
  split
  · obtain ⟨e, he⟩ := get_some s f
    obtain ⟨e', he', -⟩ := extend_first (m := f) (l := c.lifetime) he
    exact ⟨_, f, e', rfl, he'⟩
  · rename_i hn
    have hlen : f.length < i.length := by
      rcases Nat.lt_or_ge f.length i.length with h | h
      · exact h
      · have := hf.eq_of_length_le h
        subst this; exact absurd hu hn
    obtain ⟨s1, n, e, h1, h2⟩ := search_some (s := s.get f) hu (k := i.length - f.length) (len := f.length + 1) (by omega) (by omega)
    rw [h1]
    obtain ⟨e', he', -⟩ := extend_first (m := n) (l := c.lifetime) h2
    exact ⟨_, n, e', rfl, he'⟩

end Verif.Ap
