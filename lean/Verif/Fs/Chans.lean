import Verif.Fs.Spec

/-! Channels: `openChan` does what is asked for. -/
namespace Verif.Fs

variable {κ : Type}

/-- Channels are distinct, and those that say that they listen accept peers. -/
structure ChInv (cs : List (Chan κ)) : Prop where
  once : cs.Pairwise (fun a b => a.key ≠ b.key)
  flags : ∀ c ∈ cs, c.flag = true → c.ready = true

theorem ChInv.nil : ChInv ([] : List (Chan κ)) := ⟨List.Pairwise.nil, fun _ h => by cases h⟩

theorem key_unique {l : List (Chan κ)} (hp : l.Pairwise (fun a b => a.key ≠ b.key)) {c d : Chan κ} (hc : c ∈ l) (hd : d ∈ l) (h : c.key = d.key) : c = d := by
  induction l with
  | nil => cases hc
  | cons a l ih =>
    rw [List.pairwise_cons] at hp
    rcases List.mem_cons.1 hc with hc1 | hc1
    · rcases List.mem_cons.1 hd with hd1 | hd1
      · rw [hc1, hd1]
      · subst hc1; exact absurd h (hp.1 d hd1)
    · rcases List.mem_cons.1 hd with hd1 | hd1
      · subst hd1; exact absurd h.symm (hp.1 c hc1)
      · exact ih hp.2 hc1 hd1

theorem ChansDone.refl {listen : Bool} {m : Bool} {i t : Nat} {cs : List (Chan κ)} (h : ChInv cs) : ChansDone listen (fun _ => False) m i t cs cs where
  once := h.once
  kept := fun c hc => ⟨c, hc, rfl, rfl, rfl, rfl, id⟩
  made := fun d hd => Or.inl ⟨d, hd, rfl⟩
  all := fun _ h => h.elim
  accepts := fun _ _ h => h.elim
  only := fun d hd hr => Or.inl ⟨d, hd, rfl, hr⟩

theorem ChansDone.trans {listen : Bool} {p q : κ → Prop} {m : Bool} {i t : Nat} {a b c : List (Chan κ)} (h1 : ChansDone listen p m i t a b)
    (h2 : ChansDone listen q m i t b c) : ChansDone listen (fun k => p k ∨ q k) m i t a c where
  once := h2.once
  kept := by
    intro x hx
    obtain ⟨y, hy, y1, y2, y3, y4, y5⟩ := h1.kept x hx
    obtain ⟨z, hz, z1, z2, z3, z4, z5⟩ := h2.kept y hy
    exact ⟨z, hz, z1.trans y1, z2.trans y2, z3.trans y3, z4.trans y4, fun h => z5 (y5 h)⟩
  made := by
    intro z hz
    rcases h2.made z hz with ⟨y, hy, hk⟩ | ⟨h, h'⟩
    · rcases h1.made y hy with ⟨x, hx, hk'⟩ | ⟨h, e1, e2, e3⟩
      · exact Or.inl ⟨x, hx, hk'.trans hk⟩
      · obtain ⟨w, hw, w1, w2, w3, w4, -⟩ := h2.kept y hy
        have := key_unique h2.once hw hz (w1.trans hk)
        subst this
        exact Or.inr ⟨Or.inl (hk ▸ h), w2.trans e1, w3.trans e2, w4.trans e3⟩
    · exact Or.inr ⟨Or.inr h, h'⟩
  all := by
    rintro k (h | h)
    · obtain ⟨y, hy, rfl⟩ := h1.all k h
      obtain ⟨z, hz, z1, -⟩ := h2.kept y hy
      exact ⟨z, hz, z1⟩
    · exact h2.all k h
  accepts := by
    rintro hl k (h | h)
    · obtain ⟨y, hy, rfl, hr⟩ := h1.accepts hl k h
      obtain ⟨z, hz, z1, -, -, -, z5⟩ := h2.kept y hy
      exact ⟨z, hz, z1, z5 hr⟩
    · exact h2.accepts hl k h
  only := by
    intro z hz hr
    rcases h2.only z hz hr with ⟨y, hy, hk, hr'⟩ | ⟨h, hl⟩
    · rcases h1.only y hy hr' with ⟨x, hx, hk', hr''⟩ | ⟨h, hl⟩
      · exact Or.inl ⟨x, hx, hk'.trans hk, hr''⟩
      · exact Or.inr ⟨Or.inl (hk ▸ h), hl⟩
    · exact Or.inr ⟨Or.inr h, hl⟩

theorem ChansDone.congr {listen : Bool} {p q : κ → Prop} {m : Bool} {i t : Nat} {a b : List (Chan κ)} (h : ChansDone listen p m i t a b)
    (hq : ∀ k, q k ↔ p k) : ChansDone listen q m i t a b := by
  have : p = q := funext fun k => propext (hq k).symm
  rw [← this]; exact h

variable [DecidableEq κ]

theorem create_cases (c : Chan κ) (cs : List (Chan κ)) :
    ((∃ d ∈ cs, d.key = c.key) ∧ create c cs = cs) ∨ ((∀ d ∈ cs, d.key ≠ c.key) ∧ create c cs = cs ++ [c]) := by
  unfold create
  by_cases h : (cs.any fun d => d.key == c.key) = true
  · rw [if_pos h]
    obtain ⟨d, hd, hk⟩ := List.any_eq_true.1 h
    exact Or.inl ⟨⟨d, hd, by simpa using hk⟩, rfl⟩
  · rw [if_neg h]
    refine Or.inr ⟨fun d hd hk => h (List.any_eq_true.2 ⟨d, hd, by simpa using hk⟩), rfl⟩

theorem create_done {c : Chan κ} {cs : List (Chan κ)} (hi : ChInv cs) (hr : c.ready = false) (hf : c.flag = false) :
    ChansDone false (· = c.key) c.marking c.idle c.mtu cs (create c cs) ∧ ChInv (create c cs) := by
  rcases create_cases c cs with ⟨⟨d, hd, hk⟩, e⟩ | ⟨hn, e⟩
  · rw [e]
    refine ⟨⟨hi.once, fun c hc => ⟨c, hc, rfl, rfl, rfl, rfl, id⟩, fun d hd => Or.inl ⟨d, hd, rfl⟩, ?_, fun h => (by cases h), fun d hd hr => Or.inl ⟨d, hd, rfl, hr⟩⟩, hi⟩
    rintro k rfl
    exact ⟨d, hd, hk⟩
  · rw [e]
    have hp : (cs ++ [c]).Pairwise (fun a b => a.key ≠ b.key) := by
      rw [List.pairwise_append]
      refine ⟨hi.once, by simp, ?_⟩
      intro a ha b hb
      rw [List.mem_singleton] at hb; subst hb
      exact hn a ha
    refine ⟨⟨hp, ?_, ?_, ?_, fun h => (by cases h), ?_⟩, hp, ?_⟩
    · intro d hd
      exact ⟨d, List.mem_append_left _ hd, rfl, rfl, rfl, rfl, id⟩
    · intro d hd
      rcases List.mem_append.1 hd with hd | hd
      · exact Or.inl ⟨d, hd, rfl⟩
      · rw [List.mem_singleton] at hd; subst hd
        exact Or.inr ⟨rfl, rfl, rfl, rfl⟩
    · rintro k rfl
      exact ⟨c, by simp, rfl⟩
    · intro d hd hr'
      rcases List.mem_append.1 hd with hd | hd
      · exact Or.inl ⟨d, hd, rfl, hr'⟩
      · rw [List.mem_singleton] at hd; subst hd
        rw [hr] at hr'; cases hr'
    · intro d hd hf'
      rcases List.mem_append.1 hd with hd | hd
      · exact hi.flags d hd hf'
      · rw [List.mem_singleton] at hd; subst hd
        rw [hf] at hf'; cases hf'

theorem openChan_done {want : Bool} {out : κ → Out} {c : Chan κ} {cs : List (Chan κ)} (hi : ChInv cs) (hr : c.ready = false) (hf : c.flag = false)
    (hok : (openChan want out c cs).2 = true) :
    ChansDone want (· = c.key) c.marking c.idle c.mtu cs (openChan want out c cs).1 ∧ ChInv (openChan want out c cs).1 := by
  obtain ⟨hd, hi'⟩ := create_done hi hr hf
  unfold openChan at hok ⊢
  dsimp only at hok ⊢
  generalize create c cs = cs1 at *
  by_cases h : want = true ∧ (cs1.any fun d => d.key == c.key && !d.flag) = true
  · rw [if_pos h] at hok ⊢
    have ho : out c.key = .ok := by simpa using hok
    rw [ho]
    dsimp only [Chan.listen]
    have hkey : ∀ d : Chan κ, (if d.key = c.key then { d with flag := true, ready := true } else d).key = d.key := by
      intro d; split <;> rfl
    have hp : (cs1.map (fun d => if d.key = c.key then { d with flag := true, ready := true } else d)).Pairwise (fun a b => a.key ≠ b.key) := by
      rw [List.pairwise_map]
      simp only [hkey]
      exact hd.once
    refine ⟨⟨hp, ?_, ?_, ?_, ?_, ?_⟩, hp, ?_⟩
    · intro x hx
      obtain ⟨d, hd1, e1, e2, e3, e4, e5⟩ := hd.kept x hx
      refine ⟨_, List.mem_map_of_mem hd1, ?_⟩
      by_cases hk : d.key = c.key
      · rw [if_pos hk]; exact ⟨e1, e2, e3, e4, fun _ => rfl⟩
      · rw [if_neg hk]; exact ⟨e1, e2, e3, e4, e5⟩
    · intro y hy
      obtain ⟨d, hd1, rfl⟩ := List.mem_map.1 hy
      rw [hkey]
      rcases hd.made d hd1 with h | ⟨h1, h2⟩
      · exact Or.inl h
      · refine Or.inr ⟨h1, ?_⟩
        split <;> exact h2
    · rintro k hk
      obtain ⟨d, hd1, hd2⟩ := hd.all k hk
      exact ⟨_, List.mem_map_of_mem hd1, (hkey d).trans hd2⟩
    · rintro - k rfl
      obtain ⟨d, hd1, hd2⟩ := hd.all _ rfl
      refine ⟨_, List.mem_map_of_mem hd1, (hkey d).trans hd2, ?_⟩
      rw [if_pos hd2]
    · intro y hy hr'
      obtain ⟨d, hd1, rfl⟩ := List.mem_map.1 hy
      rw [hkey]
      by_cases hk : d.key = c.key
      · exact Or.inr ⟨hk, h.1⟩
      · rw [if_neg hk] at hr'
        rcases hd.only d hd1 hr' with h | ⟨h, -⟩
        · exact Or.inl h
        · exact absurd h hk
    · intro y hy hf'
      obtain ⟨d, hd1, rfl⟩ := List.mem_map.1 hy
      by_cases hk : d.key = c.key
      · rw [if_pos hk]
      · rw [if_neg hk] at hf' ⊢
        exact hi'.flags d hd1 hf'
  · rw [if_neg h]
    refine ⟨⟨hd.once, hd.kept, hd.made, hd.all, ?_, ?_⟩, hi'⟩
    · rintro hw k rfl
      obtain ⟨d, hd1, hd2⟩ := hd.all _ rfl
      refine ⟨d, hd1, hd2, hi'.flags d hd1 ?_⟩
      cases hdf : d.flag with
      | true => rfl
      | false => exact absurd ⟨hw, List.any_eq_true.2 ⟨d, hd1, by simp [hd2, hdf]⟩⟩ h
    · intro d hd1 hr'
      rcases hd.only d hd1 hr' with h | ⟨-, h⟩
      · exact Or.inl h
      · cases h

/-- Opening works if listening does. -/
theorem openChan_ok {want : Bool} {out : κ → Out} {c : Chan κ} {cs : List (Chan κ)} (h : out c.key = .ok) : (openChan want out c cs).2 = true := by
  unfold openChan
  dsimp only
  split
  · rw [h]; rfl
  · rfl

end Verif.Fs
