import Verif.Dnl.Model

/-
Properties C09 and C10 of the Dead Nonce List.
-/
namespace Verif.Dnl

/-- Events that put something at the end of the list. -/
def Op.grows : Op → Bool
  | .add .. => true
  | .mark => true
  | .adjust => false

/-- `e` is in the list with at most `a` entries behind it. -/
def Within (s : Dnl) (e : Entry) (a : Nat) : Prop := ∃ pre post, s.queue = pre ++ e :: post ∧ post.length ≤ a

/-- Capacity invariant. -/
def CapOk (s : Dnl) : Prop := MIN_CAPACITY ≤ s.capacity ∧ s.capacity ≤ MAX_CAPACITY

theorem evict_cap (s : Dnl) : s.evictEntries.capacity = s.capacity := by
  unfold Dnl.evictEntries; split <;> rfl

theorem evict_within {s : Dnl} {e : Entry} {a : Nat} (h : Within s e a) (ha : a < s.capacity) :
    Within s.evictEntries e a := by
  obtain ⟨pre, post, h1, h2⟩ := h
  unfold Dnl.evictEntries
  split
  · exact ⟨pre, post, h1, h2⟩
  · rename_i hs
    refine ⟨pre.drop (min (s.queue.length - s.capacity) EVICT_LIMIT), post, ?_, h2⟩
    show s.queue.drop _ = _
    have hl : s.queue.length = pre.length + post.length + 1 := by simp [h1]; omega
    have hk : min (s.queue.length - s.capacity) EVICT_LIMIT ≤ pre.length := by omega
    rw [h1, List.drop_append_of_le_length (by rw [← h1]; exact hk)]

theorem erase_within {pre post : List Entry} {e x : Entry} (hx : x ≠ e) :
    ∃ pre' post', (pre ++ e :: post).erase x = pre' ++ e :: post' ∧ post'.length ≤ post.length := by
  by_cases h : x ∈ pre
  · exact ⟨pre.erase x, post, by rw [List.erase_append_left _ h], Nat.le_refl _⟩
  · refine ⟨pre, post.erase x, ?_, List.length_erase_le⟩
    rw [List.erase_append_right _ h, List.erase_cons_tail]
    simpa using fun h => hx h.symm

theorem capOk_step {s : Dnl} (h : CapOk s) (hash) (op : Op) : CapOk (s.step hash op) := by
  obtain ⟨h1, h2⟩ := h
  cases op with
  | add n x =>
    simp only [Dnl.step, Dnl.addEntry]
    split
    · exact ⟨h1, h2⟩
    · unfold CapOk; rw [evict_cap]; exact ⟨h1, h2⟩
  | mark => exact ⟨h1, h2⟩
  | adjust =>
    simp only [Dnl.step, Dnl.adjustCapacity]
    unfold CapOk; rw [evict_cap]
    simp only [MIN_CAPACITY, MAX_CAPACITY] at *
    split
    · omega
    · split
      · omega
      · exact ⟨h1, h2⟩

theorem within_step {s : Dnl} {e : Entry} {a : Nat} (hc : CapOk s) (h : Within s e a) (ha : a + 1 < MIN_CAPACITY) (hash)
    (op : Op) : Within (s.step hash op) e (if op.grows then a + 1 else a) := by
  obtain ⟨pre, post, h1, h2⟩ := h
  cases op with
  | add n x =>
    simp only [Dnl.step, Dnl.addEntry, Op.grows, if_true]
    split
    · by_cases hx : hash n x = e
      · exact ⟨s.queue.erase e, [], by simp [hx], by simp⟩
      · obtain ⟨pre', post', g1, g2⟩ := erase_within (pre := pre) (post := post) hx
        refine ⟨pre', post' ++ [hash n x], ?_, by simp; omega⟩
        show s.queue.erase _ ++ _ = _
        rw [h1, g1]; simp
    · apply evict_within
      · exact ⟨pre, post ++ [hash n x], by simp [h1], by simp; omega⟩
      · show a + 1 < s.capacity
        have := hc.1; omega
  | mark =>
    simp only [Dnl.step, Dnl.mark, Op.grows, if_true]
    exact ⟨pre, post ++ [MARK], by simp [h1], by simp; omega⟩
  | adjust =>
    have hc' := (capOk_step hc hash .adjust).1
    simp only [Dnl.step, Dnl.adjustCapacity, evict_cap] at hc' ⊢
    simp only [Op.grows, Bool.false_eq_true, if_false]
    refine evict_within (s := ⟨s.queue, _, []⟩) ⟨pre, post, h1, h2⟩ ?_
    exact Nat.lt_of_lt_of_le (by omega) hc'

theorem capOk_run (hash) (ops : List Op) : ∀ {s : Dnl}, CapOk s → CapOk (s.run hash ops) := by
  induction ops with
  | nil => intro s h; exact h
  | cons op ops ih => intro s h; exact ih (capOk_step h hash op)

theorem within_run (hash) (ops : List Op) : ∀ {s : Dnl} {e : Entry} {a : Nat}, CapOk s → Within s e a →
    a + ops.countP Op.grows < MIN_CAPACITY → ∃ a', Within (s.run hash ops) e a' := by
  induction ops with
  | nil => intro s e a _ h _; exact ⟨a, h⟩
  | cons op ops ih =>
    intro s e a hc h ha
    by_cases hg : op.grows = true
    · rw [List.countP_cons_of_pos hg] at ha
      have := within_step hc h (by omega) hash op
      rw [if_pos hg] at this
      exact ih (capOk_step hc hash op) this (by omega)
    · rw [List.countP_cons_of_neg hg] at ha
      by_cases ha' : a + 1 < MIN_CAPACITY
      · have := within_step hc h ha' hash op
        rw [if_neg hg] at this
        exact ih (capOk_step hc hash op) this ha
      · -- only adjustments can follow without growth
        have hop : op = .adjust := by cases op <;> simp [Op.grows] at hg <;> rfl
        subst hop
        have hc' := capOk_step hc hash .adjust
        refine ih (a := a) hc' ?_ ha
        have h1 := hc'.1
        simp only [Dnl.step, Dnl.adjustCapacity, evict_cap] at h1 ⊢
        obtain ⟨pre, post, e1, e2⟩ := h
        exact evict_within (s := ⟨s.queue, _, []⟩) ⟨pre, post, e1, e2⟩ (Nat.lt_of_lt_of_le (by omega) h1)

theorem init_capOk : CapOk init := ⟨by decide, by decide⟩

/-- C09 (memory). After a nonce is added, in any state reachable by any history, it is still recognised as long as fewer than
MIN_CAPACITY (1024) further insertions and marks have happened, whatever capacity adjustments come in between. -/
theorem C09_remembers (hash : Name → Nonce → Entry) (before after : List Op) (n : Name) (x : Nonce)
    (hfew : after.countP Op.grows < MIN_CAPACITY) :
    (init.run hash (before ++ .add n x :: after)).has hash n x = true := by
  have hcap := capOk_run hash before init_capOk
  have h0 : Within ((init.run hash before).step hash (.add n x)) (hash n x) 0 := by
    simp only [Dnl.step, Dnl.addEntry]
    split
    · exact ⟨(init.run hash before).queue.erase (hash n x), [], rfl, by simp⟩
    · apply evict_within
      · exact ⟨(init.run hash before).queue, [], rfl, by simp⟩
      · have : MIN_CAPACITY ≤ (init.run hash before).capacity := hcap.1
        exact Nat.lt_of_lt_of_le (by decide) this
  obtain ⟨a', pre, post, h1, -⟩ := within_run hash after (capOk_step hcap hash (.add n x)) h0 (by omega)
  have heq : init.run hash (before ++ .add n x :: after) =
      ((init.run hash before).step hash (.add n x)).run hash after := by
    simp [Dnl.run, List.foldl_append]
  rw [heq]
  simp [Dnl.has, Dnl.hasEntry, h1]

/-- C09 (no invention). Whatever is recognised has been added before (its hash has), unless its hash is the reserved mark. -/
theorem C09_only_added (hash : Name → Nonce → Entry) (ops : List Op) (n : Name) (x : Nonce)
    (h : (init.run hash ops).has hash n x = true) :
    hash n x = MARK ∨ ∃ n' x', Op.add n' x' ∈ ops ∧ hash n' x' = hash n x := by
  have key : ∀ (ops : List Op) (s : Dnl) (e : Entry), e ∈ (s.run hash ops).queue →
      e ∈ s.queue ∨ e = MARK ∨ ∃ n' x', Op.add n' x' ∈ ops ∧ hash n' x' = e := by
    intro ops
    induction ops with
    | nil => intro s e h; exact Or.inl h
    | cons op ops ih =>
      intro s e h
      rcases ih (s.step hash op) e h with h | h | ⟨n', x', h1, h2⟩
      · have hev : ∀ s : Dnl, ∀ e ∈ s.evictEntries.queue, e ∈ s.queue := by
          intro s e h
          unfold Dnl.evictEntries at h
          split at h
          · exact h
          · exact List.mem_of_mem_drop h
        cases op with
        | add n1 x1 =>
          simp only [Dnl.step, Dnl.addEntry] at h
          split at h
          · rcases List.mem_append.1 h with h | h
            · exact Or.inl (List.mem_of_mem_erase h)
            · exact Or.inr (Or.inr ⟨n1, x1, by simp, by simpa using (List.mem_singleton.1 h).symm⟩)
          · have h := hev _ _ h
            rcases List.mem_append.1 h with h | h
            · exact Or.inl h
            · exact Or.inr (Or.inr ⟨n1, x1, by simp, by simpa using (List.mem_singleton.1 h).symm⟩)
        | mark =>
          simp only [Dnl.step, Dnl.mark] at h
          rcases List.mem_append.1 h with h | h
          · exact Or.inl h
          · exact Or.inr (Or.inl (List.mem_singleton.1 h))
        | adjust => exact Or.inl (hev ⟨s.queue, _, []⟩ _ h)
      · exact Or.inr (Or.inl h)
      · exact Or.inr (Or.inr ⟨n', x', by simp [h1], h2⟩)
  have hm : hash n x ∈ (init.run hash ops).queue := by simpa [Dnl.has, Dnl.hasEntry] using h
  rcases key ops init _ hm with h | h | h
  · exact Or.inl (List.eq_of_mem_replicate h)
  · exact Or.inl h
  · exact Or.inr h

/-- C10 (bounds). The capacity always stays between 1024 and 2^24. -/
theorem C10_capacity_bounds (hash : Name → Nonce → Entry) (ops : List Op) :
    2 ^ 10 ≤ (init.run hash ops).capacity ∧ (init.run hash ops).capacity ≤ 2 ^ 24 :=
  capOk_run hash ops init_capOk

/-- C10: `size` is the number of Nonces in the list: what is in the queue besides the marks. -/
theorem C10_size (hash : Name → Nonce → Entry) (ops : List Op) :
    (init.run hash ops).size = ((init.run hash ops).queue.filter (fun e => e ≠ MARK)).length := by
  unfold Dnl.size Dnl.countMarks
  generalize (init.run hash ops).queue = q
  have h : q.length = q.count MARK + (q.filter (fun e => decide (e ≠ MARK))).length := by
    induction q with
    | nil => rfl
    | cons a l ih =>
      by_cases ha : a = MARK
      · subst ha; rw [List.count_cons_self, List.filter_cons_of_neg (by simp), List.length_cons]; omega
      · rw [List.count_cons_of_ne ha, List.filter_cons_of_pos (by simpa using ha), List.length_cons, List.length_cons]; omega
  omega

/-- Two Nonces are in the list besides the five marks. -/
example : (init.run (fun _ x => x + 1) [.add [] 7, .add [] 8]).size = 2 := by decide +kernel

/-- C10 (size). Adding a nonce leaves the list no longer than before, or within capacity; at most 64 old entries go, and
none goes that is needed to fill the capacity. -/
theorem C10_add_size (hash : Name → Nonce → Entry) (ops : List Op) (n : Name) (x : Nonce) :
    let s := init.run hash ops
    let s' := s.step hash (.add n x)
    (s'.queue.length ≤ s.queue.length ∨ s'.queue.length ≤ s.capacity) ∧
    s.queue.length ≤ s'.queue.length + 63 ∧
    (s'.queue.length < s.queue.length → s.capacity ≤ s'.queue.length) ∧
    (s.capacity < s.queue.length → s.has hash n x = false →
      s'.queue.length = max s.capacity (s.queue.length - 63)) := by
  intro s s'
  have hcap : 1 ≤ s.capacity := Nat.le_trans (by decide) (capOk_run hash ops init_capOk).1
  simp only [s', Dnl.step, Dnl.addEntry, Dnl.has]
  by_cases hh : s.hasEntry (hash n x) = true
  · simp only [hh, if_true]
    have hm : hash n x ∈ s.queue := by simpa [Dnl.hasEntry] using hh
    have hl := List.length_erase_of_mem hm
    have hpos := List.length_pos_of_mem hm
    have : (s.queue.erase (hash n x) ++ [hash n x]).length = s.queue.length := by
      simp only [List.length_append, List.length_singleton]; omega
    simp only [this]
    exact ⟨by omega, by omega, by omega, by simp⟩
  · have hh' : s.hasEntry (hash n x) = false := by simpa using hh
    simp only [hh', Bool.false_eq_true, if_false, Dnl.evictEntries, List.length_append, List.length_singleton, EVICT_LIMIT]
    split
    · simp only [List.length_append, List.length_singleton]; omega
    · simp only [List.length_drop, List.length_append, List.length_singleton]; omega

/-- C10 (adjustment). The capacity shrinks by a tenth exactly when every mark count since the last adjustment was above the
expectation, grows by a fifth exactly when every one was below, within the bounds. -/
theorem C10_adjust (hash : Name → Nonce → Entry) (ops : List Op) :
    let s := init.run hash ops
    let s' := s.step hash .adjust
    ((∀ c ∈ s.markCounts, 5 < c) → s'.capacity = max 1024 (s.capacity * 9 / 10)) ∧
    (s.markCounts ≠ [] → (∀ c ∈ s.markCounts, c < 5) → s'.capacity = min (2 ^ 24) (s.capacity * 12 / 10)) ∧
    ((∃ c ∈ s.markCounts, c ≤ 5) → (∃ c ∈ s.markCounts, 5 ≤ c) → s'.capacity = s.capacity) := by
  intro s s'
  simp only [s', Dnl.step, Dnl.adjustCapacity, evict_cap, EXPECTED_MARK_COUNT, MIN_CAPACITY, MAX_CAPACITY]
  refine ⟨?_, ?_, ?_⟩
  · intro h
    rw [if_pos (by simpa using h)]
  · intro hne h
    have h1 : ¬ (s.markCounts.all (fun c => decide (5 < c)) = true) := by
      intro hc
      obtain ⟨c, hc1⟩ := List.exists_mem_of_ne_nil _ hne
      have := List.all_eq_true.1 hc c hc1
      have := h c hc1
      simp at *; omega
    rw [if_neg h1, if_pos (by simpa using h)]
  · rintro ⟨c, hc1, hc2⟩ ⟨d, hd1, hd2⟩
    have h1 : ¬ (s.markCounts.all (fun c => decide (5 < c)) = true) := by
      intro hc; have := List.all_eq_true.1 hc c hc1; simp at this; omega
    have h2 : ¬ (s.markCounts.all (fun c => decide (c < 5)) = true) := by
      intro hc; have := List.all_eq_true.1 hc d hd1; simp at this; omega
    rw [if_neg h1, if_neg h2]

/-! ### Hypotheses are met -/

/-- C09: a nonce added after some history, followed by insertions, marks and adjustments. -/
example : [Op.mark, .add [] 3, .adjust, .adjust, .add [] 4].countP Op.grows < MIN_CAPACITY := by decide

/-- C09_only_added: something is recognised. -/
example : (init.run (fun _ x => x + 1) [.add [] 7, .mark, .adjust]).has (fun _ x => x + 1) [] 7 = true := by decide +kernel

/-- C10_adjust: each of the three cases occurs. -/
example : (init.run (fun _ x => x) [.mark]).markCounts = [6] ∧ (init.run (fun _ x => x) [.adjust]).capacity = 14745 := by
  decide +kernel

end Verif.Dnl
