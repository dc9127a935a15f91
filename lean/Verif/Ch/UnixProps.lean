/-
C94: the socket file and the faces of a Unix stream channel.
-/
import Verif.Ch.Unix
import Verif.Ch.TcpInv

namespace Verif.Ch.Unix
open Verif.Tp (bind_ok)

/-- A program that connects to the path reaches process `i`. -/
def Reached (w : World) (i : Nat) : Prop := ∃ x s, w.insts[i]? = some x ∧ x.hears = true ∧ x.sock = some s ∧ w.file = some (.sock s)

/-- Process `i` listens on its socket. -/
def Listening (w : World) (i : Nat) : Prop := ∃ x, w.insts[i]? = some x ∧ x.hears = true

/-- Nobody but NFD touches the path. -/
def Private (es : List Event) : Prop := ∀ k, .ext k ∉ es

/-- While a process is in `listen`, the others do nothing. -/
def Serial (w : World) : List Event → Prop
  | [] => True
  | e :: es => (∀ (i j : Nat) (x : Inst), e.who = some i → j ≠ i → w.insts[j]? = some x → x.pc.mid = false) ∧ Serial (step w e) es

/-- What each process may know about the file, if only one is in `listen` at a time. -/
structure Inv (w : World) : Prop where
  /-- a socket that is heard is at the path -/
  hears : ∀ (i : Nat) (x : Inst), w.insts[i]? = some x → x.hears = true → ∃ s, x.sock = some s ∧ w.file = some (.sock s)
  /-- a socket belongs to one process, and is known -/
  owner : ∀ (i j : Nat) (x y : Inst) (s : Nat), w.insts[i]? = some x → w.insts[j]? = some y → x.sock = some s → y.sock = some s → i = j
  known : ∀ (i : Nat) (x : Inst) (s : Nat), w.insts[i]? = some x → x.sock = some s → s < w.next
  file : ∀ s, w.file = some (.sock s) → s < w.next
  /-- only one process is in `listen` -/
  one : ∀ (i j : Nat) (x y : Inst), w.insts[i]? = some x → w.insts[j]? = some y → x.pc.mid = true → y.pc.mid = true → i = j
  flags : ∀ (i : Nat) (x : Inst), w.insts[i]? = some x → x.isListening = x.hears
  /-- the process in `listen` -/
  status : ∀ (i : Nat) (x : Inst), w.insts[i]? = some x → (x.pc = .status ∨ x.pc = .probe ∨ x.pc = .remove ∨ x.pc = .bind) → x.sock = none ∧ x.hears = false
  probe : ∀ (i : Nat) (x : Inst), w.insts[i]? = some x → x.pc = .probe → ∃ s, w.file = some (.sock s)
  remove : ∀ (i : Nat) (x : Inst), w.insts[i]? = some x → x.pc = .remove → ∀ (j : Nat) (y : Inst), w.insts[j]? = some y → y.hears = false
  listen : ∀ (i : Nat) (x : Inst), w.insts[i]? = some x → x.pc = .listen → x.hears = false ∧ ∃ s, x.sock = some s ∧ w.file = some (.sock s)
  perms : ∀ (i : Nat) (x : Inst), w.insts[i]? = some x → x.pc = .perms → x.hears = true
  /-- a process that did not call `listen` has no socket -/
  fresh : ∀ (i : Nat) (x : Inst), w.insts[i]? = some x → x.pc = .idle → x.hears = false → x.error = none → x.sock = none

theorem get_set {l : List Inst} {i j : Nat} {x y : Inst} (h : (l.set i x)[j]? = some y) : (j = i ∧ y = x) ∨ (j ≠ i ∧ l[j]? = some y) := by
  rw [List.getElem?_set] at h
  split at h
  · rename_i e
    split at h
    · cases h; exact Or.inl ⟨e.symm, rfl⟩
    · cases h
  · rename_i e
    exact Or.inr ⟨fun x => e x.symm, h⟩

theorem inv_update {w : World} (h : Inv w) {i : Nat} {x x' : Inst} {f' : Option Kind} {n' : Nat} (hx : w.insts[i]? = some x)
    (hs : ∀ (j : Nat) (y : Inst), j ≠ i → w.insts[j]? = some y → y.pc.mid = false)
    (hA : f' = w.file ∨ ∀ (j : Nat) (y : Inst), j ≠ i → w.insts[j]? = some y → y.hears = false)
    (hB : x'.hears = true → ∃ s, x'.sock = some s ∧ f' = some (.sock s))
    (hC : ∀ s, x'.sock = some s → x.sock = some s ∨ (s = w.next ∧ w.next < n'))
    (hD : w.next ≤ n' ∧ ∀ s, f' = some (.sock s) → s < n')
    (hE : x'.isListening = x'.hears)
    (hF : (x'.pc = .status ∨ x'.pc = .probe ∨ x'.pc = .remove ∨ x'.pc = .bind) → x'.sock = none ∧ x'.hears = false)
    (hG : x'.pc = .probe → ∃ s, f' = some (.sock s))
    (hH : x'.pc = .remove → ∀ (j : Nat) (y : Inst), j ≠ i → w.insts[j]? = some y → y.hears = false)
    (hI : x'.pc = .listen → x'.hears = false ∧ ∃ s, x'.sock = some s ∧ f' = some (.sock s))
    (hJ : x'.pc = .perms → x'.hears = true)
    (hK : x'.pc = .idle → x'.hears = false → x'.error = none → x'.sock = none) :
    Inv { file := f', next := n', insts := w.insts.set i x' } := by
  have hmid : ∀ (y : Inst) (j : Nat), j ≠ i → w.insts[j]? = some y → ∀ p : Pc, p.mid = true → y.pc ≠ p := by
    intro y j hj hy p hp e
    have := hs j y hj hy
    rw [e, hp] at this
    cases this
  refine ⟨?_, ?_, ?_, hD.2, ?_, ?_, ?_, ?_, ?_, ?_, ?_, ?_⟩
  · intro j y hy hh
    rcases get_set hy with ⟨rfl, rfl⟩ | ⟨hj, hy'⟩
    · exact hB hh
    · rcases hA with rfl | hA
      · exact h.hears j y hy' hh
      · rw [hA j y hj hy'] at hh; cases hh
  · intro j k y z s hy hz hys hzs
    rcases get_set hy with ⟨rfl, rfl⟩ | ⟨hj, hy'⟩ <;> rcases get_set hz with ⟨rfl, rfl⟩ | ⟨hk, hz'⟩
    · rfl
    · rcases hC s hys with hc | ⟨rfl, _⟩
      · exact h.owner _ _ _ _ s hx hz' hc hzs
      · have := h.known k z _ hz' hzs; omega
    · rcases hC s hzs with hc | ⟨rfl, _⟩
      · exact h.owner _ _ _ _ s hy' hx hys hc
      · have := h.known j y _ hy' hys; omega
    · exact h.owner _ _ _ _ s hy' hz' hys hzs
  · intro j y s hy hys
    rcases get_set hy with ⟨rfl, rfl⟩ | ⟨hj, hy'⟩
    · rcases hC s hys with hc | ⟨rfl, hn⟩
      · have := h.known _ _ s hx hc
        show s < n'
        omega
      · exact hn
    · have := h.known j y s hy' hys
      show s < n'
      omega
  · intro j k y z hy hz hym hzm
    rcases get_set hy with ⟨rfl, rfl⟩ | ⟨hj, hy'⟩ <;> rcases get_set hz with ⟨rfl, rfl⟩ | ⟨hk, hz'⟩
    · rfl
    · rw [hs k z hk hz'] at hzm; cases hzm
    · rw [hs j y hj hy'] at hym; cases hym
    · rw [hs j y hj hy'] at hym; cases hym
  · intro j y hy
    rcases get_set hy with ⟨rfl, rfl⟩ | ⟨hj, hy'⟩
    · exact hE
    · exact h.flags j y hy'
  · intro j y hy
    rcases get_set hy with ⟨rfl, rfl⟩ | ⟨hj, hy'⟩
    · exact hF
    · exact h.status j y hy'
  · intro j y hy hp
    rcases get_set hy with ⟨rfl, rfl⟩ | ⟨hj, hy'⟩
    · exact hG hp
    · exact absurd hp (hmid y j hj hy' _ rfl)
  · intro j y hy hp k z hz
    rcases get_set hy with ⟨rfl, rfl⟩ | ⟨hj, hy'⟩
    · rcases get_set hz with ⟨rfl, rfl⟩ | ⟨hk, hz'⟩
      · exact (hF (Or.inr (Or.inr (Or.inl hp)))).2
      · exact hH hp k z hk hz'
    · exact absurd hp (hmid y j hj hy' _ rfl)
  · intro j y hy hp
    rcases get_set hy with ⟨rfl, rfl⟩ | ⟨hj, hy'⟩
    · exact hI hp
    · exact absurd hp (hmid y j hj hy' _ rfl)
  · intro j y hy hp
    rcases get_set hy with ⟨rfl, rfl⟩ | ⟨hj, hy'⟩
    · exact hJ hp
    · exact absurd hp (hmid y j hj hy' _ rfl)
  · intro j y hy
    rcases get_set hy with ⟨rfl, rfl⟩ | ⟨hj, hy'⟩
    · exact hK
    · exact h.fresh j y hy'

/-- No process but this one can hear when nothing, or no heard socket, is at the path. -/
theorem no_ears {w : World} (h : Inv w) (hf : ∀ s, w.file = some (.sock s) → heard w s = false) (j : Nat) (y : Inst) (hy : w.insts[j]? = some y) : y.hears = false := by
  cases hh : y.hears with
  | false => rfl
  | true =>
    obtain ⟨s, h1, h2⟩ := h.hears j y hy hh
    have := hf s h2
    rw [heard, List.any_eq_false] at this
    have := this y (List.mem_of_getElem? hy)
    rw [hh, h1] at this
    simp at this

theorem inv_next {w : World} (h : Inv w) {i : Nat} {x : Inst} (good : Bool) (hx : w.insts[i]? = some x)
    (hs : ∀ (j : Nat) (y : Inst), j ≠ i → w.insts[j]? = some y → y.pc.mid = false) :
    Inv { file := (next w x good).1, next := (next w x good).2.1, insts := w.insts.set i (next w x good).2.2 } := by
  have hfl := h.flags i x hx
  have hfi := h.file
  have hsame : w.insts.set i x = w.insts := by
    apply List.ext_getElem?
    intro j
    rw [List.getElem?_set]
    split
    · rename_i e; subst e
      rw [if_pos (List.getElem?_eq_some_iff.1 hx).1, hx]
    · rfl
  unfold next
  split
  · rw [hsame]; exact h
  · rw [hsame]; exact h
  · rename_i hp
    obtain ⟨h1, h2⟩ := h.status i x hx (Or.inl hp)
    split
    · exact inv_update h hx hs (Or.inl rfl) (by simp [h2]) (by simp [h1]) ⟨Nat.le_refl _, hfi⟩ hfl (by simp [h1, h2]) (by simp) (by simp) (by simp) (by simp) (by simp)
    · rename_i s hw
      exact inv_update h hx hs (Or.inl rfl) (by simp [h2]) (by simp [h1]) ⟨Nat.le_refl _, hfi⟩ hfl (by simp [h1, h2]) (fun _ => ⟨s, hw⟩) (by simp) (by simp) (by simp) (by simp)
    · exact inv_update h hx hs (Or.inl rfl) (by simp [throw, h2]) (by simp [throw, h1]) ⟨Nat.le_refl _, hfi⟩ hfl (by simp [throw, h1, h2]) (by simp [throw]) (by simp [throw]) (by simp [throw]) (by simp [throw]) (by simp [throw])
  · rename_i hp
    obtain ⟨h1, h2⟩ := h.status i x hx (Or.inr (Or.inl hp))
    obtain ⟨s, hw⟩ := h.probe i x hx hp
    rw [hw]
    dsimp only
    split
    · split
      · exact inv_update h hx hs (Or.inl hw.symm) (by simp [throw, h2]) (by simp [throw, h1]) ⟨Nat.le_refl _, by rw [← hw]; exact hfi⟩ hfl (by simp [throw, h1, h2]) (by simp [throw]) (by simp [throw]) (by simp [throw]) (by simp [throw]) (by simp [throw])
      · rename_i hh
        have hno := no_ears h (fun s' hs' => by rw [hw] at hs'; cases hs'; simpa using hh)
        exact inv_update h hx hs (Or.inl hw.symm) (by simp [h2]) (by simp [h1]) ⟨Nat.le_refl _, by rw [← hw]; exact hfi⟩ hfl (by simp [h1, h2]) (by simp) (fun _ j y _ hy => hno j y hy) (by simp) (by simp) (by simp)
    · exact inv_update h hx hs (Or.inl hw.symm) (by simp [h2]) (by simp [h1]) ⟨Nat.le_refl _, by rw [← hw]; exact hfi⟩ hfl (by simp [h1, h2]) (by simp) (by simp) (by simp) (by simp) (by simp)
  · rename_i hp
    obtain ⟨h1, h2⟩ := h.status i x hx (Or.inr (Or.inr (Or.inl hp)))
    have hno := h.remove i x hx hp
    split
    · exact inv_update h hx hs (Or.inr fun j y _ hy => hno j y hy) (by simp [h2]) (by simp [h1]) ⟨Nat.le_refl _, by simp⟩ hfl (by simp [h1, h2]) (by simp) (by simp) (by simp) (by simp) (by simp)
    · exact inv_update h hx hs (Or.inl rfl) (by simp [throw, h2]) (by simp [throw, h1]) ⟨Nat.le_refl _, hfi⟩ hfl (by simp [throw, h1, h2]) (by simp [throw]) (by simp [throw]) (by simp [throw]) (by simp [throw]) (by simp [throw])
  · rename_i hp
    obtain ⟨h1, h2⟩ := h.status i x hx (Or.inr (Or.inr (Or.inr hp)))
    split
    · rename_i hw
      have hno := no_ears h (fun s' hs' => by rw [hw] at hs'; cases hs')
      split
      · exact inv_update h hx hs (Or.inr fun j y _ hy => hno j y hy) (by simp [h2]) (by simp) ⟨Nat.le_succ _, by simp⟩ hfl (by simp) (by simp) (by simp) (by simp [h2]) (by simp) (by simp)
      · exact inv_update h hx hs (Or.inl rfl) (by simp [throw, h2]) (by simp [throw, h1]) ⟨Nat.le_refl _, hfi⟩ hfl (by simp [throw, h1, h2]) (by simp [throw]) (by simp [throw]) (by simp [throw]) (by simp [throw]) (by simp [throw])
    · exact inv_update h hx hs (Or.inl rfl) (by simp [throw, h2]) (by simp [throw, h1]) ⟨Nat.le_refl _, hfi⟩ hfl (by simp [throw, h1, h2]) (by simp [throw]) (by simp [throw]) (by simp [throw]) (by simp [throw]) (by simp [throw])
  · rename_i hp
    obtain ⟨h1, s, h2, h3⟩ := h.listen i x hx hp
    split
    · exact inv_update h hx hs (Or.inl rfl) (fun _ => ⟨s, h2, h3⟩) (fun s hs => Or.inl hs) ⟨Nat.le_refl _, hfi⟩ rfl (by simp) (by simp) (by simp) (by simp) (by simp) (by simp)
    · exact inv_update h hx hs (Or.inl rfl) (by simp [throw, h1]) (fun s hs => Or.inl hs) ⟨Nat.le_refl _, hfi⟩ hfl (by simp [throw]) (by simp [throw]) (by simp [throw]) (by simp [throw]) (by simp [throw]) (by simp [throw])
  · rename_i hp
    have h1 := h.perms i x hx hp
    have h2 := h.hears i x hx h1
    split
    · exact inv_update h hx hs (Or.inl rfl) (fun _ => h2) (fun s hs => Or.inl hs) ⟨Nat.le_refl _, hfi⟩ hfl (by simp) (by simp) (by simp) (by simp) (by simp) (by simp [h1])
    · exact inv_update h hx hs (Or.inl rfl) (fun _ => h2) (fun s hs => Or.inl hs) ⟨Nat.le_refl _, hfi⟩ hfl (by simp [throw]) (by simp [throw]) (by simp [throw]) (by simp [throw]) (by simp [throw]) (by simp [throw])

theorem inv_step {w : World} (h : Inv w) {e : Event} (he : ∀ k, e ≠ .ext k)
    (hs : ∀ (i j : Nat) (x : Inst), e.who = some i → j ≠ i → w.insts[j]? = some x → x.pc.mid = false) : Inv (step w e) := by
  cases e with
  | ext k => exact absurd rfl (he k)
  | new =>
    have hg : ∀ {j : Nat} {y : Inst}, (w.insts ++ [({} : Inst)])[j]? = some y → w.insts[j]? = some y ∨ y = {} := by
      intro j y hy
      rw [List.getElem?_append] at hy
      split at hy
      · exact Or.inl hy
      · rw [List.getElem?_singleton] at hy
        split at hy
        · cases hy; exact Or.inr rfl
        · cases hy
    refine ⟨?_, ?_, ?_, h.file, ?_, ?_, ?_, ?_, ?_, ?_, ?_, ?_⟩
    · intro j y hy hh
      rcases hg hy with hy | rfl
      · exact h.hears j y hy hh
      · cases hh
    · intro j k y z s hy hz h1 h2
      rcases hg hy with hy | rfl
      · rcases hg hz with hz | rfl
        · exact h.owner j k y z s hy hz h1 h2
        · cases h2
      · cases h1
    · intro j y s hy h1
      rcases hg hy with hy | rfl
      · exact h.known j y s hy h1
      · cases h1
    · intro j k y z hy hz h1 h2
      rcases hg hy with hy | rfl
      · rcases hg hz with hz | rfl
        · exact h.one j k y z hy hz h1 h2
        · cases h2
      · cases h1
    · intro j y hy
      rcases hg hy with hy | rfl
      · exact h.flags j y hy
      · rfl
    · intro j y hy hp
      rcases hg hy with hy | rfl
      · exact h.status j y hy hp
      · exact ⟨rfl, rfl⟩
    · intro j y hy hp
      rcases hg hy with hy | rfl
      · exact h.probe j y hy hp
      · cases hp
    · intro j y hy hp k z hz
      rcases hg hy with hy | rfl
      · rcases hg hz with hz | rfl
        · exact h.remove j y hy hp k z hz
        · rfl
      · cases hp
    · intro j y hy hp
      rcases hg hy with hy | rfl
      · exact h.listen j y hy hp
      · cases hp
    · intro j y hy hp
      rcases hg hy with hy | rfl
      · exact h.perms j y hy hp
      · cases hp
    · intro j y hy h1 h2 h3
      rcases hg hy with hy | rfl
      · exact h.fresh j y hy h1 h2 h3
      · rfl
  | begin i =>
    simp only [step]
    split
    · exact h
    · rename_i x hx
      have hs' := fun j y hj hy => hs i j y rfl hj hy
      unfold begin
      split
      · rename_i hc
        have hh : x.hears = false := by rw [← h.flags i x hx]; exact hc.2.1
        have h1 := h.fresh i x hx hc.1 hh hc.2.2
        exact inv_update h hx hs' (Or.inl rfl) (by simp [hh]) (by simp [h1]) ⟨Nat.le_refl _, h.file⟩ (h.flags i x hx) (by simp [h1, hh]) (by simp) (by simp) (by simp) (by simp) (by simp)
      · exact inv_update h hx hs' (Or.inl rfl) (h.hears i x hx) (fun s hs => Or.inl hs) ⟨Nat.le_refl _, h.file⟩ (h.flags i x hx) (h.status i x hx) (h.probe i x hx)
          (fun hp j y _ hy => h.remove i x hx hp j y hy) (h.listen i x hx) (h.perms i x hx) (h.fresh i x hx)
  | next i good =>
    simp only [step]
    split
    · exact h
    · rename_i x hx
      exact inv_next h good hx (fun j y hj hy => hs i j y rfl hj hy)
  | destroy i =>
    simp only [step]
    split
    · exact h
    · rename_i x hx
      have hs' := fun j y hj hy => hs i j y rfl hj hy
      split
      · rename_i hp
        refine inv_update (n' := w.next) h hx hs' ?_ (by simp [kill]) (by simp [kill]) ⟨Nat.le_refl _, ?_⟩ rfl (by simp [kill]) (by simp [kill]) (by simp [kill]) (by simp [kill]) (by simp [kill]) (by simp [kill])
        · by_cases hl : x.isListening = true
          · right
            intro j y hj hy
            cases hh : y.hears with
            | false => rfl
            | true =>
              rw [h.flags i x hx] at hl
              obtain ⟨s, g1, g2⟩ := h.hears i x hx hl
              obtain ⟨s', g3, g4⟩ := h.hears j y hy hh
              rw [g2] at g4
              cases g4
              exact absurd (h.owner j i y x s hy hx g3 g1) hj
          · left
            rw [if_neg hl]
        · intro s hs
          split at hs
          · cases hs
          · exact h.file s hs
      · exact h
  | crash i =>
    simp only [step]
    split
    · exact h
    · rename_i x hx
      exact inv_update h hx (fun j y hj hy => hs i j y rfl hj hy) (Or.inl rfl) (by simp [kill]) (by simp [kill]) ⟨Nat.le_refl _, h.file⟩ rfl (by simp [kill]) (by simp [kill]) (by simp [kill]) (by simp [kill]) (by simp [kill]) (by simp [kill])

theorem inv_run {es : List Event} : ∀ {w : World}, Inv w → Private es → Serial w es → Inv (run w es) := by
  induction es with
  | nil => intro w h _ _; exact h
  | cons e es ih =>
    intro w h hp hs
    exact ih (inv_step h (fun k hk => hp k (hk ▸ List.mem_cons_self)) hs.1) (fun k hk => hp k (List.mem_cons_of_mem _ hk)) hs.2

theorem inv_start (f : Option Kind) : Inv (World.start f) := by
  have : (World.start f).insts = [] := by
    unfold World.start
    split <;> rfl
  have hg : ∀ (j : Nat) (y : Inst), (World.start f).insts[j]? ≠ some y := by intro j y; rw [this]; simp
  refine ⟨fun j y hy => absurd hy (hg j y), fun j _ y _ _ hy => absurd hy (hg j y), fun j y _ hy => absurd hy (hg j y), ?_, fun j _ y _ hy => absurd hy (hg j y),
    fun j y hy => absurd hy (hg j y), fun j y hy => absurd hy (hg j y), fun j y hy => absurd hy (hg j y), fun j y hy => absurd hy (hg j y), fun j y hy => absurd hy (hg j y), fun j y hy => absurd hy (hg j y),
    fun j y hy => absurd hy (hg j y)⟩
  intro s hs
  unfold World.start at hs ⊢
  split at hs
  · cases hs; exact Nat.zero_lt_one
  · rename_i hn
    dsimp only at hs
    exact absurd hs (hn s)

/-! ### C94 -/

/-- C94: a process that listens is reached by programs that connect to the path, and at most one process listens; whatever is at the path in the
beginning, and however the processes end. Missing: this holds only if nobody else touches the path, and if no two processes are in `listen` at once,
see `C94_race` and `C94_external`. -/
theorem C94_reached_partial (f : Option Kind) (es : List Event) (hp : Private es) (hs : Serial (World.start f) es) :
    (∀ i, Listening (run (World.start f) es) i → Reached (run (World.start f) es) i) ∧
    (∀ i j, Listening (run (World.start f) es) i → Listening (run (World.start f) es) j → i = j) := by
  have h := inv_run (inv_start f) hp hs
  constructor
  · rintro i ⟨x, hx, hh⟩
    obtain ⟨s, h1, h2⟩ := h.hears i x hx hh
    exact ⟨x, s, hx, hh, h1, h2⟩
  · rintro i j ⟨x, hx, hh⟩ ⟨y, hy, hg⟩
    obtain ⟨s, h1, h2⟩ := h.hears i x hx hh
    obtain ⟨s', h3, h4⟩ := h.hears j y hy hg
    rw [h2] at h4
    cases h4
    exact h.owner i j x y s hx hy h1 h3

/-- C94: a process that finds a socket at the path on which another one listens, and can connect to it, gets "address in use" and leaves the path as
it is. -/
theorem C94_in_use (w : World) (i : Nat) (x : Inst) (hx : w.insts[i]? = some x) (hp : x.pc = .probe) (s : Nat) (hf : w.file = some (.sock s)) (hh : heard w s = true) :
    ∃ x', (step w (.next i true)).insts[i]? = some x' ∧ x'.error = some .addressInUse ∧ x'.hears = x.hears ∧ (step w (.next i true)).file = w.file := by
  have hl := (List.getElem?_eq_some_iff.1 hx).1
  have hst : step w (.next i true) = { w with insts := w.insts.set i (throw x .addressInUse) } := by
    simp only [step, hx, next, hp, hf, hh, if_true]
  rw [hst]
  exact ⟨throw x .addressInUse, by simp [hl], rfl, rfl, rfl⟩

/-- The calls of a process that are all successful. -/
def calls (i : Nat) : Nat → List Event
  | 0 => []
  | n + 1 => .next i true :: calls i n

/-- C94: whatever process listens, another one that calls `listen` does not get to listen, and the path stays as it is; if nobody listens and there is a
stale socket or nothing at the path, the process gets to listen. -/
theorem C94_listen (f : Option Kind) (es : List Event) (hp : Private es) (hs : Serial (World.start f) es) :
    (∀ i, Listening (run (World.start f) es) i →
      (run (World.start f) (es ++ [.new, .begin (run (World.start f) es).insts.length] ++ calls (run (World.start f) es).insts.length 6)).file = (run (World.start f) es).file ∧
      ¬ Listening (run (World.start f) (es ++ [.new, .begin (run (World.start f) es).insts.length] ++ calls (run (World.start f) es).insts.length 6)) (run (World.start f) es).insts.length) ∧
    ((∀ i, ¬ Listening (run (World.start f) es) i) → (run (World.start f) es).file ≠ some .other →
      Reached (run (World.start f) (es ++ [.new, .begin (run (World.start f) es).insts.length] ++ calls (run (World.start f) es).insts.length 6)) (run (World.start f) es).insts.length) := by
  have h := inv_run (inv_start f) hp hs
  simp only [run, List.foldl_append] at h ⊢
  generalize es.foldl step (World.start f) = w at h ⊢
  have hget : ∀ (a : Inst), (w.insts ++ [a])[w.insts.length]? = some a := by simp
  have hset : ∀ (a b : Inst), (w.insts ++ [a]).set w.insts.length b = w.insts ++ [b] := by simp
  have hheard : ∀ (g : Option Kind) (n s : Nat) (a : Inst), a.hears = false → heard ⟨g, n, w.insts ++ [a]⟩ s = heard w s := by
    intro g n s a ha
    simp [heard, List.any_append, ha]
  constructor
  · rintro i ⟨x, hx, hh⟩
    obtain ⟨s, h1, h2⟩ := h.hears i x hx hh
    have hhs : heard w s = true := by
      rw [heard, List.any_eq_true]
      exact ⟨x, List.mem_of_getElem? hx, by simp [hh, h1]⟩
    simp [List.foldl, step, begin, next, calls, hget, hset, h2, hheard, hhs, throw, Listening]
  · intro hn hf
    have hno : ∀ s, heard w s = false := by
      intro s
      rw [heard, List.any_eq_false]
      intro x hx
      obtain ⟨i, hi⟩ := List.getElem?_of_mem hx
      cases hh : x.hears with
      | false => simp
      | true => exact absurd ⟨x, hi, hh⟩ (hn i)
    cases hw : w.file with
    | none => simp [List.foldl, step, begin, next, calls, hget, hset, hw, Reached]
    | some k =>
      cases k with
      | other => exact absurd hw hf
      | sock s => simp [List.foldl, step, begin, next, calls, hget, hset, hw, hheard, hno, Reached]

/-- C94: something at the path that is not a socket stays there, and nobody gets to listen, if nobody else touches the path. -/
theorem C94_no_overwrite (es : List Event) (hp : Private es) :
    (run (World.start (some .other)) es).file = some .other ∧ ∀ i, ¬ Listening (run (World.start (some .other)) es) i := by
  have key : ∀ (es : List Event) (w : World), Private es → w.file = some .other →
      (∀ x ∈ w.insts, x.hears = false ∧ x.isListening = false ∧ (x.pc = .idle ∨ x.pc = .status ∨ x.pc = .gone)) →
      (run w es).file = some .other ∧ ∀ x ∈ (run w es).insts, x.hears = false := by
    intro es
    induction es with
    | nil => intro w _ h1 h2; exact ⟨h1, fun x hx => (h2 x hx).1⟩
    | cons e es ih =>
      intro w hp h1 h2
      have hset : ∀ {i : Nat} {x' : Inst}, (x'.hears = false ∧ x'.isListening = false ∧ (x'.pc = .idle ∨ x'.pc = .status ∨ x'.pc = .gone)) →
          ∀ x ∈ w.insts.set i x', x.hears = false ∧ x.isListening = false ∧ (x.pc = .idle ∨ x.pc = .status ∨ x.pc = .gone) := by
        intro i x' hx' x hx
        rcases List.mem_or_eq_of_mem_set hx with hx | rfl
        · exact h2 x hx
        · exact hx'
      refine ih (step w e) (fun k hk => hp k (List.mem_cons_of_mem _ hk)) ?_ ?_
      · cases e with
        | ext k => exact absurd List.mem_cons_self (hp k)
        | new => exact h1
        | begin i => simp only [step]; split <;> exact h1
        | crash i => simp only [step]; split <;> exact h1
        | destroy i =>
          simp only [step]
          split
          · exact h1
          · rename_i x hx
            split
            · simp [(h2 x (List.mem_of_getElem? hx)).2.1, h1]
            · exact h1
        | next i g =>
          simp only [step]
          split
          · exact h1
          · rename_i x hx
            rcases (h2 x (List.mem_of_getElem? hx)).2.2 with hp | hp | hp <;> simp [next, hp, h1]
      · cases e with
        | ext k => exact absurd List.mem_cons_self (hp k)
        | new =>
          intro x hx
          rcases List.mem_append.1 hx with hx | hx
          · exact h2 x hx
          · rw [List.mem_singleton] at hx; subst hx; exact ⟨rfl, rfl, Or.inl rfl⟩
        | begin i =>
          simp only [step]
          split
          · exact h2
          · rename_i x hx
            have hx2 := h2 x (List.mem_of_getElem? hx)
            apply hset
            unfold begin
            split
            · exact ⟨hx2.1, hx2.2.1, Or.inr (Or.inl rfl)⟩
            · exact hx2
        | crash i =>
          simp only [step]
          split
          · exact h2
          · exact hset ⟨rfl, rfl, Or.inr (Or.inr rfl)⟩
        | destroy i =>
          simp only [step]
          split
          · exact h2
          · split
            · exact hset ⟨rfl, rfl, Or.inr (Or.inr rfl)⟩
            · exact h2
        | next i g =>
          simp only [step]
          split
          · exact h2
          · rename_i x hx
            have hx2 := h2 x (List.mem_of_getElem? hx)
            apply hset
            rcases hx2.2.2 with hp | hp | hp
            · simp only [next, hp]; exact ⟨hx2.1, hx2.2.1, Or.inl trivial⟩
            · simp only [next, hp, h1]; exact ⟨hx2.1, hx2.2.1, Or.inl rfl⟩
            · simp only [next, hp]; exact ⟨hx2.1, hx2.2.1, Or.inr (Or.inr trivial)⟩
  obtain ⟨h1, h2⟩ := key es (World.start (some .other)) hp rfl (by intro x hx; cases hx)
  refine ⟨h1, ?_⟩
  rintro i ⟨x, hx, hh⟩
  rw [h2 x (List.mem_of_getElem? hx)] at hh
  cases hh

/-- A process listens and ends without destroying its channel; the next one replaces its socket; the third one is told that the address is in use; the
second one destroys its channel and removes the socket. -/
example : (run (World.start none) ([.new, .begin 0] ++ calls 0 4 ++ [.crash 0, .new, .begin 1] ++ calls 1 6)).file = some (.sock 1) ∧
    ((run (World.start none) ([.new, .begin 0] ++ calls 0 4 ++ [.crash 0, .new, .begin 1] ++ calls 1 6 ++ [.new, .begin 2] ++ calls 2 6)).insts.map (fun x => (x.hears, x.error))) =
      [(false, none), (true, none), (false, some .addressInUse)] ∧
    (run (World.start none) ([.new, .begin 0] ++ calls 0 4 ++ [.crash 0, .new, .begin 1] ++ calls 1 6 ++ [.new, .begin 2] ++ calls 2 6 ++ [.destroy 2, .destroy 1])).file = none := by
  decide

/-- C94 is violated when two processes start at once and there is a stale socket: both listen, but one of them cannot be reached; when it ends, the
other one cannot be reached either. -/
theorem C94_race : ∃ es, Private es ∧ Listening (run (World.start (some (.sock 0))) es) 0 ∧ Listening (run (World.start (some (.sock 0))) es) 1 ∧
    ¬ Reached (run (World.start (some (.sock 0))) es) 0 ∧
    Listening (run (World.start (some (.sock 0))) (es ++ [.destroy 0])) 1 ∧ ¬ Reached (run (World.start (some (.sock 0))) (es ++ [.destroy 0])) 1 := by
  refine ⟨[.new, .new, .begin 0, .begin 1] ++ calls 0 2 ++ calls 1 2 ++ calls 0 4 ++ calls 1 4, ?_, ⟨_, rfl, rfl⟩, ⟨_, rfl, rfl⟩, ?_, ⟨_, rfl, rfl⟩, ?_⟩
  · intro k; simp [calls]
  · rintro ⟨x, s, h1, _, h3, h4⟩
    have h4 : some (Kind.sock 2) = some (.sock s) := h4
    have h1 : some ({ pc := .idle, sock := some 1, hears := true, isListening := true, done := true } : Inst) = some x := h1
    cases h1; cases h4; cases h3
  · rintro ⟨x, s, h1, _, h3, h4⟩
    have h4 : none = some (Kind.sock s) := h4
    cases h4

/-- C94 is violated when somebody removes the socket of a running process, and a second one is started: when the first one ends, it removes the
socket of the second one. It also removes what is not a socket. -/
theorem C94_external : (∃ w, w = run (World.start none) ([.new, .begin 0] ++ calls 0 4 ++ [.ext none, .new, .begin 1] ++ calls 1 4 ++ [.destroy 0]) ∧
      Listening w 1 ∧ ¬ Reached w 1) ∧
    (run (World.start none) ([.new, .begin 0] ++ calls 0 4 ++ [.ext (some .other)])).file = some .other ∧
    (run (World.start none) ([.new, .begin 0] ++ calls 0 4 ++ [.ext (some .other), .destroy 0])).file = none := by
  refine ⟨⟨_, rfl, ⟨_, rfl, rfl⟩, ?_⟩, by decide, by decide⟩
  rintro ⟨x, s, h1, _, h3, h4⟩
  have h4 : none = some (Kind.sock s) := h4
  cases h4

/-! ### Faces -/

theorem filter_set (p : Tp.St → Bool) (l : List Tp.St) (k : Nat) (f f' : Tp.St) (h : l[k]? = some f) :
    ((l.set k f').filter p).length + (if p f then 1 else 0) = (l.filter p).length + (if p f' then 1 else 0) := by
  induction l generalizing k with
  | nil => cases h
  | cons a l ih =>
    cases k with
    | zero =>
      simp only [List.getElem?_cons_zero, Option.some.injEq] at h
      subst h
      simp only [List.set_cons_zero, List.filter_cons]
      by_cases h1 : p a = true <;> by_cases h2 : p f' = true <;> simp [h1, h2] <;> omega
    | succ k =>
      simp only [List.getElem?_cons_succ] at h
      have := ih k h
      simp only [List.set_cons_succ, List.filter_cons]
      by_cases h1 : p a = true <;> simp [h1] <;> omega

/-- C94: `size()` is the number of faces that are not CLOSED. -/
theorem C94_size (es : List ChanEvent) (c : Chan) (h : chanRun Chan.init es = .ok c) :
    c.size = some (c.faces.filter (fun f => f.state ≠ .closed)).length := by
  have key : ∀ (es : List ChanEvent) (c0 c : Chan), chanRun c0 es = .ok c →
      ((∀ f ∈ c0.faces, Tp.Inv f) ∧ c0.size = some (c0.faces.filter (fun f => f.state ≠ .closed)).length) →
      c.size = some (c.faces.filter (fun f => f.state ≠ .closed)).length := by
    intro es
    induction es with
    | nil => intro c0 c h hi; cases h; exact hi.2
    | cons e es ih =>
      intro c0 c h ⟨hr, hi⟩
      obtain ⟨c1, h1, h2⟩ := bind_ok.1 h
      refine ih c1 c h2 ?_
      cases e with
      | accept =>
        simp only [chanStep] at h1
        split at h1
        · cases h1
          refine ⟨?_, by simp [hi, Tp.init]⟩
          intro f hf
          rcases List.mem_append.1 hf with hf | hf
          · exact hr f hf
          · rw [List.mem_singleton] at hf; subst hf; exact Tp.Inv.init false .onDemand
        · cases h1; exact ⟨hr, hi⟩
      | acceptFail =>
        simp only [chanStep] at h1
        split at h1 <;> (cases h1; exact ⟨hr, hi⟩)
      | face k ev =>
        simp only [chanStep] at h1
        split at h1
        · cases h1; exact ⟨hr, hi⟩
        · rename_i f hf
          obtain ⟨f', h3, h4⟩ := bind_ok.1 h1
          cases h4
          have hfi := hr f (List.mem_of_getElem? hf)
          refine ⟨?_, ?_⟩
          · intro g hg
            rcases List.mem_or_eq_of_mem_set hg with hg | rfl
            · exact hr g hg
            · exact Tp.run_inv (es := [ev]) hfi (by simp [Tp.run, h3, bind, Except.bind])
          · have hlen := filter_set (fun f => f.state ≠ .closed) c0.faces k f f' hf
            dsimp only
            by_cases hc : f.state = .closed
            · have hc' := closed_step hfi h3 hc
              simp only [hc, hc', ne_eq, not_true, and_false, if_false, decide_false, Bool.false_eq_true, Nat.add_zero] at hlen ⊢
              rw [hi, hlen]
            · by_cases hc' : f'.state = .closed
              · simp only [hc, hc', ne_eq, not_true, not_false_eq_true, and_self, if_true, decide_true, decide_false, Bool.false_eq_true, if_false, Nat.add_zero] at hlen ⊢
                rw [hi, ← hlen]
              · simp only [hc, hc', ne_eq, not_false_eq_true, false_and, if_true, decide_true, if_false] at hlen ⊢
                rw [hi]
                congr 1
                exact (Nat.add_right_cancel hlen).symm
  exact key es Chan.init c h ⟨(by intro f hf; cases hf), rfl⟩

/-- A channel has accepted two connections, and the peer of the first one has closed it; then accepting fails, and the third connection is not
accepted. -/
theorem C94_deaf_witness : ∃ c, chanRun Chan.init [.accept, .accept, .face 0 .close, .face 0 .next, .face 0 .next, .acceptFail, .accept, .accept] = .ok c ∧
    c.size = some 1 ∧ c.faces.length = 2 ∧ c.failures = 1 := by
  cases h : chanRun Chan.init [.accept, .accept, .face 0 .close, .face 0 .next, .face 0 .next, .acceptFail, .accept, .accept] with
  | error e =>
    have : (match chanRun Chan.init [.accept, .accept, .face 0 .close, .face 0 .next, .face 0 .next, .acceptFail, .accept, .accept] with
      | .ok _ => true | .error _ => false) = true := by decide +kernel
    rw [h] at this; cases this
  | ok c =>
    have : (match chanRun Chan.init [.accept, .accept, .face 0 .close, .face 0 .next, .face 0 .next, .acceptFail, .accept, .accept] with
      | .ok c => c.size == some 1 && c.faces.length == 2 && c.failures == 1 | .error _ => false) = true := by decide +kernel
    rw [h] at this
    simp only [Bool.and_eq_true, beq_iff_eq] at this
    exact ⟨c, rfl, this.1.1, this.1.2, this.2⟩

/-- C94 is violated like C93: when accepting fails once, the channel never creates a face again. -/
theorem C94_deaf (c c1 : Chan) (h1 : chanStep c .acceptFail = .ok c1) (es : List ChanEvent) (c' : Chan) (h : chanRun c1 es = .ok c') :
    c'.faces.length = c.faces.length := by
  have hd : c1.accepting = false ∧ c1.faces = c.faces := by
    simp only [chanStep] at h1
    split at h1
    · cases h1; exact ⟨rfl, rfl⟩
    · rename_i hn
      cases h1
      exact ⟨(by simpa using hn), rfl⟩
  rw [← hd.2]
  have key : ∀ (es : List ChanEvent) (a b : Chan), chanRun a es = .ok b → a.accepting = false → b.faces.length = a.faces.length := by
    intro es
    induction es with
    | nil => intro a b h _; cases h; rfl
    | cons e es ih =>
      intro a b h hd
      obtain ⟨c2, h2, h3⟩ := bind_ok.1 h
      have hc : c2.accepting = false ∧ c2.faces.length = a.faces.length := by
        cases e with
        | accept => simp only [chanStep, hd] at h2; cases h2; exact ⟨hd, rfl⟩
        | acceptFail => simp only [chanStep, hd] at h2; cases h2; exact ⟨hd, rfl⟩
        | face k ev =>
          simp only [chanStep] at h2
          split at h2
          · cases h2; exact ⟨hd, rfl⟩
          · obtain ⟨f, _, h4⟩ := bind_ok.1 h2
            cases h4
            exact ⟨hd, by simp⟩
      rw [← hc.2]
      exact ih c2 b h3 hc.1
  exact key es c1 c' h hd.1

end Verif.Ch.Unix
