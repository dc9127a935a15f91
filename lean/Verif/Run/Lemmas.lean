import Verif.Run.Spec

namespace Verif.Run

/-- Where the RIB thread has not yet given up its `io_context`. -/
def RibPc.inside : RibPc → Bool
  | .notify | .setUp | .loop | .handler | .failed | .stopMain | .leave => true
  | _ => false

structure Inv (s : St) : Prop where
  io : s.ribIo = true → s.rib.inside = true
  alive : s.rib.inside = true ∨ s.rib = .exiting → s.ribAlive = true
  set : s.rib ≠ .start → s.ribSet = true
  waits : s.rib = .start → ∃ b, s.main = .waiting b
  nullIo : s.rib.inside = true → s.ribIo = false → s.ribStopped = true
  stopped : s.ribStopped = true → s.main = .joining ∨ s.main = .done
  joins : s.main = .joining ∨ s.main = .done → s.ribIo = false
  joined : s.main = .done → s.rib = .ended
  thrown : s.ribThrew = true → s.rib = .failed ∨ s.rib = .stopMain ∨ s.mainStopped = true
  failing : s.rib = .failed ∨ s.rib = .stopMain → s.ribThrew = true
  caught : ∀ e, s.main = .caught e → s.mainThrew = some e
  clean : s.main ≠ .finish → s.main ≠ .joining → s.main ≠ .done → (∀ e, s.main ≠ .caught e) → s.mainThrew = none
  code0 : s.mainThrew = none → s.ribThrew = false → s.retval = 0
  codeR : s.ribThrew = true → s.rib ≠ .failed → s.mainThrew ≠ some .priv → s.retval = 1
  codeM : s.mainThrew = some .std → (∀ e, s.main ≠ .caught e) → s.retval = 1
  codeP : s.mainThrew = some .priv → (∀ e, s.main ≠ .caught e) → s.retval = 4 ∨ (s.retval = 1 ∧ s.ribThrew = true)
  leaves : s.main = .finish ∨ s.main = .joining ∨ s.main = .done → s.mainStopped = true ∨ s.mainThrew.isSome = true

theorem inv_start : Inv start := by
  constructor <;> simp [start, RibPc.inside]

theorem inv_main {s s' : St} {d : MainDoes} (hi : Inv s) (h : mainStep s d = .ok s') : Inv s' := by
  obtain ⟨m, r, io, al, se, ms, rs, rv, mt, rt⟩ := s
  obtain ⟨h1, h2, h3, h4, h5, h6, h7, h8, h9, h10, h11, h12, h13, h14, h15, h16, h17⟩ := hi
  dsimp only at h1 h2 h3 h4 h5 h6 h7 h8 h9 h10 h11 h12 h13 h14 h15 h16 h17
  unfold mainStep at h
  cases m <;> (try cases ‹Exc›) <;> dsimp only at h <;> (try split at h) <;> (try split at h) <;> (try split at h) <;>
    (first | contradiction | (injection h with h; subst h; constructor <;> dsimp only <;> grind [RibPc.inside]))

theorem inv_rib {s s' : St} {d : RibDoes} (hi : Inv s) (h : ribStep s d = .ok s') : Inv s' := by
  obtain ⟨m, r, io, al, se, ms, rs, rv, mt, rt⟩ := s
  obtain ⟨h1, h2, h3, h4, h5, h6, h7, h8, h9, h10, h11, h12, h13, h14, h15, h16, h17⟩ := hi
  dsimp only at h1 h2 h3 h4 h5 h6 h7 h8 h9 h10 h11 h12 h13 h14 h15 h16 h17
  unfold ribStep at h
  cases r <;> dsimp only at h <;> (try split at h) <;> (try split at h) <;> 
    (first | contradiction | (injection h with h; subst h; constructor <;> dsimp only <;> grind [RibPc.inside]))

theorem inv_step {s s' : St} {t : Turn} (hi : Inv s) (h : step s t = .ok s') : Inv s' := by
  cases t with
  | main d => exact inv_main hi h
  | rib d => exact inv_rib hi h

theorem runs_append (s : St) (l m : List Turn) :
    runs s (l ++ m) = match runs s l with
      | .ok s' => runs s' m
      | .error x => .error x := by
  induction l generalizing s with
  | nil => rfl
  | cons t l ih =>
    show (match step s t with | .ok s' => runs s' (l ++ m) | .error x => .error x) =
      match (match step s t with | .ok s' => runs s' l | .error x => .error x) with
      | .ok s' => runs s' m
      | .error x => .error x
    cases step s t with
    | error x => rfl
    | ok s' => exact ih s'

theorem inv_runs {s s' : St} {l : List Turn} (hi : Inv s) (h : runs s l = .ok s') : Inv s' := by
  induction l generalizing s with
  | nil => injection h with h; subst h; exact hi
  | cons t l ih =>
    unfold runs at h
    cases hs : step s t with
    | error x => rw [hs] at h; cases h
    | ok s1 => rw [hs] at h; exact ih (inv_step hi hs) h

theorem inv_reach {s : St} {l : List Turn} (h : runs start l = .ok s) : Inv s := inv_runs inv_start h

/-- Turns that the RIB thread still needs when it has been stopped. -/
def ribLeft : RibPc → Nat
  | .start => 7 | .notify => 6 | .setUp => 5 | .handler => 5 | .failed => 4 | .stopMain => 3 | .loop => 3 | .leave => 2 | .exiting => 1 | .ended => 0

/-- What is left to do when the end has been asked for. -/
def left (s : St) : Nat :=
  match s.main with
  | .done => 0
  | .joining => 1 + ribLeft s.rib
  | .finish => 9
  | .caught _ => 10
  | .waiting _ => 20
  | .loop => if s.mainStopped then 10 else 12 + ribLeft s.rib
  | .handler => if s.mainStopped then 11 else 12 + ribLeft s.rib
  | .ready => if s.mainStopped then 11 else 12 + ribLeft s.rib

/-- The thread that has to do it: the main thread? -/
def mainTurn (s : St) : Bool :=
  match s.main with
  | .done => true
  | .joining => decide (s.rib = .ended)
  | .finish | .caught _ => true
  | .waiting _ => true
  | .loop | .handler | .ready => s.mainStopped

def Turn.isMain : Turn → Bool
  | .main _ => true
  | .rib _ => false

/-- The end has been asked for, and the main thread is past its wait. -/
def Ending (s : St) : Prop := (s.mainStopped = true ∨ s.ribThrew = true ∨ s.mainThrew.isSome = true) ∧ ∀ b, s.main ≠ .waiting b

theorem ending_main {s s' : St} {d : MainDoes} (hi : Inv s) (he : Ending s) (h : mainStep s d = .ok s') :
    Ending s' ∧ (left s = 0 ∧ left s' = 0 ∨ left s' < left s ∨ (left s' = left s ∧ mainTurn s' = mainTurn s ∧ mainTurn s = false)) := by
  obtain ⟨m, r, io, al, se, ms, rs, rv, mt, rt⟩ := s
  obtain ⟨h1, h2, h3, h4, h5, h6, h7, h8, h9, h10, h11, h12, h13, h14, h15, h16, h17⟩ := hi
  dsimp only at h1 h2 h3 h4 h5 h6 h7 h8 h9 h10 h11 h12 h13 h14 h15 h16 h17
  unfold mainStep at h
  unfold Ending at he ⊢
  cases m <;> (try cases ‹Exc›) <;> dsimp only at h <;> (try split at h) <;> (try split at h) <;> (try split at h) <;>
    (first | contradiction | (injection h with h; subst h; cases r <;> simp [left, mainTurn, ribLeft] at * <;> grind))

theorem ending_rib {s s' : St} {d : RibDoes} (hi : Inv s) (he : Ending s) (h : ribStep s d = .ok s') :
    Ending s' ∧ (left s = 0 ∧ left s' = 0 ∨ left s' < left s ∨ (left s' = left s ∧ mainTurn s' = mainTurn s ∧ mainTurn s = true)) := by
  obtain ⟨m, r, io, al, se, ms, rs, rv, mt, rt⟩ := s
  obtain ⟨h1, h2, h3, h4, h5, h6, h7, h8, h9, h10, h11, h12, h13, h14, h15, h16, h17⟩ := hi
  dsimp only at h1 h2 h3 h4 h5 h6 h7 h8 h9 h10 h11 h12 h13 h14 h15 h16 h17
  unfold ribStep at h
  unfold Ending at he ⊢
  cases r <;> dsimp only at h <;> (try split at h) <;> (try split at h) <;>
    (first | contradiction | (injection h with h; subst h; cases m <;> simp [left, mainTurn, ribLeft, RibPc.inside] at * <;> grind))

theorem ending_step {s s' : St} {t : Turn} (hi : Inv s) (he : Ending s) (h : step s t = .ok s') :
    Ending s' ∧ (left s = 0 ∧ left s' = 0 ∨ left s' < left s ∨ (left s' = left s ∧ mainTurn s' = mainTurn s ∧ t.isMain ≠ mainTurn s)) := by
  cases t with
  | main d =>
    obtain ⟨a, b | b | ⟨b, c, e⟩⟩ := ending_main hi he h
    · exact ⟨a, .inl b⟩
    · exact ⟨a, .inr (.inl b)⟩
    · exact ⟨a, .inr (.inr ⟨b, c, by rw [e]; simp [Turn.isMain]⟩)⟩
  | rib d =>
    obtain ⟨a, b | b | ⟨b, c, e⟩⟩ := ending_rib hi he h
    · exact ⟨a, .inl b⟩
    · exact ⟨a, .inr (.inl b)⟩
    · exact ⟨a, .inr (.inr ⟨b, c, by rw [e]; simp [Turn.isMain]⟩)⟩

theorem ending_runs {s s' : St} {l : List Turn} (hi : Inv s) (he : Ending s) (h : runs s l = .ok s') :
    Inv s' ∧ Ending s' ∧ left s' ≤ left s ∧ ((∃ t ∈ l, t.isMain = mainTurn s) → left s = 0 ∨ left s' < left s) := by
  induction l generalizing s with
  | nil =>
    injection h with h; subst h
    exact ⟨hi, he, Nat.le_refl _, fun ⟨_, ht, _⟩ => by cases ht⟩
  | cons t l ih =>
    unfold runs at h
    cases hs : step s t with
    | error x => rw [hs] at h; cases h
    | ok s1 =>
      rw [hs] at h
      obtain ⟨he1, hc⟩ := ending_step hi he hs
      obtain ⟨a, b, c, d⟩ := ih (inv_step hi hs) he1 h
      refine ⟨a, b, by omega, fun ⟨t', ht', hm⟩ => ?_⟩
      rcases hc with hc | hc | ⟨hc, hm1, hne⟩
      · exact .inl hc.1
      · right; omega
      · rcases List.mem_cons.mp ht' with rfl | ht'
        · exact absurd hm hne
        · have := d ⟨t', ht', by rw [hm1]; exact hm⟩
          rw [hc] at this c
          omega

theorem ending_rounds {s s' : St} {ls : List (List Turn)} (hi : Inv s) (he : Ending s) (hf : ∀ l ∈ ls, bothTurns l)
    (h : runs s ls.flatten = .ok s') : left s' + ls.length ≤ left s ∨ left s' = 0 := by
  induction ls generalizing s with
  | nil => injection h with h; subst h; exact .inl (by simp)
  | cons l ls ih =>
    rw [List.flatten_cons, runs_append] at h
    cases hr : runs s l with
    | error x => rw [hr] at h; cases h
    | ok s1 =>
      rw [hr] at h
      obtain ⟨a, b, c, d⟩ := ending_runs hi he hr
      have hb := hf l (List.mem_cons_self ..)
      have hd := d (by
        obtain ⟨⟨x, hx⟩, y, hy⟩ := hb
        cases hm : mainTurn s with
        | true => exact ⟨_, hx, rfl⟩
        | false => exact ⟨_, hy, rfl⟩)
      rcases ih a b (fun l hl => hf l (List.mem_cons_of_mem _ hl)) h with e | e
      · simp only [List.length_cons]
        omega
      · exact .inr e

theorem left_le {s : St} (he : Ending s) (hi : Inv s) : left s ≤ 19 := by
  unfold left
  have := he.2
  have : ribLeft s.rib ≤ 7 := by cases s.rib <;> decide
  split <;> (try split) <;> (first | omega | (exact absurd ‹_› (he.2 _)))

theorem left_done {s : St} (h : left s = 0) : s.main = .done := by
  unfold left at h
  split at h <;> (try split at h) <;> (first | omega | assumption)

/-- While the RIB thread goes on, and the main thread waits; `n` turns of the RIB thread. -/
def Going (s : St) (n : Nat) : Prop :=
  s.ribThrew = false ∧
  ((∀ w, s.main ≠ .waiting w) ∨
    ((s.main = .waiting true → s.rib = .start ∨ s.rib = .notify) ∧ (s.rib = .start → n = 0) ∧ (s.rib = .notify → n ≤ 1) ∧
      (s.rib = .start ∨ s.rib = .notify ∨ s.rib = .setUp ∨ s.rib = .loop ∨ s.rib = .handler)))

theorem going_main {s s' : St} {d : MainDoes} {n : Nat} (hi : Inv s) (hg : Going s n) (h : mainStep s d = .ok s') : Going s' n := by
  obtain ⟨m, r, io, al, se, ms, rs, rv, mt, rt⟩ := s
  obtain ⟨h1, h2, h3, h4, h5, h6, h7, h8, h9, h10, h11, h12, h13, h14, h15, h16, h17⟩ := hi
  dsimp only at h1 h2 h3 h4 h5 h6 h7 h8 h9 h10 h11 h12 h13 h14 h15 h16 h17
  unfold mainStep at h
  unfold Going at hg ⊢
  cases m <;> (try cases ‹Exc›) <;> dsimp only at h <;> (try split at h) <;> (try split at h) <;> (try split at h) <;>
    (first | contradiction | (injection h with h; subst h; cases r <;> simp [RibPc.inside] at * <;> grind))

theorem going_rib {s s' : St} {d : RibDoes} {n : Nat} (hi : Inv s) (hg : Going s n) (hd : ∀ e, d ≠ .throw e) (hd' : d ≠ .idle)
    (h : ribStep s d = .ok s') : Going s' (n + 1) := by
  obtain ⟨m, r, io, al, se, ms, rs, rv, mt, rt⟩ := s
  obtain ⟨h1, h2, h3, h4, h5, h6, h7, h8, h9, h10, h11, h12, h13, h14, h15, h16, h17⟩ := hi
  dsimp only at h1 h2 h3 h4 h5 h6 h7 h8 h9 h10 h11 h12 h13 h14 h15 h16 h17
  unfold ribStep at h
  unfold Going at hg ⊢
  cases r <;> dsimp only at h <;> (try split at h) <;> (try split at h) <;>
    (first | contradiction | (injection h with h; subst h; dsimp only at *; grind))

theorem going_runs {s s' : St} {l : List Turn} {n : Nat} (hi : Inv s) (hg : Going s n)
    (hl : ∀ e, Turn.rib (.throw e) ∉ l ∧ Turn.rib .idle ∉ l) (h : runs s l = .ok s') :
    Inv s' ∧ Going s' (n + (l.filter (fun t => !t.isMain)).length) := by
  induction l generalizing s n with
  | nil => injection h with h; subst h; exact ⟨hi, hg⟩
  | cons t l ih =>
    unfold runs at h
    cases hs : step s t with
    | error x => rw [hs] at h; cases h
    | ok s1 =>
      rw [hs] at h
      have hl' : ∀ e, Turn.rib (.throw e) ∉ l ∧ Turn.rib .idle ∉ l :=
        fun e => ⟨fun h => (hl e).1 (List.mem_cons_of_mem _ h), fun h => (hl e).2 (List.mem_cons_of_mem _ h)⟩
      cases t with
      | main d =>
        have := ih (inv_step hi hs) (going_main hi hg hs) hl' h
        simpa [Turn.isMain] using this
      | rib d =>
        have := ih (inv_step hi hs) (going_rib hi hg (fun e hd => (hl e).1 (by rw [hd]; exact List.mem_cons_self ..))
          (fun hd => (hl .std).2 (by rw [hd]; exact List.mem_cons_self ..)) hs) hl' h
        simpa [Turn.isMain, Nat.add_assoc, Nat.add_comm 1] using this

theorem not_waiting_step {s s' : St} {t : Turn} (hw : ∀ w, s.main ≠ .waiting w) (h : step s t = .ok s') : ∀ w, s'.main ≠ .waiting w := by
  obtain ⟨m, r, io, al, se, ms, rs, rv, mt, rt⟩ := s
  cases t with
  | main d =>
    change mainStep _ d = .ok s' at h
    unfold mainStep at h
    cases m <;> (try cases ‹Exc›) <;> dsimp only at h <;> (try split at h) <;> (try split at h) <;> (try split at h) <;>
      (first | contradiction | (injection h with h; subst h; grind))
  | rib d =>
    change ribStep _ d = .ok s' at h
    unfold ribStep at h
    cases r <;> dsimp only at h <;> (try split at h) <;> (try split at h) <;>
      (first | contradiction | (injection h with h; subst h; grind))

theorem not_waiting_runs {s s' : St} {l : List Turn} (hw : ∀ w, s.main ≠ .waiting w) (h : runs s l = .ok s') : ∀ w, s'.main ≠ .waiting w := by
  induction l generalizing s with
  | nil => injection h with h; subst h; exact hw
  | cons t l ih =>
    unfold runs at h
    cases hs : step s t with
    | error x => rw [hs] at h; cases h
    | ok s1 => rw [hs] at h; exact ih (not_waiting_step hw hs) h

theorem starts {a b : List Turn} {d : MainDoes} {s : St} (h : runs start (a ++ .main d :: b) = .ok s)
    (hg : ∀ e, Turn.rib (.throw e) ∉ a ++ .main d :: b ∧ Turn.rib .idle ∉ a ++ .main d :: b)
    (hn : 2 ≤ (a.filter (fun t => !t.isMain)).length) : ∀ w, s.main ≠ .waiting w := by
  rw [runs_append] at h
  cases ha : runs start a with
  | error x => rw [ha] at h; cases h
  | ok s1 =>
    rw [ha] at h
    obtain ⟨hi, hG⟩ := going_runs (n := 0) inv_start ⟨rfl, .inr (by simp [start])⟩
      (fun e => ⟨fun h => (hg e).1 (List.mem_append_left _ h), fun h => (hg e).2 (List.mem_append_left _ h)⟩) ha
    dsimp only at h
    unfold runs at h
    cases hs : step s1 (.main d) with
    | error x => rw [hs] at h; cases h
    | ok s2 =>
      rw [hs] at h
      refine not_waiting_runs ?_ h
      rcases hG.2 with hw | ⟨g1, g2, g3, g4⟩
      · exact not_waiting_step hw hs
      · have h5 := hi.nullIo
        have h6 := hi.stopped
        change mainStep s1 d = .ok s2 at hs
        by_cases hw : ∀ w, s1.main ≠ .waiting w
        · exact not_waiting_step (t := .main d) hw hs
        · obtain ⟨w, hw⟩ : ∃ w, s1.main = .waiting w := by
            cases hm : s1.main with
            | waiting w => exact ⟨w, rfl⟩
            | _ => exact absurd (fun w h => by rw [hm] at h; cases h) hw
          have hr : s1.rib ≠ .start ∧ s1.rib ≠ .notify := ⟨fun h => by have := g2 h; omega, fun h => by have := g3 h; omega⟩
          have hio : s1.ribIo = true := by
            cases hio : s1.ribIo with
            | true => rfl
            | false =>
              have := h6 (h5 (by rcases g4 with g | g | g | g | g <;> rw [g] <;> first | rfl | (exact absurd g hr.1)) hio)
              rw [hw] at this
              rcases this with h | h <;> cases h
          cases w with
          | true => rcases g1 hw with g | g <;> first | exact absurd g hr.1 | exact absurd g hr.2
          | false =>
            simp only [mainStep, hw, hio] at hs
            simp at hs
            subst hs
            exact fun _ h => nomatch h

/-- Without failure of the RIB thread, and without its running out of work, it is there while the main thread runs. -/
def RibThere (s : St) : Prop := s.rib = .leave ∨ s.rib = .exiting ∨ s.rib = .ended ∨ s.rib = .failed ∨ s.rib = .stopMain → s.ribStopped = true

theorem safe_step {s : St} {t : Turn} {f : Fault} (hi : Inv s) (h : step s t = .error f) :
    (f = .uncaught ∧ t = .rib (.throw .priv)) ∨ (f = .postDangling ∧ t = .main .post ∧ s.ribStopped = false ∧ s.rib = .ended) := by
  obtain ⟨m, r, io, al, se, ms, rs, rv, mt, rt⟩ := s
  obtain ⟨h1, h2, h3, h4, h5, h6, h7, h8, h9, h10, h11, h12, h13, h14, h15, h16, h17⟩ := hi
  dsimp only at h1 h2 h3 h4 h5 h6 h7 h8 h9 h10 h11 h12 h13 h14 h15 h16 h17
  cases t with
  | main d =>
    change mainStep _ d = .error f at h
    unfold mainStep at h
    cases m <;> (try cases ‹Exc›) <;> dsimp only at h <;> (try split at h) <;> (try split at h) <;> (try split at h) <;>
      (first | contradiction | (injection h with h; subst h; cases r <;> simp [RibPc.inside] at * <;> grind))
  | rib d =>
    change ribStep _ d = .error f at h
    unfold ribStep at h
    cases r <;> dsimp only at h <;> (try split at h) <;> (try split at h) <;>
      (first | contradiction | (injection h with h; subst h; simp at *; try grind))

theorem there_step {s s' : St} {t : Turn} (hi : Inv s) (hr : RibThere s) (h : step s t = .ok s') :
    RibThere s' ∨ (∃ e, t = .rib (.throw e)) ∨ t = .rib .idle := by
  obtain ⟨m, r, io, al, se, ms, rs, rv, mt, rt⟩ := s
  unfold RibThere at hr ⊢
  cases t with
  | main d =>
    change mainStep _ d = .ok s' at h
    unfold mainStep at h
    cases m <;> (try cases ‹Exc›) <;> dsimp only at h <;> (try split at h) <;> (try split at h) <;> (try split at h) <;>
      (first | contradiction | (injection h with h; subst h; grind))
  | rib d =>
    change ribStep _ d = .ok s' at h
    unfold ribStep at h
    cases r <;> dsimp only at h <;> (try split at h) <;> (try split at h) <;>
      (first | contradiction | (injection h with h; subst h; grind))

theorem safe_runs {s : St} {l : List Turn} {f : Fault} (hi : Inv s) (h : runs s l = .error f) :
    (f = .uncaught ∧ Turn.rib (.throw .priv) ∈ l) ∨
    (f = .postDangling ∧ Turn.main .post ∈ l ∧ (¬ RibThere s ∨ (∃ e, Turn.rib (.throw e) ∈ l) ∨ Turn.rib .idle ∈ l)) := by
  induction l generalizing s with
  | nil => cases h
  | cons t l ih =>
    unfold runs at h
    cases hs : step s t with
    | error x =>
      rw [hs] at h
      injection h with h; subst h
      rcases safe_step hi hs with ⟨a, b⟩ | ⟨a, b, c, d⟩
      · exact .inl ⟨a, List.mem_cons.mpr (.inl b.symm)⟩
      · refine .inr ⟨a, List.mem_cons.mpr (.inl b.symm), .inl (fun hr => ?_)⟩
        rw [hr (.inr (.inr (.inl d)))] at c
        cases c
    | ok s1 =>
      rw [hs] at h
      rcases ih (inv_step hi hs) h with ⟨a, b⟩ | ⟨a, b, c⟩
      · exact .inl ⟨a, List.mem_cons_of_mem _ b⟩
      · refine .inr ⟨a, List.mem_cons_of_mem _ b, ?_⟩
        rcases c with c | ⟨e, c⟩ | c
        · by_cases hr : RibThere s
          · rcases there_step hi hr hs with h1 | ⟨e, h1⟩ | h1
            · exact absurd h1 c
            · exact .inr (.inl ⟨e, List.mem_cons.mpr (.inl h1.symm)⟩)
            · exact .inr (.inr (List.mem_cons.mpr (.inl h1.symm)))
          · exact .inl hr
        · exact .inr (.inl ⟨e, List.mem_cons_of_mem _ c⟩)
        · exact .inr (.inr (List.mem_cons_of_mem _ c))

theorem safe {l : List Turn} {f : Fault} (h : runs start l = .error f) :
    (f = .uncaught ∧ Turn.rib (.throw .priv) ∈ l) ∨
    (f = .postDangling ∧ Turn.main .post ∈ l ∧ ((∃ e, Turn.rib (.throw e) ∈ l) ∨ Turn.rib .idle ∈ l)) := by
  rcases safe_runs inv_start h with a | ⟨a, b, c⟩
  · exact .inl a
  · exact .inr ⟨a, b, c.resolve_left (fun hn => hn (by unfold RibThere; simp [start]))⟩

end Verif.Run
