/-
Invariants of the requests to connect.
-/
import Verif.Ch.TcpInv
import Verif.Ch.Spec

namespace Verif.Ch
open Verif.Tp (TState Persist bind_ok)

theorem answersTo_append (i : Nat) (a b : List Out) : answersTo i (a ++ b) = answersTo i a ++ answersTo i b := by
  fun_induction answersTo i a <;> simp_all [answersTo]

/-- A request, with the answers to it. -/
inductive RPhase (cfg : Cfg) (now : Nat) (a : Attempt) : List (Answer × Nat) → Prop
  | waiting : a.conn ≠ .finished → a.conn ≠ .queued .aborted → a.timer = some (a.start + cfg.timeout) → a.shut = false → a.start ≤ now → RPhase cfg now a []
  | late (r : Res) (t : Nat) : a.conn = .queued r → a.timer = none → a.shut = true → a.start + cfg.timeout ≤ t → t ≤ now → RPhase cfg now a [(.timedOut, t)]
  | over (x : Answer) (t : Nat) : a.conn = .finished → a.timer = none → (x = .timedOut → a.start + cfg.timeout ≤ t) → a.start ≤ t → t ≤ now → RPhase cfg now a [(x, t)]
  | twice (x : Answer) (t u : Nat) : a.conn = .finished → a.timer = none → x = .refused ∨ x = .noEndpoint → a.start + cfg.timeout ≤ t → t ≤ u → u ≤ now →
      RPhase cfg now a [(.timedOut, t), (x, u)]

theorem RPhase.mono {cfg : Cfg} {now now' : Nat} {a : Attempt} {l : List (Answer × Nat)} (h : RPhase cfg now a l) (hn : now ≤ now') : RPhase cfg now' a l := by
  cases h with
  | waiting h1 h2 h3 h4 h5 => exact .waiting h1 h2 h3 h4 (by omega)
  | late r t h1 h2 h3 h4 h5 => exact .late r t h1 h2 h3 h4 (by omega)
  | over x t h1 h2 h3 h4 h5 => exact .over x t h1 h2 h3 h4 (by omega)
  | twice x t u h1 h2 h3 h4 h5 h6 => exact .twice x t u h1 h2 h3 h4 h5 (by omega)

structure RInv (cfg : Cfg) (c : Chan) : Prop where
  phase : ∀ (i : Nat) (a : Attempt), c.reqs[i]? = some a → RPhase cfg c.now a (answersTo i c.out)
  fresh : ∀ i, c.reqs.length ≤ i → answersTo i c.out = []

theorem rinv_init (cfg : Cfg) : RInv cfg Chan.init where
  phase := by intro i a h; simp [Chan.init] at h
  fresh := by intro i _; rfl

theorem RInv.same {cfg : Cfg} {c c' : Chan} (h : RInv cfg c) (o : List Out) (h1 : c'.now = c.now) (h2 : c'.reqs = c.reqs) (h3 : c'.out = c.out ++ o)
    (h4 : ∀ i, answersTo i o = []) : RInv cfg c' where
  phase := by
    intro i a ha
    rw [h1, h3, answersTo_append, h4, List.append_nil]
    rw [h2] at ha
    exact h.phase i a ha
  fresh := by
    intro i hi
    rw [h3, answersTo_append, h4, List.append_nil]
    rw [h2] at hi
    exact h.fresh i hi

/-- Request `i` changes. -/
theorem RInv.update {cfg : Cfg} {c c' : Chan} (h : RInv cfg c) {i : Nat} {a : Attempt} (b : Attempt) (o : List Out) (ha : c.reqs[i]? = some a)
    (h1 : c'.now = c.now) (h2 : c'.reqs = c.reqs.set i b) (h3 : c'.out = c.out ++ o) (h4 : ∀ j, j ≠ i → answersTo j o = [])
    (h5 : RPhase cfg c.now b (answersTo i c.out ++ answersTo i o)) : RInv cfg c' where
  phase := by
    intro j x hx
    rw [h2] at hx
    rw [h1, h3, answersTo_append]
    by_cases hj : i = j
    · subst hj
      rw [get_set ha] at hx
      cases hx
      exact h5
    · rw [h4 j (fun e => hj e.symm), List.append_nil]
      rw [List.getElem?_set, if_neg hj] at hx
      exact h.phase j x hx
  fresh := by
    intro j hj
    rw [h2, List.length_set] at hj
    have hlt := (List.getElem?_eq_some_iff.1 ha).1
    rw [h3, answersTo_append, h.fresh j hj, h4 j (by omega)]
    rfl

/-- A new request. -/
theorem RInv.push {cfg : Cfg} {c c' : Chan} (h : RInv cfg c) (b : Attempt) (o : List Out)
    (h1 : c'.now = c.now) (h2 : c'.reqs = c.reqs ++ [b]) (h3 : c'.out = c.out ++ o) (h4 : ∀ j, j ≠ c.reqs.length → answersTo j o = [])
    (h5 : RPhase cfg c.now b (answersTo c.reqs.length o)) : RInv cfg c' where
  phase := by
    intro j x hx
    rw [h2] at hx
    rw [h1, h3, answersTo_append]
    by_cases hj : j < c.reqs.length
    · rw [List.getElem?_append_left hj] at hx
      rw [h4 j (by omega), List.append_nil]
      exact h.phase j x hx
    · rw [h.fresh j (by omega), List.nil_append]
      rw [List.getElem?_append_right (by omega), List.getElem?_singleton] at hx
      split at hx
      · cases hx
        have : j = c.reqs.length := by omega
        subst this
        exact h5
      · cases hx
  fresh := by
    intro j hj
    rw [h2, List.length_append, List.length_singleton] at hj
    rw [h3, answersTo_append, h.fresh j (by omega), h4 j (by omega)]
    rfl

theorem createFace_acceptor {c c' : Chan} {ep q : Nat} {p : Persist} (h : createFace c ep q p .acceptor = .ok c') :
    c'.now = c.now ∧ c'.reqs = c.reqs ∧ ∃ o, c'.out = c.out ++ o ∧ ∀ i, answersTo i o = [] := by
  rcases createFace_cases h with ⟨_, rfl⟩ | ⟨_, k, hk, rfl⟩ | ⟨_, hk, rfl⟩
  · exact ⟨rfl, rfl, [.acceptNoEndpoint], rfl, fun _ => rfl⟩
  · exact ⟨rfl, rfl, [.accepted ep k], rfl, fun _ => rfl⟩
  · exact ⟨rfl, rfl, [.accepted ep c.faces.length], rfl, fun _ => rfl⟩

theorem createFace_req {c c' : Chan} {ep q i : Nat} {p : Persist} (h : createFace c ep q p (.req i) = .ok c') :
    c'.now = c.now ∧ c'.reqs = c.reqs ∧ ∃ x, c'.out = c.out ++ [.answer i x c.now] ∧ ((q = 0 ∧ x = .noEndpoint) ∨ (q ≠ 0 ∧ ∃ k, x = .created k)) := by
  rcases createFace_cases h with ⟨hq, rfl⟩ | ⟨hq, k, hk, rfl⟩ | ⟨hq, hk, rfl⟩
  · exact ⟨rfl, rfl, _, rfl, Or.inl ⟨hq, rfl⟩⟩
  · exact ⟨rfl, rfl, _, rfl, Or.inr ⟨hq, k, rfl⟩⟩
  · exact ⟨rfl, rfl, _, rfl, Or.inr ⟨by omega, c.faces.length, rfl⟩⟩

theorem answersTo_self (i : Nat) (x : Answer) (t : Nat) : answersTo i [.answer i x t] = [(x, t)] := by simp [answersTo]

theorem answersTo_other {i j : Nat} (x : Answer) (t : Nat) (h : j ≠ i) : answersTo j [.answer i x t] = [] := by
  simp only [answersTo]
  rw [if_neg (fun e => h e.symm)]

theorem rinv_handleConnect {cfg : Cfg} {c c' : Chan} {i : Nat} {a : Attempt} {r : Res} (h : RInv cfg c) (ha : c.reqs[i]? = some a)
    (hc : a.conn = .queued r ∨ (a.conn = .outstanding ∧ r ≠ .aborted)) (e : handleConnect cfg c i a r = .ok c') : RInv cfg c' := by
  have hp := h.phase i a ha
  have hc0 : a.conn ≠ .finished := by
    intro hf
    rcases hc with hc | ⟨hc, _⟩ <;> rw [hf] at hc <;> cases hc
  -- the answer that is added
  have key : ∀ (c1 : Chan) (x : Answer), c1.now = c.now → c1.reqs = c.reqs.set i { a with conn := .finished, timer := none } →
      c1.out = c.out ++ [.answer i x c.now] → (a.shut = true → x = .refused ∨ x = .noEndpoint) → x ≠ .timedOut → RInv cfg c1 := by
    intro c1 x h1 h2 h3 h4 h5
    refine h.update _ _ ha h1 h2 h3 (fun j hj => answersTo_other _ _ hj) ?_
    rw [answersTo_self]
    generalize answersTo i c.out = A at hp
    cases hp with
    | waiting g1 g2 g3 g4 g5 => exact .over _ _ rfl rfl (fun hx => absurd hx h5) g5 (Nat.le_refl _)
    | late r t g1 g2 g3 g4 g5 => exact .twice _ _ _ rfl rfl (h4 g3) g4 g5 (Nat.le_refl _)
    | over x t g1 => exact absurd g1 hc0
    | twice x t u g1 => exact absurd g1 hc0
  rcases handleConnect_cases e with ⟨_, rfl⟩ | ⟨hr, rfl⟩ | ⟨q, q', _, hq, hcr⟩
  · exact key _ .refused rfl rfl rfl (fun _ => Or.inl rfl) (by intro e; cases e)
  · refine h.update { a with conn := .finished, timer := none } [] ha rfl rfl (by simp) (fun _ _ => rfl) ?_
    rw [show answersTo i [] = [] from rfl, List.append_nil]
    generalize answersTo i c.out = A at hp ⊢
    cases hp with
    | waiting g1 g2 g3 g4 g5 =>
      rcases hc with hc | ⟨_, hc⟩
      · rw [hr] at hc; exact absurd hc g2
      · exact absurd hr hc
    | late r t g1 g2 g3 g4 g5 => exact .over _ _ rfl rfl (fun _ => g4) (Nat.le_trans (Nat.le_add_right _ _) g4) g5
    | over x t g1 => exact absurd g1 hc0
    | twice x t u g1 => exact absurd g1 hc0
  · obtain ⟨h1, h2, x, h3, h4⟩ := createFace_req hcr
    refine key c' x h1 h2 h3 ?_ ?_
    · intro hs
      rw [if_pos hs] at hq
      rcases h4 with ⟨_, h4⟩ | ⟨h4, _⟩
      · exact Or.inr h4
      · omega
    · rcases h4 with ⟨_, rfl⟩ | ⟨_, k, rfl⟩ <;> (intro e; cases e)

theorem rinv_handleTimeout {cfg : Cfg} {c : Chan} {i : Nat} {a : Attempt} {due : Nat} (h : RInv cfg c) (ha : c.reqs[i]? = some a)
    (ht : a.timer = some due) (hd : ¬ c.now < due) : RInv cfg (handleTimeout c i a) := by
  have hp := h.phase i a ha
  unfold handleTimeout
  dsimp only
  refine h.update _ [.answer i .timedOut c.now] ha rfl rfl rfl (fun j hj => answersTo_other _ _ hj) ?_
  rw [answersTo_self]
  generalize answersTo i c.out = A at hp
  cases hp with
  | waiting g1 g2 g3 g4 g5 =>
    rw [ht] at g3
    cases g3
    cases hc : a.conn with
    | outstanding => exact .late _ _ (by simp; rfl) rfl rfl (Nat.le_of_not_lt hd) (Nat.le_refl _)
    | queued r => exact .late r _ (by simp) rfl rfl (Nat.le_of_not_lt hd) (Nat.le_refl _)
    | finished => exact absurd hc g1
  | late r t g1 g2 => rw [ht] at g2; cases g2
  | over x t g1 g2 => rw [ht] at g2; cases g2
  | twice x t u g1 g2 => rw [ht] at g2; cases g2

theorem rinv_handleAccept {cfg : Cfg} {c c' : Chan} {x : Option (Nat × Nat)} (h : RInv cfg c) (e : handleAccept cfg c x = .ok c') : RInv cfg c' := by
  rcases handleAccept_cases e with ⟨_, rfl⟩ | ⟨ep, q, q', c1, _, _, hc, rfl⟩
  · exact h.same [.acceptFailed] rfl rfl rfl (fun _ => rfl)
  · obtain ⟨h1, h2, o, h3, h4⟩ := createFace_acceptor hc
    exact h.same o h1 h2 h3 h4

theorem rinv_step {cfg : Cfg} {c c' : Chan} {e : Event} (h : RInv cfg c) (hs : step cfg c e = .ok c') : RInv cfg c' := by
  cases e with
  | tick d =>
    cases hs
    exact ⟨fun i a ha => (h.phase i a ha).mono (Nat.le_add_right _ _), h.fresh⟩
  | face k ev =>
    simp only [step] at hs
    split at hs
    · cases hs; exact h
    · obtain ⟨t, ht, h2⟩ := bind_ok.1 hs
      cases h2
      exact h.same [] rfl rfl (by simp [putFace]) (fun _ => rfl)
  | connect ep p =>
    simp only [step] at hs
    cases hs
    unfold connect
    split
    · rename_i k hk
      refine h.push _ [.answer c.reqs.length (.created k) c.now] rfl rfl rfl (fun j hj => answersTo_other _ _ hj) ?_
      rw [answersTo_self]
      exact .over _ _ rfl rfl (by intro e; cases e) (Nat.le_refl _) (Nat.le_refl _)
    · exact h.push _ [] rfl rfl (by simp) (fun _ _ => rfl) (.waiting (by intro e; cases e) (by intro e; cases e) rfl rfl (Nat.le_refl _))
  | connected i q o =>
    simp only [step] at hs
    split at hs
    · cases hs; exact h
    · rename_i a ha
      split at hs
      · cases hs; exact h
      · rename_i hc
        have hc : a.conn = .outstanding := Decidable.byContradiction hc
        have hr : resOf q ≠ .aborted := by cases q <;> (intro e; cases e)
        split at hs
        · exact rinv_handleConnect h ha (Or.inr ⟨hc, hr⟩) hs
        · cases hs
          refine h.update { a with conn := .queued (resOf q) } [] ha rfl rfl (by simp) (fun _ _ => rfl) ?_
          rw [show answersTo i [] = [] from rfl, List.append_nil]
          have hp := h.phase i a ha
          generalize answersTo i c.out = A at hp ⊢
          cases hp with
          | waiting g1 g2 g3 g4 g5 => exact .waiting (by intro e; cases e) (by intro e; exact hr (Conn.queued.inj e)) g3 g4 g5
          | late r t g1 => rw [hc] at g1; cases g1
          | over x t g1 => rw [hc] at g1; cases g1
          | twice x t u g1 => rw [hc] at g1; cases g1
  | connNext i =>
    simp only [step] at hs
    split at hs
    · cases hs; exact h
    · rename_i a ha
      split at hs
      · rename_i r hr
        exact rinv_handleConnect h ha (Or.inl hr) hs
      · cases hs; exact h
  | timeout i =>
    simp only [step] at hs
    split at hs
    · cases hs; exact h
    · rename_i a ha
      split at hs
      · cases hs; exact h
      · rename_i due hd
        split at hs
        · cases hs; exact h
        · rename_i hn
          cases hs; exact rinv_handleTimeout h ha hd hn
  | listen =>
    simp only [step] at hs
    split at hs <;> cases hs
    · exact h
    · exact h.same [] rfl rfl (by simp) (fun _ => rfl)
  | accept ep q o =>
    simp only [step] at hs
    have h' : RInv cfg { c with accepting := false } := h.same [] rfl rfl (by simp) (fun _ => rfl)
    split at hs
    · cases hs; exact h
    · split at hs
      · exact rinv_handleAccept h' hs
      · cases hs; exact h.same [] rfl rfl (by simp) (fun _ => rfl)
  | acceptFail o =>
    simp only [step] at hs
    have h' : RInv cfg { c with accepting := false } := h.same [] rfl rfl (by simp) (fun _ => rfl)
    split at hs
    · cases hs; exact h
    · split at hs
      · exact rinv_handleAccept h' hs
      · cases hs; exact h.same [] rfl rfl (by simp) (fun _ => rfl)
  | acceptNext =>
    simp only [step] at hs
    have h' : RInv cfg { c with pending := none } := h.same [] rfl rfl (by simp) (fun _ => rfl)
    split at hs
    · cases hs; exact h
    · exact rinv_handleAccept h' hs

theorem rinv_run {cfg : Cfg} {es : List Event} {c : Chan} (h : run cfg Chan.init es = .ok c) : RInv cfg c :=
  run_induct (fun _ _ _ => rinv_step) (rinv_init cfg) h

end Verif.Ch
