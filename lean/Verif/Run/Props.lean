import Verif.Run.Lemmas

/-! C123: NFD ends when it is told to and when either thread has failed, both threads together, and the exit code says whether there was a failure. -/
namespace Verif.Run

/-- The exit code: 0 exactly if neither thread failed; 4 only if privileges were the problem. -/
theorem C123_exit_code {l : List Turn} {s : St} (h : runs start l = .ok s) (hd : s.main = .done) :
    (s.retval = 0 ↔ s.mainThrew = none ∧ s.ribThrew = false) ∧
    (s.mainThrew = some .std → s.retval = 1) ∧ (s.mainThrew = none → s.ribThrew = true → s.retval = 1) ∧
    (s.mainThrew = some .priv → s.ribThrew = false → s.retval = 4) ∧ (s.retval = 4 → s.mainThrew = some .priv) := by
  have hi := inv_reach h
  have h0 := hi.code0
  have hj := hi.joined hd
  have hR := hi.codeR
  have hM := hi.codeM
  have hP := hi.codeP
  have hne : ∀ e, s.main ≠ .caught e := by rw [hd]; exact fun _ h => nomatch h
  replace hM := fun h => hM h hne
  replace hP := fun h => hP h hne
  obtain ⟨m, r, io, al, se, ms, rs, rv, mt, rt⟩ := s
  dsimp only at *
  subst hd
  cases mt with
  | none => cases rt <;> grind
  | some e => cases e <;> cases rt <;> grind

/-- Failures are those of the history: a thread has failed only if a turn of it threw. -/
theorem C123_failures {l : List Turn} {s : St} (h : runs start l = .ok s) :
    (∀ e, s.mainThrew = some e → Turn.main (.throw e) ∈ l) ∧ (s.ribThrew = true → ∃ e, Turn.rib (.throw e) ∈ l) := by
  have gen : ∀ (l : List Turn) (s0 s : St), runs s0 l = .ok s →
      (∀ e, s.mainThrew = some e → s0.mainThrew = some e ∨ Turn.main (.throw e) ∈ l) ∧
      (s.ribThrew = true → s0.ribThrew = true ∨ ∃ e, Turn.rib (.throw e) ∈ l) := by
    intro l
    induction l with
    | nil => intro s0 s h; injection h with h; subst h; exact ⟨fun _ h => .inl h, fun h => .inl h⟩
    | cons t l ih =>
      intro s0 s h
      unfold runs at h
      cases hs : step s0 t with
      | error x => rw [hs] at h; cases h
      | ok s1 =>
        rw [hs] at h
        obtain ⟨a, b⟩ := ih s1 s h
        have hstep : (∀ e, s1.mainThrew = some e → s0.mainThrew = some e ∨ t = .main (.throw e)) ∧
            (s1.ribThrew = true → s0.ribThrew = true ∨ ∃ e, t = .rib (.throw e)) := by
          cases t with
          | main d =>
            change mainStep s0 d = .ok s1 at hs
            unfold mainStep at hs
            split at hs <;> (try split at hs) <;> (try split at hs) <;> (try split at hs) <;>
              (first | contradiction | (injection hs with hs; subst hs; grind))
          | rib d =>
            change ribStep s0 d = .ok s1 at hs
            unfold ribStep at hs
            split at hs <;> (try split at hs) <;> (try split at hs) <;>
              (first | contradiction | (injection hs with hs; subst hs; grind))
        constructor
        · intro e he
          rcases a e he with h1 | h1
          · rcases hstep.1 e h1 with h2 | h2
            · exact .inl h2
            · exact .inr (List.mem_cons.mpr (.inl h2.symm))
          · exact .inr (List.mem_cons_of_mem _ h1)
        · intro he
          rcases b he with h1 | ⟨e, h1⟩
          · rcases hstep.2 h1 with h2 | ⟨e, h2⟩
            · exact .inl h2
            · exact .inr ⟨e, List.mem_cons.mpr (.inl h2.symm)⟩
          · exact .inr ⟨e, List.mem_cons_of_mem _ h1⟩
  obtain ⟨a, b⟩ := gen l start s h
  exact ⟨fun e he => (a e he).resolve_left (fun h => by cases h), fun he => (b he).resolve_left (fun h => by cases h)⟩

/-- `run` returns only when the RIB thread has ended; it returns only if a signal was caught or a thread has failed. -/
theorem C123_together {l : List Turn} {s : St} (h : runs start l = .ok s) (hd : s.main = .done) :
    s.rib = .ended ∧ (Turn.main .terminate ∈ l ∨ ∃ e, Turn.main (.throw e) ∈ l ∨ Turn.rib (.throw e) ∈ l) := by
  have hi := inv_reach h
  refine ⟨hi.joined hd, ?_⟩
  have hf := C123_failures h
  have hs : s.mainStopped = true → Turn.main .terminate ∈ l ∨ s.ribThrew = true := by
    clear hd hf hi
    have gen : ∀ (l : List Turn) (s0 s : St), Inv s0 → runs s0 l = .ok s →
        (s.mainStopped = true → s0.mainStopped = true ∨ Turn.main .terminate ∈ l ∨ s.ribThrew = true) ∧
        (s0.ribThrew = true → s.ribThrew = true) := by
      intro l
      induction l with
      | nil => intro s0 s _ h; injection h with h; subst h; exact ⟨fun h => .inl h, id⟩
      | cons t l ih =>
        intro s0 s hi h
        unfold runs at h
        cases hs : step s0 t with
        | error x => rw [hs] at h; cases h
        | ok s1 =>
          rw [hs] at h
          obtain ⟨a, b⟩ := ih s1 s (inv_step hi hs) h
          have hfail := hi.failing
          have hstep : (s1.mainStopped = true → s0.mainStopped = true ∨ t = .main .terminate ∨ s1.ribThrew = true) ∧
              (s0.ribThrew = true → s1.ribThrew = true) := by
            cases t with
            | main d =>
              change mainStep s0 d = .ok s1 at hs
              unfold mainStep at hs
              split at hs <;> (try split at hs) <;> (try split at hs) <;> (try split at hs) <;>
                (first | contradiction | (injection hs with hs; subst hs; grind))
            | rib d =>
              change ribStep s0 d = .ok s1 at hs
              unfold ribStep at hs
              split at hs <;> (try split at hs) <;> (try split at hs) <;>
                (first | contradiction | (injection hs with hs; subst hs; grind))
          refine ⟨fun hm => ?_, fun hr => b (hstep.2 hr)⟩
          rcases a hm with h1 | h1 | h1
          · rcases hstep.1 h1 with h2 | h2 | h2
            · exact .inl h2
            · exact .inr (.inl (List.mem_cons.mpr (.inl h2.symm)))
            · exact .inr (.inr (b h2))
          · exact .inr (.inl (List.mem_cons_of_mem _ h1))
          · exact .inr (.inr h1)
    intro hm
    rcases (gen l start s inv_start h).1 hm with h1 | h1 | h1
    · cases h1
    · exact .inl h1
    · exact .inr h1
  rcases hi.leaves (.inr (.inr hd)) with hm | hm
  · rcases hs hm with h1 | h1
    · exact .inl h1
    · obtain ⟨e, he⟩ := hf.2 h1
      exact .inr ⟨e, .inr he⟩
  · obtain ⟨e, he⟩ := Option.isSome_iff_exists.mp hm
    exact .inr ⟨e, .inl (hf.1 e he)⟩

/-- Part of the claim: once a signal has been caught, or a thread has failed, `run` returns however the threads are scheduled, provided that each gets its
turns. Missing: that the main thread is past its wait for the RIB thread (`C123_stuck`). -/
theorem C123_ends_partial {l : List Turn} {s s' : St} {ls : List (List Turn)} (h : runs start l = .ok s)
    (hq : s.mainStopped = true ∨ s.ribThrew = true ∨ s.mainThrew.isSome = true) (hw : ∀ b, s.main ≠ .waiting b)
    (hf : ∀ r ∈ ls, bothTurns r) (hn : 20 ≤ ls.length) (h' : runs s ls.flatten = .ok s') : s'.main = .done := by
  have hi := inv_reach h
  have he : Ending s := ⟨hq, hw⟩
  have hl := left_le he hi
  rcases ending_rounds hi he hf h' with h1 | h1
  · omega
  · exact left_done h1

/-- A failure is noticed: what a handler of either thread throws, or the set-up of the RIB service, ends the thread's loop. -/
theorem C123_noticed {s s' : St} :
    (∀ e, s.main = .handler → step s (.main (.throw e)) = .ok s' → s'.mainThrew = some e ∧ s'.main = .caught e) ∧
    (s.rib = .handler ∨ s.rib = .setUp → step s (.rib (.throw .std)) = .ok s' → s'.ribThrew = true ∧ s'.rib = .failed) := by
  obtain ⟨m, r, io, al, se, ms, rs, rv, mt, rt⟩ := s
  constructor
  · intro e hm h
    dsimp only at hm; subst hm
    injection h with h; subst h
    exact ⟨rfl, rfl⟩
  · intro hm h
    rcases hm with hm | hm <;> dsimp only at hm <;> subst hm <;> injection h with h <;> subst h <;> exact ⟨rfl, rfl⟩

/-- A signal is noticed: the handler of SIGINT and SIGTERM, whenever it runs, makes the situation of `C123_ends_partial`. -/
theorem C123_signal {s s' : St} (hm : s.main = .handler) (h : step s (.main .terminate) = .ok s') :
    s'.mainStopped = true ∧ (∀ b, s'.main ≠ .waiting b) ∧ s'.retval = s.retval := by
  simp only [step, mainStep, hm] at h
  injection h with h
  subst h
  exact ⟨rfl, (fun _ h => nomatch h), rfl⟩

/-- The main thread passes its wait as long as the RIB thread does not end before: it does so in its first turn after the RIB thread has had two. -/
theorem C123_starts {a b : List Turn} {d : MainDoes} {s : St} (h : runs start (a ++ .main d :: b) = .ok s)
    (hg : ribGoesOn (a ++ .main d :: b)) (hn : 2 ≤ (a.filter (fun t => !t.isMain)).length) : ∀ w, s.main ≠ .waiting w :=
  starts h (fun e => ⟨(hg e).1, (hg e).2⟩) hn

/-- `stop` is never called for a destroyed `io_context`, no assertion fails, and no function is posted to a destroyed `io_context` of the main thread; one is
posted to that of the RIB thread only if the RIB thread has ended by itself (`C123_post_dangling`). -/
theorem C123_safe {l : List Turn} {f : Fault} (h : runs start l = .error f) :
    (f = .uncaught ∧ Turn.rib (.throw .priv) ∈ l) ∨
    (f = .postDangling ∧ Turn.main .post ∈ l ∧ ((∃ e, Turn.rib (.throw e) ∈ l) ∨ Turn.rib .idle ∈ l)) :=
  safe h

/-- A history in which the main thread never gets past its wait. -/
def stuckTurns : List Turn := [.rib .go, .rib .go, .rib (.throw .std), .rib .go, .rib .go, .rib .go, .rib .go, .main .go]

/-- Against the claim: if setting up the RIB service fails before the main thread has looked at `ribIo`, NFD neither works nor ends: it waits for ever, also
after SIGTERM. (The configuration has no transport for the RIB manager, or its section is wrong, for instance.) -/
theorem C123_stuck : ∃ s, runs start stuckTurns = .ok s ∧ s.ribThrew = true ∧ s.mainStopped = true ∧ ¬ canEnd s := by
  refine ⟨{ main := .waiting true, rib := .ended, ribSet := true, mainStopped := true, retval := 1, ribThrew := true }, rfl, rfl, rfl, ?_⟩
  rintro ⟨l, s', h, hd⟩
  have gen : ∀ (l : List Turn) (s s' : St), (∃ w, s.main = .waiting w) → s.rib = .ended → s.ribIo = false → runs s l = .ok s' →
      ∃ w, s'.main = .waiting w := by
    intro l
    induction l with
    | nil => intro s s' hw _ _ h; injection h with h; subst h; exact hw
    | cons t l ih =>
      intro s s' ⟨w, hw⟩ hr hio h
      unfold runs at h
      cases hs : step s t with
      | error x => rw [hs] at h; cases h
      | ok s1 =>
        rw [hs] at h
        obtain ⟨m, r, io, al, se, ms, rs, rv, mt, rt⟩ := s
        dsimp only at hw hr hio
        subst hw hr hio
        cases t with
        | rib d => injection hs with hs; subst hs; exact ih _ s' ⟨w, rfl⟩ rfl rfl h
        | main d =>
          simp only [step, mainStep] at hs
          split at hs
          · injection hs with hs; subst hs; exact ih _ s' ⟨w, rfl⟩ rfl rfl h
          · injection hs with hs; subst hs; exact ih _ s' ⟨true, rfl⟩ rfl rfl h
  obtain ⟨w, hw⟩ := gen l _ s' ⟨true, rfl⟩ rfl rfl h
  rw [hw] at hd
  cases hd

/-- Against the claim: when the RIB thread has failed, a handler of the main thread that is still running may post a function to it
(self-learning does, self-learning-strategy.cpp:192, 243, 256) although its `io_context` is gone. -/
theorem C123_post_dangling :
    runs start [.rib .go, .rib .go, .main .go, .main .go, .main .go, .rib .go, .rib .go, .rib (.throw .std), .rib .go, .rib .go, .rib .go, .rib .go,
      .main .post] = .error .postDangling := rfl

/-- If the RIB thread runs out of work, the main thread goes on without it. -/
theorem C123_idle : ∃ s, runs start [.rib .go, .rib .go, .main .go, .main .go, .rib .go, .rib .idle, .rib .go, .rib .go, .main .go] = .ok s ∧
    s.rib = .ended ∧ s.main = .handler ∧ s.mainStopped = false := ⟨_, rfl, rfl, rfl, rfl⟩

/-- A round in which both threads have a turn. -/
def round : List Turn := [.main .go, .rib .go]

/-- SIGTERM while both threads work: the process ends with exit code 0. -/
def termTurns : List Turn := [.rib .go, .rib .go, .main .go, .main .go, .rib .go, .main .go, .rib .go, .main .terminate]

example : ∃ s s', runs start termTurns = .ok s ∧ s.mainStopped = true ∧ (∀ b, s.main ≠ .waiting b) ∧ s.rib = .handler ∧
    runs s (List.replicate 20 round).flatten = .ok s' ∧ s'.main = .done ∧ s'.retval = 0 :=
  ⟨_, _, rfl, rfl, (fun _ h => nomatch h), rfl, rfl, rfl, rfl⟩

/-- The RIB thread fails while both work: the process ends with exit code 1. -/
def failTurns : List Turn := [.rib .go, .rib .go, .main .go, .main .go, .rib .go, .main .go, .rib .go, .rib (.throw .std)]

example : ∃ s s', runs start failTurns = .ok s ∧ s.mainStopped = false ∧ s.ribThrew = true ∧ (∀ b, s.main ≠ .waiting b) ∧
    runs s (List.replicate 20 round).flatten = .ok s' ∧ s'.main = .done ∧ s'.retval = 1 :=
  ⟨_, _, rfl, rfl, rfl, (fun _ h => nomatch h), rfl, rfl, rfl⟩

example : bothTurns round := ⟨⟨.go, by decide⟩, .go, by decide⟩

example : ∃ s, runs start ([.main .go, .rib .go, .rib .go] ++ .main .go :: []) = .ok s ∧ s.main = .ready := ⟨_, rfl, rfl⟩

end Verif.Run
