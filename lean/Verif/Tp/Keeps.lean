/-
How to prove that something holds in all runs of a stream transport: an induction principle in terms of what the transport does in a step.
-/
import Verif.Tp.Step

namespace Verif.Tp
open Verif.Lp

/-- `P s L` is kept by whatever happens to a transport, where `L` are handlers that were taken out of the queue or are not yet in it. -/
structure Keeps (P : St → List Handler → Prop) : Prop where
  perm : ∀ (s s' : St) (L L' : List Handler), P s L → s' = { s with ready := s'.ready, connecting := s'.connecting } →
    (s'.connecting.isSome = true → s.connecting.isSome = true) → (∀ h, h ∈ L' ++ s'.ready ↔ h ∈ L ++ s.ready) → P s' L'
  send : ∀ (s : St) (p : Bytes), Inv s → s.state = .up → P s [] → P (send s p) []
  leave : ∀ (s s' : St) (n : TState), Inv s → P s [] → (s.state = .up ∨ s.state = .down) → (n = .closing ∨ n = .failed) → setState s n = .ok s' → P (doClose s') []
  persist : ∀ (s : St) (p : Persist), P s [] → P { s with persist := p } []
  fall : ∀ (s s' : St) (p : Persist), Inv s → P s [] → s.state = .down → setState { s with persist := p } .failed = .ok s' → P (doClose s') []
  write : ∀ (s : St) (w : Wr), Inv s → P s [] → P (doWrite s w).1 (doWrite s w).2.toList
  read : ∀ (s : St) (r : Rd) (L : List Handler), Inv s → P s L → P (doRead s r).1 ((doRead s r).2.toList ++ L)
  handle : ∀ (s s' : St) (h : Handler), Inv s → Pre s h → P s [h] → handle s h = .ok s' → P s' []
  deferred : ∀ (s s' : St) (rest : List Handler), Inv s → s.ready = .deferredClose :: rest → P s [] → deferredClose (popped s rest) = .ok s' → P s' []
  dealloc : ∀ (s : St) (rest : List Handler), Inv s → s.state = .closed → s.ready = .dealloc :: rest → P s [] → P { popped s rest with dead := true } []
  connect : ∀ (s : St), Inv s → s.state = .down → s.ready = [] → s.connecting = some 0 → P s [] → P (connected s) []
  timer : ∀ (s : St), Inv s → s.state = .down → s.timer = true → P s [] → P (handleReconnectTimeout { s with timer := false }) []

theorem doWrite_inv {s : St} (hi : Inv s) (w : Wr) : Inv (doWrite s w).1 := by
  rcases doWrite_cases s w with ⟨w', o, h, hw⟩ | ⟨o, h, he, hw, _⟩
  · rw [h]; exact hi.progress hw
  · rw [he]; exact (hi.written hw).1

theorem connect_ready {s : St} (hi : Inv s) (hc : s.connecting = some 0) : s.ready = [] := by
  have h4 := hi.life
  have hst := (connect_inv hi hc).2.2
  simp only [Life, hst] at h4
  have b1 := (h4.2.2.2.2.2 0 hc).1
  cases hq : s.ready with
  | nil => rfl
  | cons x l => rw [hq] at b1; simp at b1

theorem Keeps.step {P : St → List Handler → Prop} (k : Keeps P) {s s' : St} {e : Event} (hi : Inv s) (hp : P s []) (h : step s e = .ok s') : P s' [] := by
  unfold Tp.step at h
  cases e with
  | send p =>
    simp only at h
    cases h
    split
    · exact hp
    · by_cases hu : s.state = .up
      · exact k.send s p hi hu hp
      · have : Tp.send s p = s := by
          unfold Tp.send
          rw [if_neg hu]
          split
          · unfold doSend; rw [if_pos hu]
          · rfl
        rw [this]; exact hp
  | close =>
    simp only at h
    split at h
    · cases h; exact hp
    · unfold close at h
      split at h
      · cases h; exact hp
      · rename_i hn
        simp only [bind_ok] at h
        obtain ⟨t, h1, h2⟩ := h
        cases h2
        exact k.leave s t .closing hi hp (by cases hs : s.state <;> simp_all) (.inl rfl) h1
  | setPersist p =>
    simp only at h
    split at h
    · cases h; exact hp
    · unfold setPersist at h
      split at h
      · cases h; exact hp
      · simp only at h
        split at h
        · rename_i hd
          simp only [bind_ok] at h
          obtain ⟨t, h1, h2⟩ := h
          cases h2
          exact k.fall s t p hi hp hd.2 h1
        · cases h; exact k.persist s p hp
  | io w r rf =>
    simp only at h
    split at h
    · cases h
    · obtain ⟨c1, c2, c3, c4, _⟩ := io_cases hi w r _ _ rfl rfl
      have kw := k.write s w hi hp
      have kr := k.read (doWrite s w).1 r _ (doWrite_inv hi w) kw
      generalize hx : doWrite s w = x at *
      generalize hy : doRead x.1 r = y at *
      cases hx2 : x.2 with
      | none =>
        cases hy2 : y.2 with
        | none =>
          rw [hx2, hy2] at h kr
          simp only [complete, ite_self] at h
          cases h; exact kr
        | some b =>
          rw [hx2, hy2] at h kr
          simp only [complete, ite_self] at h
          exact k.handle _ _ _ c1 (c3 b hx2 hy2).1 kr h
      | some a =>
        cases hy2 : y.2 with
        | none =>
          rw [hx2, hy2] at h kr
          simp only [complete, ite_self] at h
          exact k.handle _ _ _ c1 (c2 a hx2 hy2) kr h
        | some b =>
          rw [hx2, hy2] at h kr
          obtain ⟨_, d1, d2, d3, d4⟩ := c4 a b hx2 hy2
          simp only [complete] at h
          split at h
          · refine k.handle _ _ _ d1 d2 (k.perm y.1 _ _ _ kr rfl id ?_) h
            intro h; simp [post, or_comm, or_left_comm]
          · refine k.handle _ _ _ d3 d4 (k.perm y.1 _ _ _ kr rfl id ?_) h
            intro h; simp [post, or_comm, or_left_comm]
  | connect ok =>
    simp only at h
    split at h
    · cases h; exact hp
    · rename_i hc
      simp only [ne_eq, Decidable.not_not] at hc
      obtain ⟨ht, hti, hst⟩ := connect_inv hi hc
      split at h
      · cases h
      · split at h
        · rw [ht] at h; cases h; exact k.connect s hi hst (connect_ready hi hc) hc hp
        · cases h; exact k.perm s _ _ _ hp rfl (fun h => by cases h) (fun h => Iff.rfl)
  | timer =>
    simp only at h
    split at h
    · cases h; exact hp
    · rename_i ht
      have ht : s.timer = true := by simpa using ht
      split at h
      · cases h
      · cases h
        exact k.timer s hi (hi.timer_down ht) ht hp
  | next =>
    simp only at h
    split at h
    · cases h; exact hp
    · rename_i hd rest hr
      split at h
      · cases h
      · by_cases h1 : hd = .deferredClose
        · subst h1
          exact k.deferred s s' rest hi hr hp h
        · by_cases h2 : hd = .dealloc
          · subst h2
            cases h
            refine k.dealloc s rest hi ?_ hr hp
            by_cases hs : s.state = .closed
            · exact hs
            · exact absurd (show Handler.dealloc ∈ s.ready by rw [hr]; exact List.mem_cons_self ..) (hi.alive hs).1
          · obtain ⟨p1, p2⟩ := pop_inv hi hr h1 h2
            refine k.handle _ _ _ p1 p2 (k.perm s _ _ _ hp rfl (by simp) ?_) h
            intro x; simp [hr]

theorem Keeps.run {P : St → List Handler → Prop} (k : Keeps P) {s s' : St} {es : List Event} (hi : Inv s) (hp : P s []) (h : run s es = .ok s') : P s' [] := by
  induction es generalizing s with
  | nil => cases h; exact hp
  | cons e es ih =>
    simp only [Tp.run, bind_ok] at h
    obtain ⟨t, h1, h2⟩ := h
    exact ih (step_inv hi h1) (k.step hi hp h1) h2

end Verif.Tp
