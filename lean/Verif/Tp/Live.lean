/-
A stream transport does not stall.
-/
import Verif.Tp.Keeps

namespace Verif.Tp
open Verif.Lp

/-- Something is outstanding or about to be handled whenever there is something to do. -/
structure Live (s : St) (L : List Handler) : Prop where
  rd : s.state = .up → s.reading = true ∨ ∃ h ∈ L ++ s.ready, h.isRead = true
  wr : s.state = .up → s.sendQ ≠ [] → s.writing.isSome = true ∨ ∃ h ∈ L ++ s.ready, h.isWrite = true
  ab : s.state = .up → ∀ h ∈ L ++ s.ready, h ≠ .readErr .aborted ∧ h ≠ .writeErr .aborted
  dn : s.state = .down → s.timer = true ∨ .reconnect ∈ L ++ s.ready

theorem Live.leaving {s : St} {L : List Handler} (h1 : s.state ≠ .up) (h2 : s.state ≠ .down) : Live s L :=
  ⟨fun h => absurd h h1, fun h => absurd h h1, fun h => absurd h h1, fun h => absurd h h2⟩

theorem Live.left {s s' : St} {n : TState} (hn : n = .closing ∨ n = .failed) (hs : setState s n = .ok s') (L : List Handler) : Live (doClose s') L := by
  have : s'.state = n := by
    rcases setState_ok hs with ⟨h, rfl⟩ | ⟨_, rfl⟩
    · exact h
    · rfl
  have h' : (doClose s').state = n := by simp [doClose, post, cancel_eq, this]
  refine Live.leaving ?_ ?_ <;> (rw [h']; rcases hn with rfl | rfl <;> (intro h; cases h))

/-- An error that is not `operation_aborted` leaves UP; one that is does not matter except in UP. -/
theorem processError_live {s s' : St} {x : Handler} {e : Err} (hx : x ≠ .reconnect) (ha : s.state = .up → e ≠ .aborted) (h : Live s [x])
    (hh : processError s e = .ok s') : Live s' [] := by
  unfold processError at hh
  split at hh
  · rename_i hl
    cases hh
    by_cases hup : s.state = .up
    · rcases hl with hl | hl
      · rw [hup] at hl; cases hl
      · exact absurd hl (ha hup)
    · refine ⟨fun h => absurd h hup, fun h => absurd h hup, fun h => absurd h hup, fun hd => ?_⟩
      rcases h.dn hd with h | h
      · exact .inl h
      · right
        rcases List.mem_append.1 h with h | h
        · exact absurd (List.mem_singleton.1 h).symm hx
        · exact h
  · unfold handleError at hh
    split at hh
    · simp only [bind_ok] at hh
      obtain ⟨t, h1, h2⟩ := hh
      cases h2
      have ht : t.state = .down := by
        rcases setState_ok h1 with ⟨h, rfl⟩ | ⟨_, rfl⟩
        · exact h
        · rfl
      have ht' : (post (cancel t) .reconnect).state = .down := by simp [post, cancel_eq, ht]
      refine ⟨fun h => ?_, fun h => ?_, fun h => ?_, fun _ => .inr ?_⟩
      · rw [ht'] at h; cases h
      · rw [ht'] at h; cases h
      · rw [ht'] at h; cases h
      · simp [post]
    · simp only [handleErrorBase, bind_ok] at hh
      obtain ⟨t, h1, h2⟩ := hh
      cases h2
      exact Live.left (by split <;> simp) h1 _

theorem keepsLive : Keeps Live where
  perm := by
    intro s s' L L' h he _ hm
    obtain ⟨h1, h2, h3, h4⟩ := h
    rw [he]
    refine ⟨fun hs => ?_, fun hs hq => ?_, fun hs x hx => h3 hs x ((hm x).1 hx), fun hs => ?_⟩
    · rcases h1 hs with h | ⟨x, hx, h⟩
      · exact .inl h
      · exact .inr ⟨x, (hm x).2 hx, h⟩
    · rcases h2 hs hq with h | ⟨x, hx, h⟩
      · exact .inl h
      · exact .inr ⟨x, (hm x).2 hx, h⟩
    · rcases h4 hs with h | h
      · exact .inl h
      · exact .inr ((hm _).2 h)
  send := by
    intro s p hi hu h
    have hl := hi.life
    simp only [Life, hu] at hl
    unfold send
    rw [if_pos hu]
    unfold doSend
    rw [if_neg (by simp [emit, hu])]
    simp only
    split
    · unfold sendFromQueue
      rw [if_pos (by exact hl.2.1)]
      exact ⟨h.rd, fun _ _ => .inl rfl, h.ab, h.dn⟩
    · rename_i hq
      exact ⟨h.rd, fun hs _ => h.wr hs hq, h.ab, h.dn⟩
  leave := by
    intro s s' n _ _ _ hn hs
    exact Live.left hn hs _
  persist := by
    intro s p h
    exact ⟨h.rd, h.wr, h.ab, h.dn⟩
  fall := by
    intro s s' p _ _ _ hs
    exact Live.left (.inr rfl) hs _
  write := by
    intro s w hi h
    rcases doWrite_cases s w with ⟨w', o, he, hw⟩ | ⟨o, x, he, hw, hx⟩
    · rw [he]
      exact ⟨h.rd, fun hs hq => by rw [hw]; exact h.wr hs hq, h.ab, h.dn⟩
    · rw [he]
      have hxw : x.isWrite = true := by rcases hx with rfl | ⟨e, rfl, _⟩ <;> rfl
      simp only [Option.toList_some]
      refine ⟨fun hs => ?_, fun hs hq => .inr ⟨x, by simp, hxw⟩, fun hs y hy => ?_, fun hs => ?_⟩
      · rcases h.rd hs with h | ⟨y, hy, h⟩
        · exact .inl h
        · exact .inr ⟨y, List.mem_append_right _ hy, h⟩
      · rcases List.mem_append.1 hy with hy | hy
        · cases List.mem_singleton.1 hy
          rcases hx with rfl | ⟨e, rfl, hne⟩
          · simp
          · simpa using hne
        · exact h.ab hs y hy
      · rcases h.dn hs with h | h
        · exact .inl h
        · exact .inr (List.mem_append_right _ h)
  read := by
    intro s r L hi h
    rcases doRead_cases s r with he | ⟨x, he, hr, hx⟩
    · rw [he]; exact h
    · rw [he]
      have hup := hi.reading_up hr
      have hxr : x.isRead = true := by rcases hx with ⟨c, rfl, _⟩ | ⟨e, rfl, _⟩ <;> rfl
      simp only [Option.toList_some, List.singleton_append]
      refine ⟨fun hs => .inr ⟨x, by simp, hxr⟩, fun hs hq => ?_, fun hs y hy => ?_, fun hs => ?_⟩
      · rcases h.wr hs hq with h | ⟨y, hy, h⟩
        · exact .inl h
        · exact .inr ⟨y, List.mem_cons_of_mem _ hy, h⟩
      · rcases List.mem_cons.1 hy with rfl | hy
        · rcases hx with ⟨c, rfl, _⟩ | ⟨e, rfl, hne⟩
          · simp
          · simpa using hne
        · exact h.ab hs y hy
      · rw [hup] at hs; cases hs
  handle := by
    intro s s' x hi hp h hh
    cases x with
    | readOk c =>
      simp only [handle, handleReceive] at hh
      generalize hr : parseLoop (s.recvBuf ++ c).length (s.recvBuf ++ c) = r at hh
      split at hh
      · simp only [bind_ok] at hh
        obtain ⟨t, h1, h2⟩ := hh
        cases h2
        exact Live.left (.inr rfl) h1 _
      · unfold startReceive at hh
        split at hh
        · cases hh
        · rename_i hst
          have hst : s.state = .up := by simpa using hst
          have hl := hi.life
          simp only [Life, hst] at hl
          rw [if_pos (by exact hl.2.1)] at hh
          cases hh
          refine ⟨fun _ => .inl rfl, fun hs hq => ?_, fun hs y hy => h.ab hst y (List.mem_append_right _ hy), fun hs => ?_⟩
          · rcases h.wr hst hq with h | ⟨y, hy, h⟩
            · exact .inl h
            · right
              rcases List.mem_append.1 hy with hy | hy
              · cases List.mem_singleton.1 hy; cases h
              · exact ⟨y, hy, h⟩
          · rw [show s.state = _ from hs] at hst; cases hst
    | readErr e => exact processError_live (by simp) (fun hu => by simpa using (h.ab hu (.readErr e) (by simp)).1) h hh
    | writeErr e => exact processError_live (by simp) (fun hu => by simpa using (h.ab hu (.writeErr e) (by simp)).2) h hh
    | writeOk n =>
      have hp : SendReady s n := hp
      obtain ⟨p, q, hq, hl⟩ := hp.queue
      simp only [handle, handleSend, hq] at hh
      rw [if_neg (by simp [hl])] at hh
      have hrd : ∀ (t : St), t.state = s.state → t.reading = s.reading → (∀ y ∈ s.ready, y ∈ t.ready) → t.state = .up → t.reading = true ∨ ∃ y ∈ [] ++ t.ready, y.isRead = true := by
        intro t h1 h2 h3 h4
        rcases h.rd (by rw [← h1]; exact h4) with h | ⟨y, hy, h⟩
        · exact .inl (by rw [h2]; exact h)
        · right
          rcases List.mem_append.1 hy with hy | hy
          · cases List.mem_singleton.1 hy; cases h
          · exact ⟨y, h3 y hy, h⟩
      have hdn : ∀ (t : St), t.state = s.state → t.timer = s.timer → (∀ y ∈ s.ready, y ∈ t.ready) → t.state = .down → t.timer = true ∨ .reconnect ∈ [] ++ t.ready := by
        intro t h1 h2 h3 h4
        rcases h.dn (by rw [← h1]; exact h4) with h | h
        · exact .inl (by rw [h2]; exact h)
        · right
          rcases List.mem_append.1 h with h | h
          · simp at h
          · exact h3 _ h
      cases hh
      split
      · rename_i hq0
        exact ⟨hrd _ rfl rfl (fun y hy => hy), fun _ hn => absurd hq0 hn, fun hs y hy => h.ab hs y (List.mem_append_right _ hy), hdn _ rfl rfl (fun y hy => hy)⟩
      · unfold sendFromQueue
        split
        · exact ⟨hrd _ rfl rfl (fun y hy => hy), fun _ _ => .inl rfl, fun hs y hy => h.ab hs y (List.mem_append_right _ hy), hdn _ rfl rfl (fun y hy => hy)⟩
        · rename_i hu
          refine ⟨hrd _ rfl rfl (fun y hy => List.mem_append_left _ hy), fun _ _ => .inr ⟨.writeErr .other, by simp [post], rfl⟩, ?_, hdn _ rfl rfl (fun y hy => List.mem_append_left _ hy)⟩
          intro hs
          have hl := hi.life
          simp only [post] at hs
          simp only [Life, hs] at hl
          exact absurd hl.2.1 hu
    | connectAborted =>
      cases hh
      refine ⟨fun hs => ?_, fun hs hq => ?_, fun hs y hy => h.ab hs y (List.mem_append_right _ hy), fun hs => ?_⟩
      · rcases h.rd hs with h | ⟨y, hy, h⟩
        · exact .inl h
        · rcases List.mem_append.1 hy with hy | hy
          · cases List.mem_singleton.1 hy; cases h
          · exact .inr ⟨y, hy, h⟩
      · rcases h.wr hs hq with h | ⟨y, hy, h⟩
        · exact .inl h
        · rcases List.mem_append.1 hy with hy | hy
          · cases List.mem_singleton.1 hy; cases h
          · exact .inr ⟨y, hy, h⟩
      · rcases h.dn hs with h | h
        · exact .inl h
        · rcases List.mem_append.1 h with h | h
          · simp at h
          · exact .inr h
    | deferredClose => exact hp.elim
    | dealloc => exact hp.elim
    | reconnect =>
      simp only [handle, reconnect] at hh
      split at hh
      · rename_i hl
        cases hh
        refine Live.leaving ?_ ?_
        · intro h; rw [h] at hl; cases hl
        · intro h; rw [h] at hl; cases hl
      · split at hh
        · cases hh
        · rename_i hn
          cases hh
          have hdn : s.state = .down := by
            apply Decidable.byContradiction
            intro hne
            exact hn (.inr hne)
          refine ⟨fun hs => ?_, fun hs => ?_, fun hs => ?_, fun _ => .inl ?_⟩
          · simp [emit, cancel_eq, hdn] at hs
          · simp [emit, cancel_eq, hdn] at hs
          · simp [emit, cancel_eq, hdn] at hs
          · simp [emit]
  deferred := by
    intro s s' rest hi hr h hh
    unfold deferredClose at hh
    have : s'.state = .closed := by
      rcases setState_ok hh with ⟨h, rfl⟩ | ⟨_, rfl⟩
      · exact h
      · rfl
    refine Live.leaving ?_ ?_ <;> (rw [this]; intro h; cases h)
  dealloc := by
    intro s rest hi hc hr h
    refine Live.leaving ?_ ?_ <;> (simp only [hc]; intro h; cases h)
  connect := by
    intro s hi hd hr hc h
    have hl := hi.life
    simp only [Life, hd] at hl
    have hq := (hl.2.2.2.2.2 0 hc).2.2.1
    exact ⟨fun _ => .inl rfl, fun _ hn => absurd hq hn, by simp [hr], fun hs => by cases hs⟩
  timer := by
    intro s _ hd ht h
    have hs' : (handleReconnectTimeout { s with timer := false }).state = .down := by simp [handleReconnectTimeout, post, cancel_eq, hd]
    refine ⟨fun hs => ?_, fun hs => ?_, fun hs => ?_, fun _ => .inr ?_⟩
    · rw [hs'] at hs; cases hs
    · rw [hs'] at hs; cases hs
    · rw [hs'] at hs; cases hs
    · simp [handleReconnectTimeout, post]

theorem Live.init (tcp : Bool) (p : Persist) : Live (init tcp p) [] := by
  refine ⟨fun _ => .inl rfl, fun _ h => absurd rfl h, by simp [Tp.init], fun h => by cases h⟩

end Verif.Tp
