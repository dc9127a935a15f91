/-
The effects of a stream transport in terms of its states; the timeouts of its connection attempts.
-/
import Verif.Tp.Keeps
import Verif.Tp.Spec

namespace Verif.Tp
open Verif.Lp

theorem Path.setState {t : TState} {s s' : St} {n : TState} (h : Path t s.out s.state) (hs : setState s n = .ok s') : Path t s'.out s'.state := by
  rcases setState_ok hs with ⟨_, rfl⟩ | ⟨hv, rfl⟩
  · exact h
  · refine h.snoc (.state ?_)
    revert hv
    cases s.state <;> cases n <;> simp [validTransition] <;> constructor

theorem Path.delivers {t : TState} {o : List Out} : ∀ {l : List Bytes}, Path t o .up → Path t (o ++ l.map .deliver) .up := by
  intro l
  induction l generalizing o with
  | nil => intro h; simpa using h
  | cons p l ih =>
    intro h
    have := ih (h.snoc (.deliver (p := p)))
    simpa [List.append_assoc] using this

theorem handleError_path {t : TState} {s s' : St} {e : Err} (h : Path t s.out s.state) (hh : handleError s e = .ok s') : Path t s'.out s'.state := by
  unfold handleError at hh
  split at hh
  · simp only [bind_ok] at hh
    obtain ⟨u, h1, h2⟩ := hh
    cases h2
    have := h.setState h1
    simpa [post, cancel_eq] using this
  · simp only [handleErrorBase, bind_ok] at hh
    obtain ⟨u, h1, h2⟩ := hh
    cases h2
    have := h.setState h1
    simpa [doClose, post, cancel_eq] using this

theorem processError_path {t : TState} {s s' : St} {e : Err} (h : Path t s.out s.state) (hh : processError s e = .ok s') : Path t s'.out s'.state := by
  unfold processError at hh
  split at hh
  · cases hh; exact h
  · exact handleError_path h hh

theorem handleReceive_path {t : TState} {s s' : St} {c : Bytes} (h : Path t s.out s.state) (hh : handleReceive s c = .ok s') : Path t s'.out s'.state := by
  unfold handleReceive at hh
  extract_lets buf r s1 at hh
  have hne : s.state ≠ .closed := by
    intro hc
    split at hh
    · simp [bind, Except.bind, setState, s1, hc, validTransition] at hh
    · simp [startReceive, s1, hc] at hh
  have hrd : Path t (s.out ++ [.read c]) s.state := h.snoc (.read hne)
  split at hh
  · rename_i hov
    simp only [bind_ok] at hh
    obtain ⟨u, h1, h2⟩ := hh
    cases h2
    have hs1 : Path t s1.out s1.state := by
      simp only [s1]
      rw [hov.2]
      exact hrd
    have := hs1.setState h1
    simpa [doClose, post, cancel_eq] using this
  · unfold startReceive at hh
    split at hh
    · cases hh
    · rename_i hu
      have hu : s.state = .up := by simpa [s1] using hu
      have hs1 : Path t s1.out s1.state := by
        simp only [s1, hu]
        rw [hu] at hrd
        have := hrd.delivers (l := r.1)
        simpa [List.append_assoc] using this
      split at hh
      · cases hh; exact hs1
      · cases hh; exact hs1

theorem handle_path {t : TState} {s s' : St} {x : Handler} (h : Path t s.out s.state) (hd : x ≠ .deferredClose) (hh : handle s x = .ok s') : Path t s'.out s'.state := by
  cases x with
  | readOk c => exact handleReceive_path h hh
  | readErr e => exact processError_path h hh
  | writeErr e => exact processError_path h hh
  | writeOk n =>
    simp only [handle, handleSend] at hh
    split at hh
    · cases hh
    · split at hh
      · cases hh
      · cases hh
        split
        · exact h
        · unfold sendFromQueue
          split
          · exact h
          · exact h
  | connectAborted => cases hh; exact h
  | deferredClose => exact absurd rfl hd
  | reconnect =>
    simp only [handle, reconnect] at hh
    split at hh
    · cases hh; exact h
    · split at hh
      · cases hh
      · rename_i hn
        cases hh
        have hdn : s.state = .down := by
          apply Decidable.byContradiction
          intro hne
          exact hn (.inr hne)
        simp only [emit, cancel_eq, hdn]
        rw [hdn] at h
        exact h.snoc .connecting
  | dealloc => cases hh; exact h

theorem keepsPath : Keeps (fun s _ => Path .up s.out s.state) where
  perm := by
    intro s s' L L' h he _ _
    rw [he]; exact h
  send := by
    intro s p _ hu h
    unfold send
    rw [if_pos hu]
    have : Path .up (emit s (.accepted p)).out (emit s (.accepted p)).state := by
      simp only [emit, hu]
      rw [hu] at h
      exact h.snoc .accepted
    unfold doSend
    split
    · exact this
    · simp only
      split
      · unfold sendFromQueue
        split
        · exact this
        · exact this
      · exact this
  leave := by
    intro s s' n _ h _ _ hs
    have := h.setState hs
    simpa [doClose, post, cancel_eq] using this
  persist := by intro s p h; exact h
  fall := by
    intro s s' p _ h _ hs
    have := Path.setState (s := { s with persist := p }) h hs
    simpa [doClose, post, cancel_eq] using this
  write := by
    intro s w hi h
    have key : ∀ (b : Bytes), s.writing.isSome = true → Path .up (s.out ++ [.wire b]) s.state := by
      intro b hw
      rcases (hi.writing_state hw).1 with hst | hst
      · rw [hst] at h ⊢; exact h.snoc .wireUp
      · rw [hst] at h ⊢; exact h.snoc .wireDown
    unfold doWrite
    split
    · rename_i rest n hw
      extract_lets s1
      have hs1 : Path .up s1.out s1.state := by
        simp only [s1]
        split
        · exact h
        · exact key _ (by simp [hw])
      split
      · exact hs1
      · exact hs1
    · split
      · exact h
      · exact h
    · exact h
  read := by
    intro s r L _ h
    rcases doRead_cases s r with h1 | ⟨x, h1, _⟩
    · rw [h1]; exact h
    · rw [h1]; exact h
  handle := by
    intro s s' x _ hp h hh
    exact handle_path h (by rintro rfl; exact hp) hh
  deferred := by
    intro s s' rest _ _ h hh
    unfold deferredClose at hh
    refine Path.setState ?_ hh
    simpa [cancel_eq] using h
  dealloc := by intro s rest _ _ _ h; exact h
  connect := by
    intro s _ hd _ _ h
    rw [hd] at h
    exact (h.snoc .connected).snoc (.state .goUp)
  timer := by
    intro s _ _ _ h
    simpa [handleReconnectTimeout, post, cancel_eq] using h

/-! ### Timeouts of connection attempts -/

/-- What the transport remembers about its last connection attempt. -/
def Waits (s : St) : Prop :=
  ∃ w, Backoff s.out w ∧ (s.connecting.isSome = true → w.isSome = true) ∧ match w with
    | none => s.wait = 1000 ∧ s.timer = false
    | some w => s.wait = w ∨ (s.wait = min (2 * w) 300000 ∧ s.timer = false)

theorem Backoff.outs {o o' : List Out} {w : Option Nat} (h : Backoff o w) (ho : ∀ x ∈ o', (∀ n, x ≠ .connecting n) ∧ x ≠ .connected) : Backoff (o ++ o') w := by
  induction o' generalizing o with
  | nil => simpa using h
  | cons x l ih =>
    have := ih (h.other (ho x (List.mem_cons_self ..)).1 (ho x (List.mem_cons_self ..)).2) (fun y hy => ho y (List.mem_cons_of_mem _ hy))
    simpa [List.append_assoc] using this

theorem Waits.same {s s' : St} {o : List Out} (h : Waits s) (ho : s'.out = s.out ++ o) (hx : ∀ x ∈ o, (∀ n, x ≠ .connecting n) ∧ x ≠ .connected)
    (hw : s'.wait = s.wait) (hc : s'.connecting.isSome = true → s.connecting.isSome = true) (ht : s'.timer = s.timer ∨ s'.timer = false) : Waits s' := by
  obtain ⟨w, h1, h3, h2⟩ := h
  refine ⟨w, by rw [ho]; exact h1.outs hx, fun h => h3 (hc h), ?_⟩
  have ht' : s.timer = false → s'.timer = false := by
    intro h; rcases ht with ht | ht
    · rw [ht]; exact h
    · exact ht
  cases w with
  | none => exact ⟨by rw [hw]; exact h2.1, ht' h2.2⟩
  | some w =>
    rcases h2 with h2 | h2
    · exact .inl (by rw [hw]; exact h2)
    · exact .inr ⟨by rw [hw]; exact h2.1, ht' h2.2⟩

theorem Waits.setState {s s' : St} {n : TState} (h : Waits s) (hs : setState s n = .ok s') : Waits s' := by
  rcases setState_ok hs with ⟨_, rfl⟩ | ⟨_, rfl⟩
  · exact h
  · exact h.same rfl (by simp) rfl id (.inl rfl)

theorem Waits.doClose {s : St} (h : Waits s) : Waits (doClose s) := by
  refine h.same (o := []) ?_ (by simp) ?_ ?_ (.inr ?_) <;> simp [Tp.doClose, post, cancel_eq]

theorem processError_waits {s s' : St} {e : Err} (h : Waits s) (hh : processError s e = .ok s') : Waits s' := by
  unfold processError at hh
  split at hh
  · cases hh; exact h
  · unfold handleError at hh
    split at hh
    · simp only [bind_ok] at hh
      obtain ⟨u, h1, h2⟩ := hh
      cases h2
      refine (h.setState h1).same (o := []) ?_ (by simp) ?_ ?_ (.inl ?_) <;> simp [post, cancel_eq]
    · simp only [handleErrorBase, bind_ok] at hh
      obtain ⟨u, h1, h2⟩ := hh
      cases h2
      exact (h.setState h1).doClose

theorem keepsWaits : Keeps (fun s _ => Waits s ∧ (s.timer = true → s.state = .down)) where
  perm := by
    intro s s' L L' h he hc _
    rw [he]
    exact ⟨h.1.same (o := []) (by simp) (by simp) rfl hc (.inl rfl), h.2⟩
  send := by
    intro s p _ hu h
    have h0 : Waits (emit s (.accepted p)) := h.1.same (o := [.accepted p]) rfl (by simp) rfl id (.inl rfl)
    unfold send
    rw [if_pos hu]
    unfold doSend
    split
    · exact ⟨h0, h.2⟩
    · simp only
      split
      · unfold sendFromQueue
        split
        · exact ⟨h0, h.2⟩
        · exact ⟨h0, h.2⟩
      · exact ⟨h0, h.2⟩
  leave := by
    intro s s' n _ h _ _ hs
    exact ⟨(h.1.setState hs).doClose, by simp [doClose, post]⟩
  persist := by intro s p h; exact h
  fall := by
    intro s s' p _ h _ hs
    exact ⟨(Waits.setState (s := { s with persist := p }) h.1 hs).doClose, by simp [doClose, post]⟩
  write := by
    intro s w hi h
    unfold doWrite
    split
    · rename_i rest n hw
      extract_lets s1
      have hs1 : Waits s1 ∧ (s1.timer = true → s1.state = .down) := by
        simp only [s1]
        split
        · exact h
        · exact ⟨h.1.same (o := [.wire _]) rfl (by simp) rfl id (.inl rfl), h.2⟩
      split
      · exact hs1
      · exact hs1
    · split
      · exact h
      · exact h
    · exact h
  read := by
    intro s r L _ h
    rcases doRead_cases s r with h1 | ⟨x, h1, _⟩
    · rw [h1]; exact h
    · rw [h1]; exact h
  handle := by
    intro s s' x hi hp h hh
    have hi' := handle_inv hi hp hh
    refine ⟨?_, fun ht => hi'.timer_down ht⟩
    replace h := h.1
    cases x with
    | readOk c =>
      simp only [handle, handleReceive] at hh
      generalize hr : parseLoop (s.recvBuf ++ c).length (s.recvBuf ++ c) = r at hh
      have hs1 : Waits { s with recvBuf := r.2, out := s.out ++ .read c :: r.1.map .deliver } := by
        refine h.same rfl ?_ rfl id (.inl rfl)
        intro x hx
        rcases List.mem_cons.1 hx with rfl | hx
        · simp
        · simp only [List.mem_map] at hx
          obtain ⟨p, _, rfl⟩ := hx
          simp
      split at hh
      · simp only [bind_ok] at hh
        obtain ⟨u, h1, h2⟩ := hh
        cases h2
        exact (hs1.setState h1).doClose
      · unfold startReceive at hh
        split at hh
        · cases hh
        · split at hh
          · cases hh; exact hs1
          · cases hh; exact hs1
    | readErr e => exact processError_waits h hh
    | writeErr e => exact processError_waits h hh
    | writeOk n =>
      simp only [handle, handleSend] at hh
      split at hh
      · cases hh
      · split at hh
        · cases hh
        · cases hh
          split
          · exact h
          · unfold sendFromQueue
            split
            · exact h
            · exact h
    | connectAborted => cases hh; exact h
    | deferredClose => exact hp.elim
    | dealloc => exact hp.elim
    | reconnect =>
      simp only [handle, reconnect] at hh
      split at hh
      · cases hh; exact h
      · split at hh
        · cases hh
        · cases hh
          obtain ⟨w, h1, h3, h2⟩ := h
          simp only [emit, cancel_eq]
          cases w with
          | none => rw [h2.1]; exact ⟨some 1000, h1.first, fun _ => rfl, .inl rfl⟩
          | some w =>
            rcases h2 with h2 | h2
            · rw [h2]; exact ⟨some w, h1.again, fun _ => rfl, .inl rfl⟩
            · rw [h2.1]; exact ⟨some _, h1.longer, fun _ => rfl, .inl rfl⟩
  deferred := by
    intro s s' rest hi hr h hh
    have h0 : Waits { cancel { popped s rest with sendQ := [] } with usable := false } :=
      h.1.same (o := []) (by simp [cancel_eq]) (by simp) (by simp [cancel_eq]) (by simp [cancel_eq]) (.inl (by simp [cancel_eq]))
    refine ⟨Waits.setState h0 hh, ?_⟩
    obtain ⟨t, h1, h2⟩ := deferredClose_inv hi hr
    rw [h1] at hh; cases hh
    exact fun ht => h2.timer_down ht
  dealloc := by intro s rest _ _ _ h; exact ⟨h.1.same (o := []) (by simp) (by simp) rfl (by simp) (.inl rfl), h.2⟩
  connect := by
    intro s hi hd hr hc h
    refine ⟨?_, fun h => (by cases h)⟩
    obtain ⟨⟨w, h1, h3, h2⟩, _⟩ := h
    cases w with
    | none => have := h3 (by rw [hc]; rfl); cases this
    | some w =>
      refine ⟨none, ?_, fun h => (by cases h), rfl, rfl⟩
      exact h1.connected.other (by simp) (by simp)
  timer := by
    intro s _ hd ht h
    obtain ⟨⟨w, h1, _, h2⟩, h3⟩ := h
    refine ⟨⟨w, by simpa [handleReconnectTimeout, post, cancel_eq] using h1, by simp [handleReconnectTimeout, post, cancel_eq], ?_⟩, fun _ => hd⟩
    cases w with
    | none => rw [h2.2] at ht; cases ht
    | some w =>
      rcases h2 with h2 | h2
      · right
        simp [handleReconnectTimeout, post, cancel_eq, h2, Nat.mul_comm]
      · rw [h2.2] at ht; cases ht

end Verif.Tp
