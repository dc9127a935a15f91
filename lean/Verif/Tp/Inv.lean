/-
An invariant of stream transports.
-/
import Verif.Tp.Frame

namespace Verif.Tp
open Verif.Lp

theorem bind_ok {ε α β : Type} {x : Except ε α} {f : α → Except ε β} {b : β} : (x >>= f) = .ok b ↔ ∃ a, x = .ok a ∧ f a = .ok b := by
  cases x <;> simp [bind, Except.bind]

/-- Not the completion of an operation with success. -/
def Handler.quiet : Handler → Bool
  | .readOk _ | .writeOk _ => false
  | _ => true

def Handler.isRead : Handler → Bool
  | .readOk _ | .readErr _ => true
  | _ => false

def Handler.isWrite : Handler → Bool
  | .writeOk _ | .writeErr _ => true
  | _ => false

/-- What holds in each state. -/
def Life (s : St) : Prop :=
  match s.state with
  | .up => s.dead = false ∧ s.usable = true ∧ s.connecting = none ∧ s.timer = false ∧ s.ready.length ≤ 1 ∧
      (∀ h ∈ s.ready, h.isRead = true ∨ h.isWrite = true) ∧
      (s.reading = true → ∀ h ∈ s.ready, h.isRead = false) ∧ (s.writing.isSome → ∀ h ∈ s.ready, h.isWrite = false) ∧
      (∀ h ∈ s.ready, h.isWrite = true → s.sendQ ≠ [])
  | .down => s.dead = false ∧ s.tcp = true ∧ s.persist = .permanent ∧ s.reading = false ∧
      (∀ h ∈ s.ready, h ≠ .deferredClose ∧ h ≠ .dealloc) ∧
      (∀ b, s.connecting = some b → s.ready.length ≤ b ∧ s.writing = none ∧ s.sendQ = [] ∧ ∀ h ∈ s.ready, h.quiet = true)
  | .closing | .failed => s.dead = false ∧ s.reading = false ∧ s.writing = none ∧ s.connecting = none ∧ s.timer = false ∧ s.usable = false ∧
      .deferredClose ∈ s.ready ∧ .dealloc ∉ s.ready
  | .closed => s.reading = false ∧ s.writing = none ∧ s.connecting = none ∧ s.timer = false ∧ (s.dead = true → s.ready = []) ∧
      (s.dead = false → ∃ A, s.ready = A ++ [.dealloc] ∧ ∀ h ∈ A, h ≠ .dealloc ∧ h.quiet = true)

structure Inv (s : St) : Prop where
  head : ∀ h ∈ s.ready.tail, h.quiet = true
  wr : ∀ n, .writeOk n ∈ s.ready → s.writing = none ∧ ∃ p q, s.sendQ = p :: q ∧ p.length = n
  wq : s.writing.isSome → s.sendQ ≠ []
  life : Life s

theorem Inv.init (tcp : Bool) (p : Persist) : Inv (init tcp p) := by
  refine ⟨by simp [Tp.init], by simp [Tp.init], by simp [Tp.init], ?_⟩
  simp [Life, Tp.init]

theorem tail_append {l r : List Handler} (h : ∀ x ∈ l.tail, x.quiet = true) (hr : ∀ x ∈ r, x.quiet = true) : ∀ x ∈ (l ++ r).tail, x.quiet = true := by
  cases l with
  | nil => intro x hx; exact hr x (List.mem_of_mem_tail hx)
  | cons a l =>
    intro x hx
    simp at hx
    rcases hx with hx | hx
    · exact h x hx
    · exact hr x hx

/-- The handlers that cancelling appends. -/
def abortions (s : St) : List Handler :=
  (if s.reading then [.readErr .aborted] else []) ++ (if s.writing.isSome then [.writeErr .aborted] else []) ++
    (if s.connecting.isSome then [.connectAborted] else [])

theorem cancel_eq (s : St) : cancel s = { s with ready := s.ready ++ abortions s, reading := false, writing := none, connecting := none } := by
  simp [cancel, abortions, List.append_assoc]

theorem abortions_mem {s : St} {h : Handler} (hh : h ∈ abortions s) : h = .readErr .aborted ∨ h = .writeErr .aborted ∨ h = .connectAborted := by
  simp only [abortions, List.mem_append] at hh
  rcases hh with (hh | hh) | hh <;> (split at hh <;> simp_all)

theorem abortions_quiet {s : St} {h : Handler} (hh : h ∈ abortions s) : h.quiet = true := by
  rcases abortions_mem hh with rfl | rfl | rfl <;> rfl

theorem setState_ok {s s' : St} {n : TState} (h : setState s n = .ok s') :
    (s.state = n ∧ s' = s) ∨ (validTransition s.state n = true ∧
      s' = { s with state := n, out := s.out ++ [.state s.state n], ready := s.ready ++ (if n = .closed then [.dealloc] else []) }) := by
  unfold setState at h
  split at h
  · rename_i he; cases h; exact .inl ⟨he, rfl⟩
  · split at h
    · rename_i hv
      cases h
      right
      refine ⟨hv, ?_⟩
      split <;> simp [emit, post, *]
    · cases h

/-- No deallocation is due before CLOSED. -/
theorem Inv.alive {s : St} (h : Inv s) (hs : s.state ≠ .closed) : .dealloc ∉ s.ready ∧ s.dead = false := by
  have h4 := h.life
  cases hst : s.state with
  | up =>
    simp only [Life, hst] at h4
    refine ⟨?_, h4.1⟩
    intro hm
    rcases h4.2.2.2.2.2.1 _ hm with h | h <;> cases h
  | down =>
    simp only [Life, hst] at h4
    exact ⟨fun hm => (h4.2.2.2.2.1 _ hm).2 rfl, h4.1⟩
  | closing => simp only [Life, hst] at h4; exact ⟨h4.2.2.2.2.2.2.2, h4.1⟩
  | failed => simp only [Life, hst] at h4; exact ⟨h4.2.2.2.2.2.2.2, h4.1⟩
  | closed => exact absurd hst hs

/-- Leaving for CLOSING or FAILED. -/
theorem leave_inv {s : St} {n : TState} {out : List Out} (hn : n = .closing ∨ n = .failed) (h : Inv s) (hs : s.state ≠ .closed) :
    Inv (doClose { s with state := n, out := out }) := by
  have hc := h.alive hs
  obtain ⟨h1, h2, h3, h4⟩ := h
  have hq : ∀ x ∈ abortions { s with state := n, out := out } ++ [Handler.deferredClose], x.quiet = true := by
    intro x hx
    rcases List.mem_append.1 hx with hx | hx
    · exact abortions_quiet hx
    · cases List.mem_singleton.1 hx; rfl
  have ha : .dealloc ∉ abortions { s with state := n, out := out } := by
    intro hm; rcases abortions_mem hm with h | h | h <;> cases h
  refine ⟨?_, ?_, ?_, ?_⟩
  · simp only [doClose, post, cancel_eq, List.append_assoc]
    exact tail_append h1 hq
  · intro m hm
    simp only [doClose, post, cancel_eq, List.append_assoc] at hm ⊢
    rcases List.mem_append.1 hm with hm | hm
    · exact ⟨by simp, (h2 m hm).2⟩
    · have := hq _ hm; cases this
  · simp [doClose, post, cancel_eq]
  · rcases hn with rfl | rfl <;>
      (simp only [Life, doClose, post, cancel_eq]
       refine ⟨hc.2, by trivial, by trivial, by trivial, by trivial, by trivial, ?_, ?_⟩
       · simp
       · simp only [List.mem_append, List.mem_singleton, not_or]
         exact ⟨⟨hc.1, ha⟩, by simp⟩)

theorem setState_leave {s s' : St} {n : TState} (hn : n = .closing ∨ n = .failed) (h : Inv s)
    (hs' : setState s n = .ok s') : Inv (doClose s') := by
  rcases setState_ok hs' with ⟨he, rfl⟩ | ⟨hv, rfl⟩
  · have := leave_inv (out := s'.out) hn h (by rw [he]; rcases hn with rfl | rfl <;> (intro h; cases h))
    rw [show ({ s' with state := n, out := s'.out } : St) = s' from by rw [← he]] at this
    exact this
  · have hne : n ≠ .closed := by rcases hn with rfl | rfl <;> (intro h; cases h)
    rw [if_neg hne, List.append_nil]
    refine leave_inv hn h (fun hc => ?_)
    rw [hc] at hv; cases hv

theorem setState_leave_ok {s : St} {n : TState} (hn : n = .closing ∨ n = .failed) (hs : s.state = .up ∨ s.state = .down) : ∃ s', setState s n = .ok s' := by
  unfold setState
  rcases hs with hs | hs <;> rcases hn with rfl | rfl <;> (rw [hs]; exact ⟨_, rfl⟩)

/-- A permanent TCP transport goes down. -/
theorem down_inv {s : St} {out : List Out} (h : Inv s) (hs : s.state = .up ∨ s.state = .down) (ht : s.tcp = true) (hp : s.persist = .permanent) :
    Inv (post (cancel { s with state := .down, out := out }) .reconnect) := by
  obtain ⟨h1, h2, h3, h4⟩ := h
  have hq : ∀ x ∈ abortions { s with state := .down, out := out } ++ [Handler.reconnect], x.quiet = true := by
    intro x hx
    rcases List.mem_append.1 hx with hx | hx
    · exact abortions_quiet hx
    · cases List.mem_singleton.1 hx; rfl
  have hc : (∀ x ∈ s.ready, x ≠ .deferredClose ∧ x ≠ .dealloc) ∧ s.dead = false := by
    rcases hs with hs | hs
    · simp only [Life, hs] at h4
      refine ⟨?_, h4.1⟩
      intro x hx
      rcases h4.2.2.2.2.2.1 x hx with h | h <;> refine ⟨?_, ?_⟩ <;> (rintro rfl; cases h)
    · simp only [Life, hs] at h4
      exact ⟨h4.2.2.2.2.1, h4.1⟩
  refine ⟨?_, ?_, ?_, ?_⟩
  · simp only [post, cancel_eq, List.append_assoc]
    exact tail_append h1 hq
  · intro m hm
    simp only [post, cancel_eq, List.append_assoc] at hm ⊢
    rcases List.mem_append.1 hm with hm | hm
    · exact ⟨by simp, (h2 m hm).2⟩
    · have := hq _ hm; cases this
  · simp [post, cancel_eq]
  · simp only [Life, post, cancel_eq]
    refine ⟨hc.2, ht, hp, by trivial, ?_, ?_⟩
    · intro x hx
      rcases List.mem_append.1 hx with hx | hx
      · rcases List.mem_append.1 hx with hx | hx
        · exact hc.1 x hx
        · rcases abortions_mem hx with rfl | rfl | rfl <;> exact ⟨by simp, by simp⟩
      · cases List.mem_singleton.1 hx; exact ⟨by simp, by simp⟩
    · intro b hb; cases hb

theorem handleError_inv {s s' : St} {e : Err} (h : Inv s) (hs : s.state = .up ∨ s.state = .down) (hh : handleError s e = .ok s') : Inv s' := by
  unfold handleError at hh
  split at hh
  · rename_i hp
    simp only [bind_ok] at hh
    obtain ⟨t, h1, h2⟩ := hh
    cases h2
    rcases setState_ok h1 with ⟨he, rfl⟩ | ⟨_, rfl⟩
    · have := down_inv (out := t.out) h hs hp.1 hp.2
      rw [show ({ t with state := .down, out := t.out } : St) = t from by rw [← he]] at this
      exact this
    · simp only [reduceCtorEq, if_false, List.append_nil]
      exact down_inv h hs hp.1 hp.2
  · simp only [handleErrorBase, bind_ok] at hh
    obtain ⟨t, h1, h2⟩ := hh
    cases h2
    exact setState_leave (by split <;> simp) h h1

theorem handleError_ok {s : St} {e : Err} (hs : s.state = .up ∨ s.state = .down) : ∃ s', handleError s e = .ok s' := by
  unfold handleError
  split
  · have : ∃ t, setState s .down = .ok t := by
      unfold setState
      rcases hs with hs | hs <;> (rw [hs]; exact ⟨_, rfl⟩)
    obtain ⟨t, ht⟩ := this
    exact ⟨_, by rw [ht]; rfl⟩
  · unfold handleErrorBase
    obtain ⟨t, ht⟩ := setState_leave_ok (s := s) (n := if e = .eof then .closing else .failed) (by split <;> simp) hs
    exact ⟨_, by rw [ht]; rfl⟩

theorem not_leaving {t : TState} : leaving t = false ↔ t = .up ∨ t = .down := by cases t <;> simp [leaving]

theorem processError_inv {s s' : St} {e : Err} (h : Inv s) (hh : processError s e = .ok s') : Inv s' := by
  unfold processError at hh
  split at hh
  · cases hh; exact h
  · rename_i hn
    exact handleError_inv h (not_leaving.1 (by simpa using fun h => hn (.inl h))) hh

theorem processError_ok (s : St) (e : Err) : ∃ s', processError s e = .ok s' := by
  unfold processError
  split
  · exact ⟨_, rfl⟩
  · rename_i hn
    exact handleError_ok (not_leaving.1 (by simpa using fun h => hn (.inl h)))

/-- Changes that do not matter. -/
theorem Inv.recv {s : St} (h : Inv s) (b : Bytes) (out : List Out) : Inv { s with recvBuf := b, out := out } := by
  obtain ⟨h1, h2, h3, h4⟩ := h
  refine ⟨h1, h2, h3, ?_⟩
  unfold Life at h4 ⊢
  exact h4

theorem handleReceive_inv {s s' : St} {c : Bytes} (h : Inv s) (hr : s.reading = false ∧ (s.state = .up → ∀ x ∈ s.ready, x.isRead = false))
    (hh : handleReceive s c = .ok s') : Inv s' := by
  unfold handleReceive at hh
  simp only at hh
  split at hh
  · simp only [bind_ok] at hh
    obtain ⟨t, h1, h2⟩ := hh
    cases h2
    exact setState_leave (.inr rfl) (h.recv _ _) h1
  · unfold startReceive at hh
    split at hh
    · cases hh
    · rename_i hst
      simp at hst
      have hl := h.life
      simp only [Life, hst] at hl
      rw [if_pos hl.2.1] at hh
      cases hh
      refine ⟨h.head, h.wr, h.wq, ?_⟩
      simp only [Life, hst]
      exact ⟨hl.1, hl.2.1, hl.2.2.1, hl.2.2.2.1, hl.2.2.2.2.1, hl.2.2.2.2.2.1, fun _ => hr.2 hst, hl.2.2.2.2.2.2.2⟩

theorem handleReceive_ok {s : St} {c : Bytes} (h : Inv s) (hs : s.state = .up) : ∃ s', handleReceive s c = .ok s' := by
  have hl := h.life
  simp only [Life, hs] at hl
  unfold handleReceive
  simp only
  split
  · simp [setState, hs, validTransition, bind, Except.bind]
  · simp [startReceive, hs, hl.2.1]

theorem handleReceive_err {s : St} {c : Bytes} {f : Fault} (h : Inv s) (hh : handleReceive s c = .error f) :
    (f = .receiveNotUp ∨ f = .transition) ∧ s.state ≠ .up := by
  have hne : s.state ≠ .up := by
    intro hs
    obtain ⟨s', h'⟩ := handleReceive_ok (c := c) h hs
    rw [h'] at hh; cases hh
  refine ⟨?_, hne⟩
  unfold handleReceive at hh
  simp only at hh
  split at hh
  · unfold setState at hh
    simp only at hh
    split at hh
    · cases hh
    · split at hh
      · cases hh
      · cases hh; exact .inr rfl
  · simp [startReceive, hne] at hh; exact .inl hh.symm

/-- The state before `handleSend` is invoked without error. -/
structure SendReady (s : St) (n : Nat) : Prop where
  writing : s.writing = none
  queue : ∃ p q, s.sendQ = p :: q ∧ p.length = n
  closed : s.state ≠ .closed
  conn : s.connecting = none
  ready : ∀ m, .writeOk m ∉ s.ready
  up : s.state = .up → ∀ x ∈ s.ready, x.isWrite = false

theorem handleSend_inv {s : St} {n : Nat} (h : Inv s) (hr : SendReady s n) : ∃ s', handleSend s n = .ok s' ∧ Inv s' := by
  obtain ⟨p, q, hq, hp⟩ := hr.queue
  unfold handleSend
  rw [hq]
  simp only
  rw [if_neg (by simp [hp])]
  refine ⟨_, rfl, ?_⟩
  obtain ⟨h1, h2, h3, h4⟩ := h
  by_cases hne : q = []
  · rw [if_pos hne]
    refine ⟨h1, fun m hm => absurd hm (hr.ready m), fun hw => ?_, ?_⟩
    · simp [hr.writing] at hw
    · cases hst : s.state with
      | up =>
        simp only [Life, hst] at h4 ⊢
        refine ⟨h4.1, h4.2.1, h4.2.2.1, h4.2.2.2.1, h4.2.2.2.2.1, h4.2.2.2.2.2.1, h4.2.2.2.2.2.2.1, h4.2.2.2.2.2.2.2.1, ?_⟩
        intro x hx h
        rw [hr.up hst x hx] at h; cases h
      | down =>
        simp only [Life, hst] at h4 ⊢
        exact ⟨h4.1, h4.2.1, h4.2.2.1, h4.2.2.2.1, h4.2.2.2.2.1, fun b hb => by rw [hr.conn] at hb; cases hb⟩
      | closing => simp only [Life, hst] at h4 ⊢; exact h4
      | failed => simp only [Life, hst] at h4 ⊢; exact h4
      | closed => simp only [Life, hst] at h4 ⊢; exact h4
  · rw [if_neg hne]
    unfold sendFromQueue
    split
    · rename_i hu
      refine ⟨h1, fun m hm => absurd hm (hr.ready m), fun _ => hne, ?_⟩
      cases hst : s.state with
      | up =>
        simp only [Life, hst] at h4 ⊢
        exact ⟨h4.1, h4.2.1, h4.2.2.1, h4.2.2.2.1, h4.2.2.2.2.1, h4.2.2.2.2.2.1, h4.2.2.2.2.2.2.1, fun _ => hr.up hst,
          fun _ _ _ => hne⟩
      | down =>
        simp only [Life, hst] at h4 ⊢
        exact ⟨h4.1, h4.2.1, h4.2.2.1, h4.2.2.2.1, h4.2.2.2.2.1, fun b hb => by rw [hr.conn] at hb; cases hb⟩
      | closing => simp only [Life, hst] at h4; exact absurd (hu.symm.trans h4.2.2.2.2.2.1) (by simp)
      | failed => simp only [Life, hst] at h4; exact absurd (hu.symm.trans h4.2.2.2.2.2.1) (by simp)
      | closed => exact absurd hst hr.closed
    · rename_i hu
      refine ⟨tail_append h1 (by simp [Handler.quiet]), ?_, fun hw => ?_, ?_⟩
      · intro m hm
        simp only [post, List.mem_append, List.mem_singleton, reduceCtorEq, or_false] at hm
        exact absurd hm (hr.ready m)
      · simp [post, hr.writing] at hw
      · cases hst : s.state with
        | up => simp only [Life, hst] at h4; exact absurd h4.2.1 hu
        | down =>
          simp only [Life, hst, post] at h4 ⊢
          refine ⟨h4.1, h4.2.1, h4.2.2.1, h4.2.2.2.1, ?_, fun b hb => by rw [hr.conn] at hb; cases hb⟩
          intro x hx
          rcases List.mem_append.1 hx with hx | hx
          · exact h4.2.2.2.2.1 x hx
          · cases List.mem_singleton.1 hx; exact ⟨by simp, by simp⟩
        | closing =>
          simp only [Life, hst, post] at h4 ⊢
          refine ⟨h4.1, h4.2.1, h4.2.2.1, h4.2.2.2.1, h4.2.2.2.2.1, h4.2.2.2.2.2.1, List.mem_append_left _ h4.2.2.2.2.2.2.1, ?_⟩
          simp [h4.2.2.2.2.2.2.2]
        | failed =>
          simp only [Life, hst, post] at h4 ⊢
          refine ⟨h4.1, h4.2.1, h4.2.2.1, h4.2.2.2.1, h4.2.2.2.2.1, h4.2.2.2.2.2.1, List.mem_append_left _ h4.2.2.2.2.2.2.1, ?_⟩
          simp [h4.2.2.2.2.2.2.2]
        | closed => exact absurd hst hr.closed

theorem reconnect_inv {s : St} (h : Inv s) (hs : s.state ≠ .up) (hq : ∀ x ∈ s.ready, x.quiet = true) : ∃ s', reconnect s = .ok s' ∧ Inv s' := by
  unfold reconnect
  split
  · exact ⟨s, rfl, h⟩
  · rename_i hl
    have hst : s.state = .down := by
      rcases not_leaving.1 (by simpa using hl) with h | h
      · exact absurd h hs
      · exact h
    have h4 := h.life
    simp only [Life, hst] at h4
    rw [if_neg (by simp [h4.2.2.1, hst])]
    refine ⟨_, rfl, ?_⟩
    have hqa : ∀ x ∈ s.ready ++ abortions s, x.quiet = true := by
      intro x hx
      rcases List.mem_append.1 hx with hx | hx
      · exact hq x hx
      · exact abortions_quiet hx
    refine ⟨?_, ?_, ?_, ?_⟩
    · intro x hx
      simp only [emit, cancel_eq] at hx
      exact hqa x (List.mem_of_mem_tail hx)
    · intro m hm
      simp only [emit, cancel_eq] at hm
      have := hqa _ hm; cases this
    · simp [emit, cancel_eq]
    · simp only [Life, emit, cancel_eq, hst]
      refine ⟨h4.1, h4.2.1, h4.2.2.1, by trivial, ?_, ?_⟩
      · intro x hx
        rcases List.mem_append.1 hx with hx | hx
        · exact h4.2.2.2.2.1 x hx
        · rcases abortions_mem hx with rfl | rfl | rfl <;> exact ⟨by simp, by simp⟩
      · intro b hb
        cases hb
        exact ⟨Nat.le_refl _, by trivial, by trivial, hqa⟩

/-- The state before a handler is invoked, other than the last ones in the life of a transport. -/
def Pre (s : St) : Handler → Prop
  | .readOk _ => (s.reading = false ∧ (s.state = .up → ∀ x ∈ s.ready, x.isRead = false)) ∧ ∀ c, .readOk c ∉ s.ready
  | .writeOk n => SendReady s n
  | .readErr _ | .writeErr _ | .connectAborted => True
  | .reconnect => s.state ≠ .up ∧ ∀ x ∈ s.ready, x.quiet = true
  | .deferredClose | .dealloc => False

theorem handle_inv {s s' : St} {h : Handler} (hi : Inv s) (hp : Pre s h) (hh : handle s h = .ok s') : Inv s' := by
  cases h with
  | readOk c => exact handleReceive_inv hi hp.1 hh
  | readErr e => exact processError_inv hi hh
  | writeOk n =>
    obtain ⟨t, h1, h2⟩ := handleSend_inv hi hp
    simp only [handle, h1] at hh; cases hh; exact h2
  | writeErr e => exact processError_inv hi hh
  | connectAborted => cases hh; exact hi
  | deferredClose => exact hp.elim
  | reconnect =>
    obtain ⟨t, h1, h2⟩ := reconnect_inv hi hp.1 hp.2
    simp only [handle, h1] at hh; cases hh; exact h2
  | dealloc => exact hp.elim

/-- The only faults, and when they may occur. -/
def Excuse (s : St) (h : Handler) (f : Fault) : Prop := (f = .receiveNotUp ∨ f = .transition) ∧ s.state ≠ .up ∧ ∃ c, h = .readOk c

theorem handle_err {s : St} {h : Handler} {f : Fault} (hi : Inv s) (hp : Pre s h) (hh : handle s h = .error f) : Excuse s h f := by
  cases h with
  | readOk c => exact ⟨(handleReceive_err hi hh).1, (handleReceive_err hi hh).2, c, rfl⟩
  | readErr e => obtain ⟨t, ht⟩ := processError_ok s e; simp only [handle, ht] at hh; cases hh
  | writeOk n =>
    obtain ⟨t, h1, h2⟩ := handleSend_inv hi hp
    simp only [handle, h1] at hh; cases hh
  | writeErr e => obtain ⟨t, ht⟩ := processError_ok s e; simp only [handle, ht] at hh; cases hh
  | connectAborted => cases hh
  | deferredClose => exact hp.elim
  | reconnect =>
    obtain ⟨t, h1, h2⟩ := reconnect_inv hi hp.1 hp.2
    simp only [handle, h1] at hh; cases hh
  | dealloc => exact hp.elim

/-- The state when the first handler in the queue is taken out. -/
abbrev popped (s : St) (rest : List Handler) : St := { s with ready := rest, connecting := s.connecting.map (· - 1) }

theorem pop_inv {s : St} {h : Handler} {rest : List Handler} (hi : Inv s) (hr : s.ready = h :: rest) (hc : h ≠ .deferredClose) (hd : h ≠ .dealloc) :
    Inv (popped s rest) ∧ Pre (popped s rest) h := by
  obtain ⟨h1, h2, h3, h4⟩ := hi
  have hq : ∀ x ∈ rest, x.quiet = true := by rw [hr] at h1; exact h1
  have hnw : ∀ m, .writeOk m ∉ rest := fun m hm => by have := hq _ hm; cases this
  have hmem : h ∈ s.ready := by rw [hr]; exact List.mem_cons_self ..
  constructor
  · refine ⟨fun x hx => hq x (List.mem_of_mem_tail hx), fun m hm => absurd hm (hnw m), h3, ?_⟩
    cases hst : s.state with
    | up =>
      simp only [Life, hst] at h4 ⊢
      obtain ⟨a1, a2, a3, a4, a5, a6, a7, a8, a9⟩ := h4
      have hrest : rest = [] := by
        rw [hr] at a5
        cases rest with
        | nil => rfl
        | cons x l => simp at a5
      subst hrest
      refine ⟨a1, a2, by simp [a3], a4, by simp, by simp, by simp, by simp, by simp⟩
    | down =>
      simp only [Life, hst] at h4 ⊢
      obtain ⟨a1, a2, a3, a4, a5, a6⟩ := h4
      refine ⟨a1, a2, a3, a4, fun x hx => a5 x (by rw [hr]; exact List.mem_cons_of_mem _ hx), ?_⟩
      intro b hb
      cases hcn : s.connecting with
      | none => rw [hcn] at hb; cases hb
      | some b' =>
        rw [hcn] at hb
        cases hb
        have := a6 b' hcn
        rw [hr] at this
        simp only [List.length_cons] at this
        exact ⟨by show rest.length ≤ b' - 1; omega, this.2.1, this.2.2.1, hq⟩
    | closing =>
      simp only [Life, hst] at h4 ⊢
      obtain ⟨a1, a2, a3, a4, a5, a6, a7, a8⟩ := h4
      rw [hr] at a7 a8
      refine ⟨a1, a2, a3, by simp [a4], a5, a6, ?_, fun h => a8 (List.mem_cons_of_mem _ h)⟩
      rcases List.mem_cons.1 a7 with h | h
      · exact absurd h.symm hc
      · exact h
    | failed =>
      simp only [Life, hst] at h4 ⊢
      obtain ⟨a1, a2, a3, a4, a5, a6, a7, a8⟩ := h4
      rw [hr] at a7 a8
      refine ⟨a1, a2, a3, by simp [a4], a5, a6, ?_, fun h => a8 (List.mem_cons_of_mem _ h)⟩
      rcases List.mem_cons.1 a7 with h | h
      · exact absurd h.symm hc
      · exact h
    | closed =>
      simp only [Life, hst] at h4 ⊢
      obtain ⟨a1, a2, a3, a4, a5, a6⟩ := h4
      refine ⟨a1, a2, by simp [a3], a4, fun hd => (by rw [hr] at a5; exact absurd (a5 hd) (by simp)), fun hd => ?_⟩
      obtain ⟨A, hA, hq'⟩ := a6 hd
      rw [hr] at hA
      cases A with
      | nil => simp at hA; exact absurd hA.1 (by assumption)
      | cons x A =>
        simp at hA
        exact ⟨A, hA.2, fun y hy => hq' y (List.mem_cons_of_mem _ hy)⟩
  · cases h with
    | readOk c =>
      refine ⟨?_, fun c hc => (by have := hq _ hc; cases this)⟩
      cases hst : s.state with
      | up =>
        simp only [Life, hst] at h4
        obtain ⟨a1, a2, a3, a4, a5, a6, a7, a8, a9⟩ := h4
        refine ⟨?_, fun _ => ?_⟩
        · cases hre : s.reading with
          | false => rfl
          | true => exact absurd (a7 hre _ hmem) (by simp [Handler.isRead])
        · rw [hr] at a5
          cases rest with
          | nil => simp
          | cons x l => simp at a5
      | down => simp only [Life, hst] at h4; exact ⟨h4.2.2.2.1, fun h => by simp [hst] at h⟩
      | closing => simp only [Life, hst] at h4; exact ⟨h4.2.1, fun h => by simp [hst] at h⟩
      | failed => simp only [Life, hst] at h4; exact ⟨h4.2.1, fun h => by simp [hst] at h⟩
      | closed => simp only [Life, hst] at h4; exact ⟨h4.1, fun h => by simp [hst] at h⟩
    | readErr e => trivial
    | writeErr e => trivial
    | connectAborted => trivial
    | writeOk n =>
      obtain ⟨b1, b2⟩ := h2 n hmem
      refine ⟨b1, b2, ?_, ?_, hnw, ?_⟩
      · intro hst
        simp only [popped] at hst
        simp only [Life, hst] at h4
        cases hde : s.dead with
        | true => have := h4.2.2.2.2.1 hde; rw [this] at hmem; cases hmem
        | false =>
          obtain ⟨A, hA, hq'⟩ := h4.2.2.2.2.2 hde
          rw [hA] at hmem
          rcases List.mem_append.1 hmem with hm | hm
          · exact absurd (hq' _ hm).2 (by simp [Handler.quiet])
          · simp at hm
      · simp only [popped]
        cases hcn : s.connecting with
        | none => rfl
        | some b =>
          cases hst : s.state with
          | up => simp only [Life, hst] at h4; rw [h4.2.2.1] at hcn; cases hcn
          | down => simp only [Life, hst] at h4; have := (h4.2.2.2.2.2 b hcn).2.2.2 _ hmem; cases this
          | closing => simp only [Life, hst] at h4; rw [h4.2.2.2.1] at hcn; cases hcn
          | failed => simp only [Life, hst] at h4; rw [h4.2.2.2.1] at hcn; cases hcn
          | closed => simp only [Life, hst] at h4; rw [h4.2.2.1] at hcn; cases hcn
      · intro hst
        simp only [popped] at hst
        simp only [Life, hst] at h4
        have a5 := h4.2.2.2.2.1
        rw [hr] at a5
        cases rest with
        | nil => simp
        | cons x l => simp at a5
    | reconnect =>
      refine ⟨fun hst => ?_, hq⟩
      simp only [popped] at hst
      simp only [Life, hst] at h4
      rcases h4.2.2.2.2.2.1 _ hmem with h | h <;> cases h
    | deferredClose => exact absurd rfl hc
    | dealloc => exact absurd rfl hd

theorem deferredClose_inv {s : St} {rest : List Handler} (hi : Inv s) (hr : s.ready = .deferredClose :: rest) :
    ∃ s', deferredClose (popped s rest) = .ok s' ∧ Inv s' := by
  obtain ⟨h1, h2, h3, h4⟩ := hi
  have hq : ∀ x ∈ rest, x.quiet = true := by rw [hr] at h1; exact h1
  have hmem : .deferredClose ∈ s.ready := by rw [hr]; exact List.mem_cons_self ..
  have key : s.reading = false ∧ s.writing = none ∧ s.connecting = none ∧ s.timer = false ∧ s.state ≠ .up ∧ s.state ≠ .down := by
    cases hst : s.state with
    | up => simp only [Life, hst] at h4; rcases h4.2.2.2.2.2.1 _ hmem with h | h <;> cases h
    | down => simp only [Life, hst] at h4; exact absurd rfl (h4.2.2.2.2.1 _ hmem).1
    | closing => simp only [Life, hst] at h4; exact ⟨h4.2.1, h4.2.2.1, h4.2.2.2.1, h4.2.2.2.2.1, by simp, by simp⟩
    | failed => simp only [Life, hst] at h4; exact ⟨h4.2.1, h4.2.2.1, h4.2.2.2.1, h4.2.2.2.2.1, by simp, by simp⟩
    | closed => simp only [Life, hst] at h4; exact ⟨h4.1, h4.2.1, h4.2.2.1, h4.2.2.2.1, by simp, by simp⟩
  obtain ⟨k1, k2, k3, k4, k5, k6⟩ := key
  have hcan : cancel { popped s rest with sendQ := [] } = { s with ready := rest, sendQ := [] } := by
    simp [cancel, popped, k1, k2, k3]
  unfold deferredClose
  rw [hcan]
  by_cases hst : s.state = .closed
  · refine ⟨{ s with ready := rest, sendQ := [], usable := false }, by simp only [setState]; rw [if_pos hst],
      fun x hx => hq x (List.mem_of_mem_tail hx), fun m hm => ?_, fun hw => ?_, ?_⟩
    · have := hq _ hm; cases this
    · simp [k2] at hw
    · simp only [Life, hst] at h4 ⊢
      obtain ⟨a1, a2, a3, a4, a5, a6⟩ := h4
      refine ⟨a1, a2, a3, a4, fun hd => (by rw [hr] at a5; exact absurd (a5 hd) (by simp)), fun hd => ?_⟩
      obtain ⟨A, hA, hq'⟩ := a6 hd
      rw [hr] at hA
      cases A with
      | nil => simp at hA
      | cons x A =>
        simp at hA
        exact ⟨A, hA.2, fun y hy => hq' y (List.mem_cons_of_mem _ hy)⟩
  · have hl : .dealloc ∉ s.ready ∧ s.dead = false := Inv.alive ⟨h1, h2, h3, h4⟩ hst
    have hv : validTransition s.state .closed = true := by
      cases hs : s.state <;> simp_all [validTransition]
    refine ⟨_, by simp only [setState]; rw [if_neg hst, if_pos hv], ?_, ?_, ?_, ?_⟩
    · simp only [if_pos, post, emit]
      exact tail_append (fun x hx => hq x (List.mem_of_mem_tail hx)) (by simp [Handler.quiet])
    · intro m hm
      simp only [if_pos, post, emit] at hm
      rcases List.mem_append.1 hm with hm | hm
      · have := hq _ hm; cases this
      · simp at hm
    · simp [post, emit, k2]
    · simp only [Life, if_pos, post, emit]
      refine ⟨k1, k2, k3, k4, fun hd => (by rw [hl.2] at hd; cases hd), fun _ => ⟨rest, rfl, ?_⟩⟩
      intro x hx
      refine ⟨?_, hq x hx⟩
      rintro rfl
      exact hl.1 (by rw [hr]; exact List.mem_cons_of_mem _ hx)

theorem dealloc_inv {s : St} {rest : List Handler} (hi : Inv s) (hr : s.ready = .dealloc :: rest) : Inv { popped s rest with dead := true } := by
  have hmem : .dealloc ∈ s.ready := by rw [hr]; exact List.mem_cons_self ..
  have hst : s.state = .closed := by
    by_cases h : s.state = .closed
    · exact h
    · exact absurd hmem (hi.alive h).1
  obtain ⟨h1, h2, h3, h4⟩ := hi
  have hq : ∀ x ∈ rest, x.quiet = true := by rw [hr] at h1; exact h1
  refine ⟨fun x hx => hq x (List.mem_of_mem_tail hx), fun m hm => (by have := hq _ hm; cases this), h3, ?_⟩
  simp only [Life, hst] at h4 ⊢
  obtain ⟨a1, a2, a3, a4, a5, a6⟩ := h4
  refine ⟨a1, a2, by simp [a3], a4, fun _ => ?_, fun hd => by cases hd⟩
  cases hd : s.dead with
  | true => rw [a5 hd] at hr; cases hr
  | false =>
    obtain ⟨A, hA, hq'⟩ := a6 hd
    rw [hr] at hA
    cases A with
    | nil => simpa using hA
    | cons x A =>
      simp at hA
      exact absurd hA.1.symm (hq' x (List.mem_cons_self ..)).1

end Verif.Tp
