/-
A transport that is closed or has failed gets to CLOSED and is deallocated.
-/
import Verif.Tp.Trace

namespace Verif.Tp
open Verif.Lp

def left (s : St) : Nat := s.ready.length + if s.state = .closed then 0 else 1

theorem next_quiet {s : St} (hi : Inv s) (hl : leaving s.state = true) (hq : ∀ x ∈ s.ready, x.quiet = true) (hne : s.ready ≠ []) :
    ∃ s', step s .next = .ok s' ∧ leaving s'.state = true ∧ (∀ x ∈ s'.ready, x.quiet = true) ∧ left s' < left s := by
  cases hr : s.ready with
  | nil => exact absurd hr hne
  | cons h rest =>
    have hqr : ∀ x ∈ rest, x.quiet = true := fun x hx => hq x (by rw [hr]; exact List.mem_cons_of_mem _ hx)
    have hd : s.dead = false := by
      cases hd : s.dead with
      | false => rfl
      | true =>
        have hst := hi.dead_closed hd
        have hl := hi.life
        simp only [Life, hst] at hl
        rw [hl.2.2.2.2.1 hd] at hr; cases hr
    have hstep : step s .next = handle (popped s rest) h := by
      simp only [step, hr]; rw [if_neg (by simp [hd])]
    have hlt : left (popped s rest) < left s := by simp only [left, hr, List.length_cons]; omega
    rw [hstep]
    have hpe : ∀ e, processError (popped s rest) e = .ok (popped s rest) := by
      intro e; unfold processError; rw [if_pos (.inl hl)]
    cases h with
    | readOk c => have := hq _ (by rw [hr]; exact List.mem_cons_self ..); cases this
    | writeOk n => have := hq _ (by rw [hr]; exact List.mem_cons_self ..); cases this
    | readErr e => exact ⟨_, hpe e, hl, hqr, hlt⟩
    | writeErr e => exact ⟨_, hpe e, hl, hqr, hlt⟩
    | connectAborted => exact ⟨_, rfl, hl, hqr, hlt⟩
    | reconnect => exact ⟨popped s rest, by simp only [handle, reconnect]; rw [if_pos hl], hl, hqr, hlt⟩
    | dealloc => exact ⟨_, rfl, hl, hqr, hlt⟩
    | deferredClose =>
      obtain ⟨t, ht, hti⟩ := deferredClose_inv hi hr
      refine ⟨t, ht, ?_⟩
      have hno : s.reading = false ∧ s.writing = none ∧ s.connecting = none := by
        have h4 := hi.life
        cases hst : s.state with
        | up => rw [hst] at hl; cases hl
        | down => rw [hst] at hl; cases hl
        | closing => simp only [Life, hst] at h4; exact ⟨h4.2.1, h4.2.2.1, h4.2.2.2.1⟩
        | failed => simp only [Life, hst] at h4; exact ⟨h4.2.1, h4.2.2.1, h4.2.2.2.1⟩
        | closed => simp only [Life, hst] at h4; exact ⟨h4.1, h4.2.1, h4.2.2.1⟩
      have hcan : cancel { popped s rest with sendQ := [] } = { s with ready := rest, sendQ := [] } := by
        simp [cancel, popped, hno]
      unfold deferredClose at ht
      rw [hcan] at ht
      rcases setState_ok ht with ⟨he, rfl⟩ | ⟨hv, rfl⟩
      · have he : s.state = .closed := he
        refine ⟨by simp only [he]; rfl, hqr, ?_⟩
        simp only [left, hr, List.length_cons]; omega
      · have hnc : s.state ≠ .closed := by
          intro h; simp only [h] at hv; cases hv
        refine ⟨rfl, ?_, ?_⟩
        · intro x hx
          rcases List.mem_append.1 hx with hx | hx
          · exact hqr x hx
          · simp at hx; subst hx; rfl
        · simp only [left, hr, hnc, List.length_cons, List.length_append, if_true, if_false, List.length_nil]; omega

theorem quiet_closes : ∀ (k : Nat) (s : St), left s ≤ k → Inv s → leaving s.state = true → (∀ x ∈ s.ready, x.quiet = true) →
    ∃ n t, run s (List.replicate n .next) = .ok t ∧ t.state = .closed ∧ t.dead = true := by
  intro k
  induction k with
  | zero =>
    intro s hk hi hl hq
    have h4 := hi.life
    have hst : s.state = .closed := by
      by_cases h : s.state = .closed
      · exact h
      · simp [left, h] at hk
    have hr : s.ready = [] := by
      cases hr : s.ready with
      | nil => rfl
      | cons x l => simp [left, hr] at hk
    simp only [Life, hst] at h4
    refine ⟨0, s, rfl, hst, ?_⟩
    cases hd : s.dead with
    | true => rfl
    | false =>
      obtain ⟨A, hA, _⟩ := h4.2.2.2.2.2 hd
      rw [hr] at hA; simp at hA
  | succ k ih =>
    intro s hk hi hl hq
    by_cases hr : s.ready = []
    · have h4 := hi.life
      cases hst : s.state with
      | up => rw [hst] at hl; cases hl
      | down => rw [hst] at hl; cases hl
      | closing => simp only [Life, hst] at h4; rw [hr] at h4; have := h4.2.2.2.2.2.2.1; cases this
      | failed => simp only [Life, hst] at h4; rw [hr] at h4; have := h4.2.2.2.2.2.2.1; cases this
      | closed =>
        simp only [Life, hst] at h4
        refine ⟨0, s, rfl, hst, ?_⟩
        cases hd : s.dead with
        | true => rfl
        | false =>
          obtain ⟨A, hA, _⟩ := h4.2.2.2.2.2 hd
          rw [hr] at hA; simp at hA
    · obtain ⟨s', h1, h2, h3, h4⟩ := next_quiet hi hl hq hr
      obtain ⟨n, t, h5, h6⟩ := ih s' (by omega) (step_inv hi h1) h2 h3
      exact ⟨n + 1, t, by simp only [List.replicate_succ, run, h1]; exact h5, h6⟩

/-- After the first handler only `quiet` ones are left, and the transport stays closed. -/
theorem first_next {s s' : St} (hi : Inv s) (hl : leaving s.state = true) (h : step s .next = .ok s') :
    leaving s'.state = true ∧ ∀ x ∈ s'.ready, x.quiet = true := by
  by_cases hq : ∀ x ∈ s.ready, x.quiet = true
  · by_cases hr : s.ready = []
    · simp only [step, hr] at h; cases h; exact ⟨hl, hq⟩
    · obtain ⟨t, h1, h2, h3, _⟩ := next_quiet hi hl hq hr
      rw [h1] at h; cases h; exact ⟨h2, h3⟩
  · cases hr : s.ready with
    | nil => rw [hr] at hq; exact absurd (by simp) hq
    | cons x rest =>
      have hqr : ∀ y ∈ rest, y.quiet = true := by have := hi.head; rw [hr] at this; exact this
      have hx : x.quiet = false := by
        cases hx : x.quiet with
        | false => rfl
        | true =>
          refine absurd ?_ hq
          intro y hy
          rw [hr] at hy
          rcases List.mem_cons.1 hy with rfl | hy
          · exact hx
          · exact hqr y hy
      simp only [step, hr] at h
      split at h
      · cases h
      · have hnup : s.state ≠ .up ∧ s.state ≠ .down := by
          constructor <;> (intro h; rw [h] at hl; cases hl)
        cases x with
        | readOk c =>
          simp only [handle, handleReceive] at h
          generalize hr : parseLoop (s.recvBuf ++ c).length (s.recvBuf ++ c) = r at h
          split at h
          · simp only [bind_ok] at h
            obtain ⟨t, h1, h2⟩ := h
            cases h2
            have hst : t.state = .failed := by
              rcases setState_ok h1 with ⟨h, rfl⟩ | ⟨_, rfl⟩
              · exact h
              · rfl
            have hrt : t.ready = rest := by
              rcases setState_ok h1 with ⟨h, rfl⟩ | ⟨_, rfl⟩
              · rfl
              · simp
            refine ⟨by simp [doClose, post, cancel_eq, hst, leaving], ?_⟩
            intro y hy
            simp only [doClose, post, cancel_eq, hrt, List.mem_append, List.mem_singleton] at hy
            rcases hy with (hy | hy) | hy
            · exact hqr y hy
            · exact abortions_quiet hy
            · subst hy; rfl
          · simp [startReceive, hnup.1] at h
        | writeOk n =>
          simp only [handle, handleSend] at h
          split at h
          · cases h
          · split at h
            · cases h
            · cases h
              split
              · exact ⟨hl, hqr⟩
              · unfold sendFromQueue
                split
                · exact ⟨hl, hqr⟩
                · refine ⟨hl, ?_⟩
                  intro y hy
                  simp only [post, List.mem_append, List.mem_singleton] at hy
                  rcases hy with hy | hy
                  · exact hqr y hy
                  · subst hy; rfl
        | _ => cases hx

theorem closes {s : St} (hi : Inv s) (hl : leaving s.state = true) :
    ∃ n, (∃ t, run s (List.replicate n .next) = .ok t ∧ t.state = .closed ∧ t.dead = true) ∨
      ∃ f, run s (List.replicate n .next) = .error f := by
  cases h : step s .next with
  | error f => exact ⟨1, .inr ⟨f, by simp only [List.replicate, run, h]; rfl⟩⟩
  | ok t =>
    obtain ⟨h1, h2⟩ := first_next hi hl h
    obtain ⟨n, u, h3, h4⟩ := quiet_closes (left t) t (Nat.le_refl _) (step_inv hi h) h1 h2
    exact ⟨n + 1, .inl ⟨u, by simp only [List.replicate_succ, run, h]; exact h3, h4⟩⟩

/-! ### No successful read waits in the queue if operations complete one at a time -/

/-- A step queues the handler of a successful read only when a write completes at the same time. -/
def Single : Event → Bool
  | .io (.some _) (.data _) _ => false
  | .io (.err _) (.data _) _ => false
  | _ => true

def NoRead (s : St) : Prop := ∀ c, .readOk c ∉ s.ready

theorem NoRead.setState {s s' : St} {n : TState} (h : NoRead s) (hs : setState s n = .ok s') : NoRead s' := by
  rcases setState_ok hs with ⟨_, rfl⟩ | ⟨_, rfl⟩
  · exact h
  · intro c hc
    rcases List.mem_append.1 hc with hc | hc
    · exact h c hc
    · split at hc <;> simp at hc

theorem NoRead.cancel {s : St} (h : NoRead s) : NoRead (cancel s) := by
  intro c hc
  simp only [cancel_eq, List.mem_append] at hc
  rcases hc with hc | hc
  · exact h c hc
  · rcases abortions_mem hc with h | h | h <;> cases h

theorem NoRead.post {s : St} {x : Handler} (h : NoRead s) (hx : ∀ c, x ≠ .readOk c) : NoRead (post s x) := by
  intro c hc
  simp only [Tp.post, List.mem_append, List.mem_singleton] at hc
  rcases hc with hc | hc
  · exact h c hc
  · exact hx c hc.symm

theorem NoRead.doClose {s : St} (h : NoRead s) : NoRead (doClose s) := by
  have := h.cancel
  exact NoRead.post (s := { Tp.cancel s with usable := false, timer := false }) this (by simp)

theorem processError_noRead {s s' : St} {e : Err} (h : NoRead s) (hh : processError s e = .ok s') : NoRead s' := by
  unfold processError at hh
  split at hh
  · cases hh; exact h
  · unfold handleError at hh
    split at hh
    · simp only [bind_ok] at hh
      obtain ⟨u, h1, h2⟩ := hh
      cases h2
      exact (h.setState h1).cancel.post (by simp)
    · simp only [handleErrorBase, bind_ok] at hh
      obtain ⟨u, h1, h2⟩ := hh
      cases h2
      exact (h.setState h1).doClose

theorem handle_noRead {s s' : St} {x : Handler} (h : NoRead s) (hh : handle s x = .ok s') : NoRead s' := by
  cases x with
  | readOk c =>
    simp only [handle, handleReceive] at hh
    generalize hr : parseLoop (s.recvBuf ++ c).length (s.recvBuf ++ c) = r at hh
    have h0 : NoRead { s with recvBuf := r.2, out := s.out ++ .read c :: r.1.map .deliver } := h
    split at hh
    · simp only [bind_ok] at hh
      obtain ⟨t, h1, h2⟩ := hh
      cases h2
      exact (h0.setState h1).doClose
    · unfold startReceive at hh
      split at hh
      · cases hh
      · split at hh
        · cases hh; exact h0
        · cases hh; exact h0.post (by simp)
  | readErr e => exact processError_noRead h hh
  | writeErr e => exact processError_noRead h hh
  | writeOk n =>
    simp only [handle, handleSend] at hh
    split at hh
    · cases hh
    · split at hh
      · cases hh
      · cases hh
        rename_i q _ _
        have h0 : NoRead { s with sendQ := q } := h
        split
        · exact h0
        · unfold sendFromQueue
          split
          · exact h0
          · exact h0.post (by simp)
  | connectAborted => cases hh; exact h
  | dealloc => cases hh; exact h
  | deferredClose =>
    simp only [handle, deferredClose] at hh
    refine NoRead.setState ?_ hh
    exact NoRead.cancel (s := { s with sendQ := [] }) h
  | reconnect =>
    simp only [handle, reconnect] at hh
    split at hh
    · cases hh; exact h
    · split at hh
      · cases hh
      · cases hh
        exact h.cancel

theorem step_noRead {s s' : St} {e : Event} (hi : Inv s) (hs : Single e = true) (h : NoRead s) (hh : step s e = .ok s') : NoRead s' := by
  unfold step at hh
  cases e with
  | send p =>
    simp only at hh
    cases hh
    split
    · exact h
    · unfold send
      split
      · unfold doSend
        split
        · exact h
        · simp only
          split
          · unfold sendFromQueue
            split
            · exact h
            · exact NoRead.post (s := { emit s (.accepted p) with sendQ := (emit s (.accepted p)).sendQ ++ [p] }) h (by simp)
          · exact h
      · split
        · rename_i h1 h2
          unfold doSend
          rw [if_pos h1]
          exact h
        · exact h
  | close =>
    simp only at hh
    split at hh
    · cases hh; exact h
    · unfold close at hh
      split at hh
      · cases hh; exact h
      · simp only [bind_ok] at hh
        obtain ⟨t, h1, h2⟩ := hh
        cases h2
        exact (h.setState h1).doClose
  | setPersist p =>
    simp only at hh
    split at hh
    · cases hh; exact h
    · unfold setPersist at hh
      split at hh
      · cases hh; exact h
      · simp only at hh
        split at hh
        · simp only [bind_ok] at hh
          obtain ⟨t, h1, h2⟩ := hh
          cases h2
          exact (NoRead.setState (s := { s with persist := p }) h h1).doClose
        · cases hh; exact h
  | io w r rf =>
    simp only at hh
    split at hh
    · cases hh
    · have hx : NoRead (doWrite s w).1 ∧ ∀ x, (doWrite s w).2 = some x → (∀ c, x ≠ .readOk c) ∧ w ≠ .none := by
        have hw0 : w = .none → doWrite s w = (s, none) := by
          rintro rfl
          unfold doWrite
          split <;> simp_all
        rcases doWrite_cases s w with ⟨w', o, he, _⟩ | ⟨o, x, he, _, hk⟩
        · rw [he]; exact ⟨h, fun x hx => by cases hx⟩
        · rw [he]
          refine ⟨h, fun y hy => ?_⟩
          cases hy
          refine ⟨?_, fun h => ?_⟩
          · rcases hk with rfl | ⟨e, rfl, _⟩ <;> simp
          · have := congrArg Prod.snd ((hw0 h).symm.trans he); cases this
      generalize hxe : doWrite s w = x at *
      have hy : NoRead (doRead x.1 r).1 ∧ ∀ y, (doRead x.1 r).2 = some y → (∀ c, y = .readOk c → r = .data c) := by
        rcases doRead_cases x.1 r with he | ⟨y, he, _, hk⟩
        · rw [he]; exact ⟨hx.1, fun y hy => by cases hy⟩
        · rw [he]
          refine ⟨hx.1, fun y' hy' => ?_⟩
          cases hy'
          rcases hk with ⟨c, rfl, _, _, hd⟩ | ⟨e, rfl, _⟩
          · intro c' hc'; cases hc'; exact hd
          · intro c' hc'; cases hc'
      generalize hye : doRead x.1 r = y at *
      cases hx2 : x.2 with
      | none =>
        cases hy2 : y.2 with
        | none => rw [hx2, hy2] at hh; simp only [complete, ite_self] at hh; cases hh; exact hy.1
        | some b => rw [hx2, hy2] at hh; simp only [complete, ite_self] at hh; exact handle_noRead hy.1 hh
      | some a =>
        cases hy2 : y.2 with
        | none => rw [hx2, hy2] at hh; simp only [complete, ite_self] at hh; exact handle_noRead hy.1 hh
        | some b =>
          rw [hx2, hy2] at hh
          simp only [complete] at hh
          have hb : ∀ c, b ≠ .readOk c := by
            intro c hc
            have := hy.2 b hy2 c hc
            subst this
            have hwn := (hx.2 a hx2).2
            cases w with
            | none => exact hwn rfl
            | some n => cases hs
            | err e => cases hs
          split at hh
          · exact handle_noRead (hy.1.post (hx.2 a hx2).1) hh
          · exact handle_noRead (hy.1.post hb) hh
  | connect ok =>
    simp only at hh
    split at hh
    · cases hh; exact h
    · rename_i hc
      simp only [ne_eq, Decidable.not_not] at hc
      obtain ⟨ht, _, _⟩ := connect_inv hi hc
      split at hh
      · cases hh
      · split at hh
        · rw [ht] at hh; cases hh; exact h
        · cases hh; exact h
  | timer =>
    simp only at hh
    split at hh
    · cases hh; exact h
    · split at hh
      · cases hh
      · cases hh
        have := NoRead.cancel (s := { s with timer := false }) h
        exact NoRead.post (s := { cancel { s with timer := false } with usable := false, wait := _ }) this (by simp)
  | next =>
    simp only at hh
    split at hh
    · cases hh; exact h
    · rename_i x rest hr
      split at hh
      · cases hh
      · refine handle_noRead ?_ hh
        intro c hc
        exact h c (by rw [hr]; exact List.mem_cons_of_mem _ hc)

theorem single_ok {s : St} {es : List Event} (hi : Inv s) (hn : NoRead s) (hs : ∀ e ∈ es, Single e = true) : ∃ s', run s es = .ok s' := by
  induction es generalizing s with
  | nil => exact ⟨s, rfl⟩
  | cons e es ih =>
    cases h : step s e with
    | error f =>
      obtain ⟨_, _, _, c, rest, hr⟩ := step_err hi h
      exact absurd (show Handler.readOk c ∈ s.ready by rw [hr]; exact List.mem_cons_self ..) (hn c)
    | ok t =>
      obtain ⟨u, hu⟩ := ih (step_inv hi h) (step_noRead hi (hs e (List.mem_cons_self ..)) hn h) (fun e he => hs e (List.mem_cons_of_mem _ he))
      exact ⟨u, by simp only [run, h]; exact hu⟩

end Verif.Tp
