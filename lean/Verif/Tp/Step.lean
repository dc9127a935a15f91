/-
The invariant of stream transports holds in all runs; the faults that may occur.
-/
import Verif.Tp.Inv

namespace Verif.Tp
open Verif.Lp

theorem doWrite_cases (s : St) (w : Wr) :
    (∃ w' o, (doWrite s w) = ({ s with writing := w', out := s.out ++ o }, none) ∧ w'.isSome = s.writing.isSome) ∨
    (∃ o h, (doWrite s w) = ({ s with writing := none, out := s.out ++ o }, some h) ∧ s.writing.isSome = true ∧
      (h = .writeOk (s.sendQ.head?.getD []).length ∨ ∃ e, h = .writeErr e ∧ e ≠ .aborted)) := by
  have hself : ({ s with writing := s.writing, out := s.out ++ [] } : St) = s := by simp
  unfold doWrite
  split
  · rename_i rest n hw
    extract_lets s'
    have : ∃ o, s' = { s with out := s.out ++ o } := by
      simp only [s']
      split
      · exact ⟨[], by simp⟩
      · exact ⟨_, rfl⟩
    obtain ⟨o, ho⟩ := this
    clear_value s'
    subst ho
    by_cases hd : rest.drop n = []
    · rw [if_pos hd]
      exact .inr ⟨o, _, rfl, by simp [hw], .inl rfl⟩
    · rw [if_neg hd]
      exact .inl ⟨_, o, rfl, by simp [hw]⟩
  · rename_i rest e hw
    split
    · exact .inl ⟨s.writing, [], by rw [hself], rfl⟩
    · rename_i he
      exact .inr ⟨[], _, by simp, by simp [hw], .inr ⟨e, rfl, he⟩⟩
  · exact .inl ⟨s.writing, [], by rw [hself], rfl⟩

theorem doRead_cases (s : St) (r : Rd) :
    doRead s r = (s, none) ∨
    (∃ h, doRead s r = ({ s with reading := false }, some h) ∧ s.reading = true ∧
      ((∃ c, h = .readOk c ∧ c ≠ [] ∧ s.recvBuf.length + c.length ≤ maxPacket ∧ r = .data c) ∨ ∃ e, h = .readErr e ∧ e ≠ .aborted)) := by
  unfold doRead
  split
  · exact .inl rfl
  · rename_i hr
    have hr : s.reading = true := by simpa using hr
    split
    · exact .inl rfl
    · split
      · exact .inl rfl
      · rename_i c hc
        exact .inr ⟨_, rfl, hr, .inl ⟨c, rfl, fun h => hc (.inl h), by omega, rfl⟩⟩
    · split
      · exact .inl rfl
      · rename_i he
        exact .inr ⟨_, rfl, hr, .inr ⟨_, rfl, he⟩⟩

theorem Inv.reading_up {s : St} (hi : Inv s) (hr : s.reading = true) : s.state = .up := by
  have h4 := hi.life
  cases hst : s.state with
  | up => rfl
  | down => simp only [Life, hst] at h4; rw [h4.2.2.2.1] at hr; cases hr
  | closing => simp only [Life, hst] at h4; rw [h4.2.1] at hr; cases hr
  | failed => simp only [Life, hst] at h4; rw [h4.2.1] at hr; cases hr
  | closed => simp only [Life, hst] at h4; rw [h4.1] at hr; cases hr

theorem Inv.writing_state {s : St} (hi : Inv s) (hw : s.writing.isSome = true) : (s.state = .up ∨ s.state = .down) ∧ s.connecting = none := by
  have h4 := hi.life
  cases hst : s.state with
  | up => simp only [Life, hst] at h4; exact ⟨.inl rfl, h4.2.2.1⟩
  | down =>
    simp only [Life, hst] at h4
    refine ⟨.inr rfl, ?_⟩
    cases hc : s.connecting with
    | none => rfl
    | some b => rw [(h4.2.2.2.2.2 b hc).2.1] at hw; cases hw
  | closing => simp only [Life, hst] at h4; rw [h4.2.2.1] at hw; cases hw
  | failed => simp only [Life, hst] at h4; rw [h4.2.2.1] at hw; cases hw
  | closed => simp only [Life, hst] at h4; rw [h4.2.1] at hw; cases hw

theorem Inv.dead_closed {s : St} (hi : Inv s) (hd : s.dead = true) : s.state = .closed := by
  by_cases h : s.state = .closed
  · exact h
  · rw [(hi.alive h).2] at hd; cases hd

/-- The octets to be written change. -/
theorem Inv.progress {s : St} {w : Option Bytes} {o : List Out} (hi : Inv s) (hw : w.isSome = s.writing.isSome) : Inv { s with writing := w, out := o } := by
  have hnn : s.writing = none → w = none := by
    intro h; rw [h] at hw; cases w with
    | none => rfl
    | some _ => simp at hw
  obtain ⟨h1, h2, h3, h4⟩ := hi
  refine ⟨h1, fun m hm => ⟨hnn (h2 m hm).1, (h2 m hm).2⟩, fun h => h3 (hw ▸ h), ?_⟩
  cases hst : s.state with
  | up =>
    simp only [Life, hst] at h4 ⊢
    obtain ⟨a1, a2, a3, a4, a5, a6, a7, a8, a9⟩ := h4
    exact ⟨a1, a2, a3, a4, a5, a6, a7, by rw [hw]; exact a8, a9⟩
  | down =>
    simp only [Life, hst] at h4 ⊢
    obtain ⟨a1, a2, a3, a4, a5, a6⟩ := h4
    exact ⟨a1, a2, a3, a4, a5, fun b hb => ⟨(a6 b hb).1, hnn (a6 b hb).2.1, (a6 b hb).2.2⟩⟩
  | closing =>
    simp only [Life, hst] at h4 ⊢
    obtain ⟨a1, a2, a3, a4⟩ := h4
    exact ⟨a1, a2, hnn a3, a4⟩
  | failed =>
    simp only [Life, hst] at h4 ⊢
    obtain ⟨a1, a2, a3, a4⟩ := h4
    exact ⟨a1, a2, hnn a3, a4⟩
  | closed =>
    simp only [Life, hst] at h4 ⊢
    obtain ⟨a1, a2, a3⟩ := h4
    exact ⟨a1, hnn a2, a3⟩

/-- A write completes. -/
theorem Inv.written {s : St} {o : List Out} (hi : Inv s) (hw : s.writing.isSome = true) :
    Inv { s with writing := none, out := o } ∧ SendReady { s with writing := none, out := o } (s.sendQ.head?.getD []).length := by
  have hst := hi.writing_state hw
  obtain ⟨h1, h2, h3, h4⟩ := hi
  have hnw : ∀ m, .writeOk m ∉ s.ready := fun m hm => by rw [(h2 m hm).1] at hw; cases hw
  constructor
  · refine ⟨h1, fun m hm => absurd hm (hnw m), fun h => (by cases h), ?_⟩
    rcases hst.1 with hst | hst
    · simp only [Life, hst] at h4 ⊢
      obtain ⟨a1, a2, a3, a4, a5, a6, a7, a8, a9⟩ := h4
      exact ⟨a1, a2, a3, a4, a5, a6, a7, fun h => (by cases h), a9⟩
    · simp only [Life, hst] at h4 ⊢
      obtain ⟨a1, a2, a3, a4, a5, a6⟩ := h4
      exact ⟨a1, a2, a3, a4, a5, fun b hb => ⟨(a6 b hb).1, by trivial, (a6 b hb).2.2⟩⟩
  · refine ⟨rfl, ?_, ?_, hst.2, hnw, fun hu => ?_⟩
    · cases hq : s.sendQ with
      | nil => exact absurd hq (h3 hw)
      | cons p q => exact ⟨p, q, rfl, rfl⟩
    · rcases hst.1 with h | h <;> (show s.state ≠ _; rw [h]; intro h; cases h)
    · simp only at hu
      simp only [Life, hu] at h4
      exact h4.2.2.2.2.2.2.2.1 hw

/-- A read completes. -/
theorem Inv.taken {s : St} (hi : Inv s) (hr : s.reading = true) : Inv { s with reading := false } ∧ (∀ x ∈ s.ready, x.isRead = false) := by
  have hst := hi.reading_up hr
  obtain ⟨h1, h2, h3, h4⟩ := hi
  simp only [Life, hst] at h4
  obtain ⟨a1, a2, a3, a4, a5, a6, a7, a8, a9⟩ := h4
  refine ⟨⟨h1, h2, h3, ?_⟩, a7 hr⟩
  simp only [Life, hst]
  exact ⟨a1, a2, a3, a4, a5, a6, fun h => (by cases h), a8, a9⟩

/-- What completes when the socket is ready. -/
theorem io_cases {s : St} (hi : Inv s) (w : Wr) (r : Rd) (x : St × Option Handler) (y : St × Option Handler) (hx : x = doWrite s w) (hy : y = doRead x.1 r) :
    Inv y.1 ∧
    (∀ h, x.2 = some h → y.2 = none → Pre y.1 h) ∧
    (∀ h, x.2 = none → y.2 = some h → Pre y.1 h ∧ y.1.state = .up) ∧
    (∀ h h', x.2 = some h → y.2 = some h' → y.1.state = .up ∧ Inv (post y.1 h) ∧ Pre (post y.1 h) h' ∧ Inv (post y.1 h') ∧ Pre (post y.1 h') h) ∧
    (∀ h, x.2 = some h → h.isWrite = true) ∧ (∀ h, y.2 = some h → h.isRead = true) := by
  have hrdpre : ∀ (t : St) (h : Handler), ((∃ c, h = .readOk c ∧ c ≠ [] ∧ t.recvBuf.length + c.length ≤ maxPacket ∧ r = .data c) ∨ ∃ e, h = .readErr e ∧ e ≠ .aborted) →
      ∀ (t' : St), t'.reading = false → (∀ x ∈ t'.ready, x.isRead = false) → Pre t' h ∧ h.isRead = true := by
    intro t h hh t' h1 h2
    rcases hh with ⟨c, rfl, _⟩ | ⟨e, rfl, _⟩
    · exact ⟨⟨⟨h1, fun _ => h2⟩, fun c hc => (by have := h2 _ hc; cases this)⟩, rfl⟩
    · exact ⟨trivial, rfl⟩
  rcases doWrite_cases s w with ⟨w', o, h1, hw⟩ | ⟨o, hd, h1, hw, hk⟩
  · have hi' : Inv x.1 := by rw [hx, h1]; exact hi.progress hw
    have hx2 : x.2 = none := by rw [hx, h1]
    rcases doRead_cases x.1 r with h2 | ⟨hd, h2, hr, hk⟩
    · rw [← hy] at h2
      subst h2
      exact ⟨hi', fun h hh => (by rw [hx2] at hh; cases hh), fun h _ hh => (by cases hh), fun h h' hh => (by rw [hx2] at hh; cases hh),
        fun h hh => (by rw [hx2] at hh; cases hh), fun h hh => (by cases hh)⟩
    · rw [← hy] at h2
      subst h2
      have ht := hi'.taken hr
      have hp := hrdpre x.1 hd hk { x.1 with reading := false } rfl ht.2
      exact ⟨ht.1, fun h hh => (by rw [hx2] at hh; cases hh), fun h _ hh => (by cases hh; exact ⟨hp.1, hi'.reading_up hr⟩), fun h h' hh => (by rw [hx2] at hh; cases hh),
        fun h hh => (by rw [hx2] at hh; cases hh), fun h hh => (by cases hh; exact hp.2)⟩
  · have hwr := hi.written (o := s.out ++ o) hw
    have hi' : Inv x.1 := by rw [hx, h1]; exact hwr.1
    have hx2 : x.2 = some hd := by rw [hx, h1]
    have hpre : Pre x.1 hd := by
      rw [hx, h1]
      rcases hk with rfl | ⟨e, rfl, _⟩
      · exact hwr.2
      · trivial
    have hisw : hd.isWrite = true := by rcases hk with rfl | ⟨e, rfl, _⟩ <;> rfl
    rcases doRead_cases x.1 r with h2 | ⟨hd', h2, hr, hk'⟩
    · rw [← hy] at h2
      subst h2
      exact ⟨hi', fun h hh _ => (by rw [hx2] at hh; cases hh; exact hpre), fun h hh => (by rw [hx2] at hh; cases hh), fun h h' _ hh => (by cases hh),
        fun h hh => (by rw [hx2] at hh; cases hh; exact hisw), fun h hh => (by cases hh)⟩
    · have hup := hi'.reading_up hr
      have ht := hi'.taken hr
      rw [← hy] at h2
      subst h2
      have hp := hrdpre x.1 hd' hk' { x.1 with reading := false } rfl ht.2
      refine ⟨ht.1, fun h _ hh => (by cases hh), fun h hh => (by rw [hx2] at hh; cases hh), ?_,
        fun h hh => (by rw [hx2] at hh; cases hh; exact hisw), fun h hh => (by cases hh; exact hp.2)⟩
      intro h h' hh hh'
      rw [hx2] at hh
      cases hh; cases hh'
      have hxs : x.1 = { s with writing := none, out := s.out ++ o } := by rw [hx, h1]
      have hsu : s.state = .up := by rw [hxs] at hup; exact hup
      have hread : s.reading = true := by rw [hxs] at hr; exact hr
      have h4 := hi.life
      simp only [Life, hsu] at h4
      obtain ⟨a1, a2, a3, a4, a5, a6, a7, a8, a9⟩ := h4
      have hrd : s.ready = [] := by
        cases hq : s.ready with
        | nil => rfl
        | cons z l =>
          have hm : z ∈ s.ready := by rw [hq]; exact List.mem_cons_self ..
          rcases a6 z hm with h | h
          · rw [a7 hread z hm] at h; cases h
          · rw [a8 hw z hm] at h; cases h
      have hq0 := hi.wq hw
      rw [hxs]
      simp only
      refine ⟨hsu, ?_, ?_, ?_, ?_⟩
      · refine ⟨by simp [post, hrd], ?_, by simp [post], ?_⟩
        · intro m hm
          simp only [post, hrd, List.nil_append, List.mem_singleton] at hm ⊢
          refine ⟨by trivial, ?_⟩
          rcases hk with hk | ⟨e, hk, _⟩
          · rw [hk] at hm; cases hm
            cases hq : s.sendQ with
            | nil => exact absurd hq hq0
            | cons p q => exact ⟨p, q, rfl, rfl⟩
          · rw [hk] at hm; cases hm
        · simp only [Life, hsu, post, hrd]
          exact ⟨a1, a2, a3, a4, by simp, by simp [hisw], by simp, by simp, fun _ _ _ => hq0⟩
      · refine (hrdpre x.1 hd' hk' _ ?_ ?_).1
        · rfl
        · simp only [post, hrd, List.nil_append, List.mem_singleton, forall_eq]
          rcases hk with rfl | ⟨e, rfl, _⟩ <;> rfl
      · refine ⟨by simp [post, hrd], ?_, by simp [post], ?_⟩
        · intro m hm
          simp only [post, hrd, List.nil_append, List.mem_singleton] at hm
          rw [← hm] at hp
          cases hp.2
        · simp only [Life, hsu, post, hrd]
          refine ⟨a1, a2, a3, a4, by simp, by simp [hp.2], by simp, by simp, fun _ _ _ => hq0⟩
      · rcases hk with rfl | ⟨e, rfl, _⟩
        · refine ⟨rfl, ?_, by simp [post, hsu], a3, ?_, ?_⟩
          · cases hq : s.sendQ with
            | nil => exact absurd hq hq0
            | cons p q => exact ⟨p, q, rfl, rfl⟩
          · intro m hm
            simp only [post, hrd, List.nil_append, List.mem_singleton] at hm
            rw [← hm] at hp
            cases hp.2
          · intro _ x' hx'
            simp only [post, hrd, List.nil_append, List.mem_singleton] at hx'
            subst hx'
            rcases hk' with ⟨c, rfl, _⟩ | ⟨e, rfl, _⟩ <;> rfl
        · trivial

theorem close_inv {s s' : St} (hi : Inv s) (h : close s = .ok s') : Inv s' := by
  unfold close at h
  split at h
  · cases h; exact hi
  · simp only [bind_ok] at h
    obtain ⟨t, h1, h2⟩ := h
    cases h2
    exact setState_leave (.inl rfl) hi h1

theorem close_ok (s : St) : ∃ s', close s = .ok s' := by
  unfold close
  split
  · exact ⟨_, rfl⟩
  · rename_i hn
    have : s.state = .up ∨ s.state = .down := by
      cases h : s.state <;> simp_all
    obtain ⟨t, ht⟩ := setState_leave_ok (n := .closing) (.inl rfl) this
    exact ⟨_, by rw [ht]; rfl⟩

theorem Inv.persist {s : St} (hi : Inv s) {p : Persist} (h : s.state ≠ .down) : Inv { s with persist := p } := by
  obtain ⟨h1, h2, h3, h4⟩ := hi
  refine ⟨h1, h2, h3, ?_⟩
  cases hst : s.state with
  | down => exact absurd hst h
  | up => simp only [Life, hst] at h4 ⊢; exact h4
  | closing => simp only [Life, hst] at h4 ⊢; exact h4
  | failed => simp only [Life, hst] at h4 ⊢; exact h4
  | closed => simp only [Life, hst] at h4 ⊢; exact h4

theorem setPersist_inv {s s' : St} {p : Persist} (hi : Inv s) (h : setPersist s p = .ok s') : Inv s' := by
  unfold setPersist at h
  split at h
  · cases h; exact hi
  · simp only at h
    split at h
    · rename_i hd
      simp only [bind_ok] at h
      obtain ⟨t, h1, h2⟩ := h
      cases h2
      rcases setState_ok h1 with ⟨he, rfl⟩ | ⟨hv, rfl⟩
      · simp only at he
        rw [hd.2] at he; cases he
      · simp only [reduceCtorEq, if_false, List.append_nil]
        have := leave_inv (n := .failed) (out := s.out ++ [.state s.state .failed]) (.inr rfl) hi (by rw [hd.2]; intro h; cases h)
        obtain ⟨b1, b2, b3, b4⟩ := this
        exact ⟨b1, b2, b3, b4⟩
    · rename_i hd
      cases h
      refine hi.persist ?_
      intro hdn
      have h4 := hi.life
      simp only [Life, hdn] at h4
      exact hd ⟨h4.2.2.1, hdn⟩

theorem setPersist_ok (s : St) (p : Persist) : ∃ s', setPersist s p = .ok s' := by
  unfold setPersist
  split
  · exact ⟨_, rfl⟩
  · simp only
    split
    · rename_i hd
      obtain ⟨t, ht⟩ := setState_leave_ok (s := { s with persist := p }) (n := .failed) (.inr rfl) (.inr hd.2)
      exact ⟨_, by rw [ht]; rfl⟩
    · exact ⟨_, rfl⟩

theorem send_inv {s : St} (hi : Inv s) (p : Bytes) : Inv (send s p) := by
  unfold send
  split
  · rename_i hst
    unfold doSend
    rw [if_neg (by simp [emit, hst])]
    simp only
    obtain ⟨h1, h2, h3, h4⟩ := hi
    simp only [Life, hst] at h4
    obtain ⟨a1, a2, a3, a4, a5, a6, a7, a8, a9⟩ := h4
    have hwr : ∀ n, .writeOk n ∈ s.ready → s.sendQ ≠ [] → s.writing = none ∧ ∃ p' q, s.sendQ ++ [p] = p' :: q ∧ p'.length = n := by
      intro n hn _
      obtain ⟨b1, p', q, b2, b3⟩ := h2 n hn
      exact ⟨b1, p', q ++ [p], by rw [b2]; rfl, b3⟩
    split
    · rename_i hq
      simp only [emit] at hq
      have hnw : ∀ x ∈ s.ready, x.isWrite = false := by
        intro x hx
        cases h : x.isWrite with
        | false => rfl
        | true => exact absurd hq (a9 x hx h)
      unfold sendFromQueue
      rw [if_pos (by exact a2)]
      refine ⟨h1, ?_, by simp [emit], ?_⟩
      · intro m hm
        have := hnw _ hm; cases this
      · simp only [Life, emit, hst]
        exact ⟨a1, a2, a3, a4, a5, a6, a7, fun _ => hnw, by simp⟩
    · rename_i hq
      simp only [emit] at hq
      refine ⟨h1, ?_, by simp [emit], ?_⟩
      · intro m hm; exact hwr m hm hq
      · simp only [Life, emit, hst]
        exact ⟨a1, a2, a3, a4, a5, a6, a7, a8, by simp⟩
  · rename_i hst
    split
    · unfold doSend
      rw [if_pos hst]
      exact hi
    · exact hi

/-- The state when a connection is established. -/
abbrev connected (s : St) : St :=
  { s with connecting := none, timer := false, wait := initialWait, usable := true, state := .up, reading := true,
           out := s.out ++ [.connected] ++ [.state .down .up] }

theorem handleReconnect_eq {s : St} (hst : s.state = .down) : handleReconnect { s with connecting := none } = .ok (connected s) := by
  simp [handleReconnect, leaving, hst, setState, emit, validTransition, startReceive, bind, Except.bind]

theorem connect_inv {s : St} (hi : Inv s) (hc : s.connecting = some 0) :
    handleReconnect { s with connecting := none } = .ok (connected s) ∧ Inv (connected s) ∧ s.state = .down := by
  have h4 := hi.life
  cases hst : s.state with
  | down =>
    simp only [Life, hst] at h4
    obtain ⟨a1, a2, a3, a4, a5, a6⟩ := h4
    obtain ⟨b1, b2, b3, b4⟩ := a6 0 hc
    have hr : s.ready = [] := by
      cases hq : s.ready with
      | nil => rfl
      | cons x l => rw [hq] at b1; simp at b1
    refine ⟨?_, ?_, rfl⟩
    · rw [← hst]; exact handleReconnect_eq hst
    · refine ⟨by simp [hr], by simp [hr], by simp [b2], ?_⟩
      simp only [Life, hr]
      exact ⟨a1, by trivial, by trivial, by trivial, by simp, by simp, by simp, by simp, by simp⟩
  | up => simp only [Life, hst] at h4; rw [h4.2.2.1] at hc; cases hc
  | closing => simp only [Life, hst] at h4; rw [h4.2.2.2.1] at hc; cases hc
  | failed => simp only [Life, hst] at h4; rw [h4.2.2.2.1] at hc; cases hc
  | closed => simp only [Life, hst] at h4; rw [h4.2.2.1] at hc; cases hc

theorem Inv.timer_down {s : St} (hi : Inv s) (ht : s.timer = true) : s.state = .down := by
  have h4 := hi.life
  cases hst : s.state with
  | down => rfl
  | up => simp only [Life, hst] at h4; rw [h4.2.2.2.1] at ht; cases ht
  | closing => simp only [Life, hst] at h4; rw [h4.2.2.2.2.1] at ht; cases ht
  | failed => simp only [Life, hst] at h4; rw [h4.2.2.2.2.1] at ht; cases ht
  | closed => simp only [Life, hst] at h4; rw [h4.2.2.2.1] at ht; cases ht

theorem timer_inv {s : St} (hi : Inv s) (ht : s.timer = true) : Inv (handleReconnectTimeout { s with timer := false }) := by
  have hst := hi.timer_down ht
  obtain ⟨h1, h2, h3, h4⟩ := hi
  simp only [Life, hst] at h4
  obtain ⟨a1, a2, a3, a4, a5, a6⟩ := h4
  have hq : ∀ x ∈ abortions { s with timer := false } ++ [Handler.reconnect], x.quiet = true := by
    intro x hx
    rcases List.mem_append.1 hx with hx | hx
    · exact abortions_quiet hx
    · cases List.mem_singleton.1 hx; rfl
  refine ⟨?_, ?_, by simp [handleReconnectTimeout, post, cancel_eq], ?_⟩
  · simp only [handleReconnectTimeout, post, cancel_eq, List.append_assoc]
    exact tail_append h1 hq
  · intro m hm
    simp only [handleReconnectTimeout, post, cancel_eq, List.append_assoc] at hm ⊢
    rcases List.mem_append.1 hm with hm | hm
    · exact ⟨by trivial, (h2 m hm).2⟩
    · have := hq _ hm; cases this
  · simp only [Life, handleReconnectTimeout, post, cancel_eq, hst, List.append_assoc]
    refine ⟨a1, a2, a3, by trivial, ?_, by simp⟩
    intro x hx
    rcases List.mem_append.1 hx with hx | hx
    · exact a5 x hx
    · rcases List.mem_append.1 hx with hx | hx
      · rcases abortions_mem hx with rfl | rfl | rfl <;> exact ⟨by simp, by simp⟩
      · cases List.mem_singleton.1 hx; exact ⟨by simp, by simp⟩

theorem Inv.connecting {s : St} (hi : Inv s) (hs : s.state = .down) : Inv { s with connecting := none } := by
  obtain ⟨h1, h2, h3, h4⟩ := hi
  refine ⟨h1, h2, h3, ?_⟩
  simp only [Life, hs] at h4 ⊢
  exact ⟨h4.1, h4.2.1, h4.2.2.1, h4.2.2.2.1, h4.2.2.2.2.1, by simp⟩

theorem step_inv {s s' : St} {e : Event} (hi : Inv s) (h : step s e = .ok s') : Inv s' := by
  unfold step at h
  cases e with
  | send p => simp only at h; cases h; split; exact hi; exact send_inv hi p
  | close =>
    simp only at h
    split at h
    · cases h; exact hi
    · exact close_inv hi h
  | setPersist p =>
    simp only at h
    split at h
    · cases h; exact hi
    · exact setPersist_inv hi h
  | io w r rf =>
    simp only at h
    split at h
    · cases h
    · obtain ⟨c1, c2, c3, c4, _⟩ := io_cases hi w r _ _ rfl rfl
      generalize hx : doWrite s w = x at *
      generalize hy : doRead x.1 r = y at *
      cases hx2 : x.2 with
      | none =>
        cases hy2 : y.2 with
        | none =>
          rw [hx2, hy2] at h
          simp only [complete, ite_self] at h
          cases h; exact c1
        | some b =>
          rw [hx2, hy2] at h
          simp only [complete, ite_self] at h
          exact handle_inv c1 (c3 b hx2 hy2).1 h
      | some a =>
        cases hy2 : y.2 with
        | none =>
          rw [hx2, hy2] at h
          simp only [complete, ite_self] at h
          exact handle_inv c1 (c2 a hx2 hy2) h
        | some b =>
          rw [hx2, hy2] at h
          obtain ⟨_, d1, d2, d3, d4⟩ := c4 a b hx2 hy2
          simp only [complete] at h
          split at h
          · exact handle_inv d1 d2 h
          · exact handle_inv d3 d4 h
  | connect ok =>
    simp only at h
    split at h
    · cases h; exact hi
    · rename_i hc
      simp only [ne_eq, Decidable.not_not] at hc
      obtain ⟨ht, hti, hst⟩ := connect_inv hi hc
      split at h
      · cases h
      · split at h
        · rw [ht] at h; cases h; exact hti
        · cases h; exact hi.connecting hst
  | timer =>
    simp only at h
    split at h
    · cases h; exact hi
    · rename_i ht
      split at h
      · cases h
      · cases h
        exact timer_inv hi (by simpa using ht)
  | next =>
    simp only at h
    split at h
    · cases h; exact hi
    · rename_i hd rest hr
      split at h
      · cases h
      · by_cases h1 : hd = .deferredClose
        · subst h1
          obtain ⟨t, ht, hti⟩ := deferredClose_inv hi hr
          simp only [handle, ht] at h; cases h; exact hti
        · by_cases h2 : hd = .dealloc
          · subst h2
            cases h
            exact dealloc_inv hi hr
          · obtain ⟨p1, p2⟩ := pop_inv hi hr h1 h2
            exact handle_inv p1 p2 h

/-- A step ends the run only by the two known faults, in the handler of a successful read that was queued behind another handler, when the
transport is not UP any more. -/
theorem step_err {s : St} {e : Event} {f : Fault} (hi : Inv s) (h : step s e = .error f) :
    e = .next ∧ (f = .receiveNotUp ∨ f = .transition) ∧ s.state ≠ .up ∧ ∃ c rest, s.ready = .readOk c :: rest := by
  unfold step at h
  cases e with
  | send p => cases h
  | close =>
    simp only at h
    obtain ⟨t, ht⟩ := close_ok s
    split at h
    · cases h
    · rw [ht] at h; cases h
  | setPersist p =>
    simp only at h
    obtain ⟨t, ht⟩ := setPersist_ok s p
    split at h
    · cases h
    · rw [ht] at h; cases h
  | io w r rf =>
    simp only at h
    exfalso
    split at h
    · rename_i hd
      simp only [Bool.and_eq_true, Bool.or_eq_true] at hd
      have hcl := hi.dead_closed hd.1
      rcases hd.2 with h | h
      · have := hi.reading_up h; rw [hcl] at this; cases this
      · have := (hi.writing_state h).1; rw [hcl] at this; rcases this with h | h <;> cases h
    · obtain ⟨c1, c2, c3, c4, c5, c6⟩ := io_cases hi w r _ _ rfl rfl
      generalize hx : doWrite s w = x at *
      generalize hy : doRead x.1 r = y at *
      cases hx2 : x.2 with
      | none =>
        cases hy2 : y.2 with
        | none =>
          rw [hx2, hy2] at h
          simp only [complete, ite_self] at h
          cases h
        | some b =>
          rw [hx2, hy2] at h
          simp only [complete, ite_self] at h
          exact (handle_err c1 (c3 b hx2 hy2).1 h).2.1 (c3 b hx2 hy2).2
      | some a =>
        cases hy2 : y.2 with
        | none =>
          rw [hx2, hy2] at h
          simp only [complete, ite_self] at h
          obtain ⟨_, _, c, rfl⟩ := handle_err c1 (c2 a hx2 hy2) h
          have := c5 _ hx2; cases this
        | some b =>
          rw [hx2, hy2] at h
          obtain ⟨d0, d1, d2, d3, d4⟩ := c4 a b hx2 hy2
          simp only [complete] at h
          split at h
          · exact (handle_err d1 d2 h).2.1 d0
          · exact (handle_err d3 d4 h).2.1 d0
  | connect ok =>
    simp only at h
    split at h
    · cases h
    · rename_i hc
      simp only [ne_eq, Decidable.not_not] at hc
      obtain ⟨ht, hti, hst⟩ := connect_inv hi hc
      split at h
      · rename_i hd; have := hi.dead_closed hd; rw [hst] at this; cases this
      · split at h
        · rw [ht] at h; cases h
        · cases h
  | timer =>
    simp only at h
    split at h
    · cases h
    · rename_i ht
      split at h
      · rename_i hd; have := hi.dead_closed hd; rw [hi.timer_down (by simpa using ht)] at this; cases this
      · cases h
  | next =>
    simp only at h
    split at h
    · cases h
    · rename_i hd rest hr
      split at h
      · rename_i hde
        have hl := hi.life
        have hst := hi.dead_closed hde
        simp only [Life, hst] at hl
        have := hl.2.2.2.2.1 hde
        rw [hr] at this; cases this
      · by_cases h1 : hd = .deferredClose
        · subst h1
          obtain ⟨t, ht, hti⟩ := deferredClose_inv hi hr
          simp only [handle, ht] at h; cases h
        · by_cases h2 : hd = .dealloc
          · subst h2
            cases h
          · obtain ⟨p1, p2⟩ := pop_inv hi hr h1 h2
            obtain ⟨e1, e2, c, rfl⟩ := handle_err p1 p2 h
            exact ⟨rfl, e1, e2, c, rest, hr⟩

theorem run_inv {s s' : St} {es : List Event} (hi : Inv s) (h : run s es = .ok s') : Inv s' := by
  induction es generalizing s with
  | nil => cases h; exact hi
  | cons e es ih =>
    simp only [run, bind_ok] at h
    obtain ⟨t, h1, h2⟩ := h
    exact ih (step_inv hi h1) h2

theorem run_append {s : St} {es es' : List Event} : run s (es ++ es') = (run s es >>= fun t => run t es') := by
  induction es generalizing s with
  | nil => rfl
  | cons e es ih =>
    simp only [List.cons_append, run]
    cases h : step s e with
    | error f => rfl
    | ok t => simp only [bind, Except.bind] at ih ⊢; exact ih

theorem run_error {s : St} {es : List Event} {f : Fault} (h : run s es = .error f) :
    ∃ es1 e es2 t, es = es1 ++ e :: es2 ∧ run s es1 = .ok t ∧ step t e = .error f := by
  induction es generalizing s with
  | nil => cases h
  | cons e es ih =>
    simp only [run] at h
    cases hs : step s e with
    | error g =>
      rw [hs] at h
      cases h
      exact ⟨[], e, es, s, rfl, rfl, hs⟩
    | ok t =>
      rw [hs] at h
      obtain ⟨es1, e', es2, t', h1, h2, h3⟩ := ih h
      exact ⟨e :: es1, e', es2, t', by rw [h1]; rfl, by simp only [run, hs]; exact h2, h3⟩

end Verif.Tp
