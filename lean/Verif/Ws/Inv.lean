import Verif.Ws.Spec

namespace Verif.Ws
open Verif.Lp (Bytes readElem)
open Verif.Tp (TState validTransition)

def isPinged : Obs → Bool
  | .pinged _ => true
  | _ => false
def isPonged : Obs → Bool
  | .ponged _ => true
  | _ => false

/-- There was a ping at `p`, and no pong since. -/
def Since (p : Nat) (l : List Obs) : Prop := ∃ pre mid, l = pre ++ .pinged p :: mid ∧ ∀ o ∈ mid, ∀ t, o ≠ .ponged t

/-- A face that is UP. -/
structure Up (now : Nat) (c : Conn) : Prop where
  fault : c.fault = none
  state : c.state = .up
  known : c.known = true
  sess : c.sess ≠ .gone
  noState : states c.log = []
  deliv : delivered c.log = (messages c.log).filterMap firstPacket
  sent : accepted c.log = written c.log
  pings : c.nOutPings = c.log.countP isPinged
  pongs : c.nInPongs = c.log.countP isPonged
  timer : ∃ d t, c.ping = some d ∧ now ≤ d ∧ d ≤ now + 10000 ∧ (.opened t ∈ c.log ∨ .ponged t ∈ c.log) ∧ t ≤ now ∧
    (c.pong = none ∧ d ≤ t + 10000 ∨ ∃ p, c.pong = some (p + 5000) ∧ now ≤ p + 5000 ∧ p ≤ t + 10000 ∧ d = p + 10000 ∧ Since p c.log)
  late : ∀ t, .timeout t ∉ c.log

/-- The log of a face up to its last moment, and what comes after. -/
structure Final (c : Conn) (l m : List Obs) (x : TState) : Prop where
  log : c.log = l ++ .state x :: .state .closed :: m
  way : x = .failed ∨ x = .closing
  noState : states l = []
  after : ∀ o ∈ m, (∃ b, o = .message b) ∨ ∃ t, o = .ponged t
  deliv : delivered l = (messages l).filterMap firstPacket
  sent : accepted l = written l ∨ ∃ p, accepted l = written l ++ [p]
  pings : c.nOutPings = l.countP isPinged
  pongs : c.nInPongs = l.countP isPonged
  late : ∀ t, .timeout t ∈ l → ∃ l0 p, l = l0 ++ [.timeout t] ∧ t = p + 5000 ∧ Since p l0

structure Dead (c : Conn) : Prop where
  fault : c.fault = none
  state : c.state = .closed
  known : c.known = false
  ping : c.ping = none
  sess : c.sess ≠ .live
  final : ∃ l m x, Final c l m x

theorem Since.append {p : Nat} {l m : List Obs} (h : Since p l) (hm : ∀ o ∈ m, ∀ t, o ≠ .ponged t) : Since p (l ++ m) := by
  obtain ⟨pre, mid, rfl, h⟩ := h
  refine ⟨pre, mid ++ m, by simp, ?_⟩
  intro o ho
  rcases List.mem_append.1 ho with ho | ho
  · exact h o ho
  · exact hm o ho

/-- Closing a face that is UP, by way of `x`. -/
theorem kill {now : Nat} {c c' : Conn} {x : TState} {m : List Obs} (h : Up now c) (hx : x = .failed ∨ x = .closing)
    (hc : c' = doClose (setState { c with log := c.log ++ m } x) ∨ ∃ s, s ≠ .live ∧ c' = doClose (setState { c with log := c.log ++ m, sess := s } x) ∨
      ∃ q r, c' = doClose (setState { c with log := c.log ++ m, ping := q, pong := r } x))
    (hm : m = [] ∨ (∃ p, m = [.accepted p]) ∨ ∃ p, m = [.timeout (p + 5000)] ∧ Since p c.log) : Dead c' := by
  have hv : validTransition .up x = true := by rcases hx with rfl | rfl <;> rfl
  have hv2 : validTransition x .closed = true := by rcases hx with rfl | rfl <;> rfl
  have hne : TState.up ≠ x := by rcases hx with rfl | rfl <;> decide
  have hne2 : x ≠ .closed := by rcases hx with rfl | rfl <;> decide
  have key : ∀ s q r, (∀ h0 : s = .live, True) → doClose (setState { c with log := c.log ++ m, sess := s, ping := q, pong := r } x) =
      { c with log := c.log ++ m ++ [.state x] ++ [.state .closed], sess := (if s = .live then .closing else s), ping := none, pong := r, state := .closed, known := false } := by
    intro s q r _
    have h1 : setState { c with log := c.log ++ m, sess := s, ping := q, pong := r } x =
        { c with log := c.log ++ m ++ [.state x], sess := s, ping := q, pong := r, state := x } := by
      unfold setState
      simp only [h.state, hne, hv, if_false, if_true, hne2, Conn.note, h.known]
    rw [h1]
    unfold doClose setState
    simp only [hne2, hv2, if_false, if_true, Conn.note]
  have hfin : ∀ s q, Final ({ c with log := c.log ++ m ++ [.state x] ++ [.state .closed], sess := s, ping := none, pong := q, state := .closed, known := false } : Conn)
      (c.log ++ m) [] x := by
    intro s q
    have e1 : states m = [] ∧ delivered m = [] ∧ messages m = [] ∧ written m = [] ∧ m.countP isPinged = 0 ∧ m.countP isPonged = 0 := by
      rcases hm with rfl | ⟨p, rfl⟩ | ⟨p, rfl, -⟩ <;> exact ⟨rfl, rfl, rfl, rfl, rfl, rfl⟩
    obtain ⟨e1, e2, e3, e4, e5, e6⟩ := e1
    refine ⟨by simp, hx, ?_, by simp, ?_, ?_, ?_, ?_, ?_⟩
    · have := h.noState
      unfold states at *; rw [List.filterMap_append, this, e1]; rfl
    · have := h.deliv
      unfold delivered messages at *
      rw [List.filterMap_append, List.filterMap_append, this, e2, e3]; simp
    · have := h.sent
      unfold accepted written at *
      rw [List.filterMap_append, List.filterMap_append, this, e4, List.append_nil]
      rcases hm with rfl | ⟨p, rfl⟩ | ⟨p, rfl, -⟩
      · exact Or.inl (by simp)
      · exact Or.inr ⟨p, rfl⟩
      · exact Or.inl (by simp)
    · rw [List.countP_append, e5]; exact h.pings
    · rw [List.countP_append, e6]; exact h.pongs
    · intro t ht
      rcases List.mem_append.1 ht with ht | ht
      · exact absurd ht (h.late t)
      · rcases hm with rfl | ⟨p, rfl⟩ | ⟨p, rfl, hs⟩
        · cases ht
        · cases List.mem_singleton.1 ht
        · cases List.mem_singleton.1 ht
          exact ⟨c.log, p, rfl, rfl, hs⟩
  have hdead : ∀ s q r, c' = doClose (setState { c with log := c.log ++ m, sess := s, ping := q, pong := r } x) → Dead c' := by
    intro s q r he
    rw [key s q r (fun _ => trivial)] at he
    subst he
    refine ⟨h.fault, rfl, rfl, rfl, ?_, _, _, _, hfin _ _⟩
    show (if s = .live then Sess.closing else s) ≠ .live
    by_cases hs : s = .live
    · rw [if_pos hs]; decide
    · rw [if_neg hs]; exact hs
  rcases hc with hc | ⟨s, ⟨-, hc⟩ | ⟨q, r, hc⟩⟩
  · exact hdead c.sess c.ping c.pong hc
  · exact hdead s c.ping c.pong hc
  · exact hdead c.sess q r hc

theorem close_dead {now : Nat} {c : Conn} (h : Up now c) (s : Sess) (hs : s = c.sess ∨ s ≠ .live) : Dead (close { c with sess := s }) := by
  unfold close
  rw [if_neg (by simp [h.state])]
  rcases hs with rfl | hs
  · exact kill (m := []) h (Or.inr rfl) (Or.inl (by simp)) (Or.inl rfl)
  · exact kill (m := []) h (Or.inr rfl) (Or.inr ⟨s, Or.inl ⟨hs, by simp⟩⟩) (Or.inl rfl)

/-- Appending something that concerns neither timers nor states. -/
theorem Up.extend {now : Nat} {c : Conn} (h : Up now c) {m : List Obs} (h1 : states m = []) (h2 : delivered m = (messages m).filterMap firstPacket)
    (h3 : accepted m = written m) (h4 : m.countP isPinged = 0) (h5 : m.countP isPonged = 0) (h6 : ∀ o ∈ m, ∀ t, o ≠ .ponged t) (h7 : ∀ t, .timeout t ∉ m) :
    Up now (c.note m) := by
  refine ⟨h.fault, h.state, h.known, h.sess, ?_, ?_, ?_, ?_, ?_, ?_, ?_⟩
  · have := h.noState
    show states (c.log ++ m) = []
    unfold states at *; rw [List.filterMap_append, this, h1]; rfl
  · have := h.deliv
    show delivered (c.log ++ m) = (messages (c.log ++ m)).filterMap firstPacket
    unfold delivered messages at *
    rw [List.filterMap_append, List.filterMap_append, List.filterMap_append, this, h2]
  · have := h.sent
    show accepted (c.log ++ m) = written (c.log ++ m)
    unfold accepted written at *
    rw [List.filterMap_append, List.filterMap_append, this, h3]
  · show _ = (c.log ++ m).countP isPinged
    rw [List.countP_append, h4]; exact h.pings
  · show _ = (c.log ++ m).countP isPonged
    rw [List.countP_append, h5]; exact h.pongs
  · obtain ⟨d, t, g1, g2, g3, g4, g5, g6⟩ := h.timer
    refine ⟨d, t, g1, g2, g3, g4.imp (List.mem_append_left _) (List.mem_append_left _), g5, g6.imp id ?_⟩
    rintro ⟨p, k1, k2, k3, k4, k5⟩
    exact ⟨p, k1, k2, k3, k4, k5.append h6⟩
  · intro t ht
    rcases List.mem_append.1 ht with ht | ht
    · exact h.late t ht
    · exact h7 t ht

theorem cstep_up {now : Nat} {c c' : Conn} {e : CEvent} (h : Up now c) (hs : cstep now c e = some c') : Up now c' ∨ Dead c' := by
  unfold cstep at hs
  cases e with
  | message b =>
    dsimp only at hs
    rw [if_neg h.sess, if_pos h.known] at hs
    cases hs
    left
    unfold receiveMessage
    split
    · rename_i hr
      refine h.extend rfl ?_ rfl rfl rfl (by simp) (by simp)
      show [] = List.filterMap firstPacket [b]
      simp [firstPacket, hr]
    · rename_i x r hr
      have : ((c.note [.message b]).note [.deliver (b.take (b.length - r.length))]) = c.note [.message b, .deliver (b.take (b.length - r.length))] := by
        simp [Conn.note]
      rw [this]
      refine h.extend rfl ?_ rfl rfl rfl (by simp) (by simp)
      show [b.take (b.length - r.length)] = List.filterMap firstPacket [b]
      simp [firstPacket, hr]
  | pong =>
    dsimp only at hs
    rw [if_neg h.sess] at hs
    have hk : (({ c with pong := none } : Conn).note [.ponged now]).known = true := h.known
    rw [if_pos hk] at hs
    cases hs
    left
    refine ⟨h.fault, h.state, h.known, h.sess, ?_, ?_, ?_, ?_, ?_, ?_, ?_⟩
    · have := h.noState
      show states (c.log ++ [.ponged now]) = []
      unfold states at *; rw [List.filterMap_append, this]; rfl
    · have := h.deliv
      show delivered (c.log ++ [.ponged now]) = (messages (c.log ++ [.ponged now])).filterMap firstPacket
      unfold delivered messages at *
      rw [List.filterMap_append, List.filterMap_append, List.filterMap_append, this]; rfl
    · have := h.sent
      show accepted (c.log ++ [.ponged now]) = written (c.log ++ [.ponged now])
      unfold accepted written at *
      rw [List.filterMap_append, List.filterMap_append, this]; rfl
    · show _ = (c.log ++ [Obs.ponged now]).countP isPinged
      rw [List.countP_append]; exact h.pings
    · show c.nInPongs + 1 = (c.log ++ [Obs.ponged now]).countP isPonged
      rw [List.countP_append, h.pongs]; rfl
    · obtain ⟨d, t, g1, g2, g3, -⟩ := h.timer
      exact ⟨d, now, g1, g2, g3, Or.inr (List.mem_append_right _ (List.mem_singleton_self _)), Nat.le_refl _, Or.inl ⟨rfl, g3⟩⟩
    · intro t ht
      rcases List.mem_append.1 ht with ht | ht
      · exact h.late t ht
      · cases List.mem_singleton.1 ht
  | pongTimer =>
    dsimp only at hs
    obtain ⟨d, t, g1, g2, g3, g4, g5, g6⟩ := h.timer
    rcases g6 with ⟨g6, -⟩ | ⟨p, g6, k1, k2, k3, k4⟩
    · rw [g6] at hs; cases hs
    · rw [g6] at hs
      dsimp only at hs
      split at hs
      · rename_i hle
        rw [if_pos h.known] at hs
        cases hs
        right
        have hnow : now = p + 5000 := by omega
        exact kill (m := [.timeout now]) h (Or.inl rfl) (Or.inr ⟨.gone, Or.inr ⟨c.ping, none, by simp [handlePongTimeout, Conn.note]⟩⟩)
          (Or.inr (Or.inr ⟨p, by rw [hnow], k4⟩))
      · cases hs
  | pingTimer =>
    dsimp only at hs
    obtain ⟨d, t, g1, g2, g3, g4, g5, g6⟩ := h.timer
    rw [g1] at hs
    dsimp only at hs
    split at hs
    · rename_i hle
      cases hs
      unfold sendPing
      have hnow : now = d := by omega
      have g7 : c.pong = none ∧ d ≤ t + 10000 := by
        rcases g6 with g6 | ⟨p, k0, k1, k2, k3, k4⟩
        · exact g6
        · omega
      split
      · left
        refine ⟨h.fault, h.state, h.known, h.sess, ?_, ?_, ?_, ?_, ?_, ?_, ?_⟩
        · have := h.noState
          show states (c.log ++ [.pinged now]) = []
          unfold states at *; rw [List.filterMap_append, this]; rfl
        · have := h.deliv
          show delivered (c.log ++ [.pinged now]) = (messages (c.log ++ [.pinged now])).filterMap firstPacket
          unfold delivered messages at *
          rw [List.filterMap_append, List.filterMap_append, List.filterMap_append, this]; rfl
        · have := h.sent
          show accepted (c.log ++ [.pinged now]) = written (c.log ++ [.pinged now])
          unfold accepted written at *
          rw [List.filterMap_append, List.filterMap_append, this]; rfl
        · show c.nOutPings + 1 = (c.log ++ [Obs.pinged now]).countP isPinged
          rw [List.countP_append, h.pings]; rfl
        · show _ = (c.log ++ [Obs.pinged now]).countP isPonged
          rw [List.countP_append]; exact h.pongs
        · refine ⟨now + 10000, t, rfl, by omega, by omega, g4.imp (List.mem_append_left _) (List.mem_append_left _), by omega, Or.inr ⟨now, rfl, by omega, by omega, rfl, ?_⟩⟩
          exact ⟨c.log, [], rfl, by simp⟩
        · intro t ht
          rcases List.mem_append.1 ht with ht | ht
          · exact h.late t ht
          · cases List.mem_singleton.1 ht
      · right
        have hst : ¬(({ c with ping := none } : Conn).state = .closing ∨ ({ c with ping := none } : Conn).state = .failed ∨ ({ c with ping := none } : Conn).state = .closed) := by
          simp [h.state]
        unfold processErrorCode
        rw [if_neg hst]
        exact kill (m := []) h (Or.inl rfl) (Or.inr ⟨.gone, Or.inr ⟨none, c.pong, by simp⟩⟩) (Or.inl rfl)
    · cases hs
  | send p =>
    cases hs
    unfold send
    rw [if_neg (by simp [h.state]), if_pos h.state]
    unfold doSend
    split
    · left
      have : (c.note [.accepted p]).note [.wrote p] = c.note [.accepted p, .wrote p] := by simp [Conn.note]
      rw [this]
      exact h.extend rfl rfl rfl rfl rfl (by simp) (by simp)
    · right
      unfold processErrorCode
      rw [if_neg (by show ¬(c.state = _ ∨ c.state = _ ∨ c.state = _); simp [h.state])]
      exact kill (m := [.accepted p]) h (Or.inl rfl) (Or.inl rfl) (Or.inr (Or.inl ⟨p, rfl⟩))
  | closeFrame =>
    dsimp only at hs
    split at hs <;> cases hs
    left
    exact ⟨h.fault, h.state, h.known, (fun h => by cases h), h.noState, h.deliv, h.sent, h.pings, h.pongs, h.timer, h.late⟩
  | terminated =>
    dsimp only at hs
    rw [if_neg h.sess, if_pos h.known] at hs
    cases hs
    exact Or.inr (close_dead h .gone (Or.inr (by decide)))
  | close =>
    cases hs
    exact Or.inr (close_dead h c.sess (Or.inl rfl))

theorem Final.note {c : Conn} {l m : List Obs} {x : TState} (h : Final c l m x) {o : Obs} (ho : (∃ b, o = .message b) ∨ ∃ t, o = .ponged t) :
    Final (c.note [o]) l (m ++ [o]) x := by
  refine ⟨?_, h.way, h.noState, ?_, h.deliv, h.sent, h.pings, h.pongs, h.late⟩
  · show c.log ++ [o] = _
    rw [h.log]; simp
  · intro y hy
    rcases List.mem_append.1 hy with hy | hy
    · exact h.after y hy
    · rw [List.mem_singleton.1 hy]; exact ho

theorem cstep_dead {now : Nat} {c c' : Conn} {e : CEvent} (h : Dead c) (hs : cstep now c e = some c') : Dead c' := by
  have hk : ¬(c.known = true) := by rw [h.known]; decide
  obtain ⟨l, m, x, hf⟩ := h.final
  have hq : ∀ q s, s ≠ .live → Dead { c with pong := q, sess := s } := fun q s hs =>
    ⟨h.fault, h.state, h.known, h.ping, hs, l, m, x, hf.log, hf.way, hf.noState, hf.after, hf.deliv, hf.sent, hf.pings, hf.pongs, hf.late⟩
  unfold cstep at hs
  cases e with
  | message b =>
    dsimp only at hs
    split at hs
    · cases hs
    · cases hs
      exact ⟨h.fault, h.state, h.known, h.ping, h.sess, l, _, x, hf.note (Or.inl ⟨b, rfl⟩)⟩
  | pong =>
    dsimp only at hs
    split at hs
    · cases hs
    · have hk' : ¬((({ c with pong := none } : Conn).note [.ponged now]).known = true) := hk
      rw [if_neg hk'] at hs
      cases hs
      have := hf.note (o := .ponged now) (Or.inr ⟨now, rfl⟩)
      exact ⟨h.fault, h.state, h.known, h.ping, h.sess, l, _, x, this.log, this.way, this.noState, this.after, this.deliv, this.sent, this.pings, this.pongs, this.late⟩
  | pongTimer =>
    dsimp only at hs
    split at hs
    · split at hs
      · cases hs
        exact hq none c.sess h.sess
      · cases hs
    · cases hs
  | pingTimer =>
    dsimp only at hs
    rw [h.ping] at hs
    cases hs
  | send p =>
    cases hs
    unfold send
    rw [if_pos (by simp [h.state])]
    exact h
  | closeFrame =>
    dsimp only at hs
    rw [if_neg h.sess] at hs
    cases hs
  | terminated =>
    dsimp only at hs
    split at hs
    · cases hs
    · cases hs
      exact hq c.pong .gone (by decide)
  | close =>
    cases hs
    unfold close
    rw [if_pos (by simp [h.state])]
    exact h

/-- A connection that was reset while its face was made. -/
def Lost (c : Conn) : Prop := c.fault = some .exception ∧ c.log = []

def CInv (now : Nat) (c : Conn) : Prop := Up now c ∨ Dead c ∨ Lost c

structure Inv (s : St) : Prop where
  conns : ∀ c ∈ s.conns, CInv s.now c

theorem open_up (now : Nat) : Up now (handleOpen now false) := by
  refine ⟨rfl, rfl, rfl, (fun h => by cases h), rfl, rfl, rfl, rfl, rfl, ⟨now + 10000, now, rfl, by omega, by omega, Or.inl (by simp [handleOpen, Conn.note]), Nat.le_refl _, Or.inl ⟨rfl, by omega⟩⟩, ?_⟩
  intro t ht
  cases List.mem_singleton.1 ht

theorem step_inv {s s' : St} {e : Event} (h : Inv s) (hs : step s e = some s') : Inv s' := by
  unfold step at hs
  split at hs
  · cases hs
  · rename_i hnf
    cases e with
    | opened reset =>
      cases hs
      constructor
      intro c hc
      rcases List.mem_append.1 hc with hc | hc
      · exact h.conns c hc
      · rw [List.mem_singleton.1 hc]
        cases reset
        · exact Or.inl (open_up _)
        · exact Or.inr (Or.inr ⟨rfl, rfl⟩)
    | on i e =>
      simp only [Option.bind_eq_some_iff, Option.map_eq_some_iff] at hs
      obtain ⟨c, hc, c', hc', rfl⟩ := hs
      constructor
      intro y hy
      rcases List.mem_or_eq_of_mem_set hy with hy | rfl
      · exact h.conns y hy
      · rcases h.conns c (List.mem_of_getElem? hc) with hu | hd | hl
        · rcases cstep_up hu hc' with h1 | h1
          · exact Or.inl h1
          · exact Or.inr (Or.inl h1)
        · exact Or.inr (Or.inl (cstep_dead hd hc'))
        · exfalso
          apply hnf
          rw [List.any_eq_true]
          exact ⟨c, List.mem_of_getElem? hc, by rw [hl.1]; rfl⟩
    | tick dt =>
      dsimp only at hs
      split at hs
      · rename_i hall
        cases hs
        rw [List.all_eq_true] at hall
        constructor
        intro c hc
        rcases h.conns c hc with hu | hd | hl
        · left
          have := hall c hc
          simp only [Bool.and_eq_true] at this
          obtain ⟨a1, a2⟩ := this
          refine ⟨hu.fault, hu.state, hu.known, hu.sess, hu.noState, hu.deliv, hu.sent, hu.pings, hu.pongs, ?_, hu.late⟩
          obtain ⟨d, t, g1, g2, g3, g4, g5, g6⟩ := hu.timer
          rw [g1] at a1
          have a1 : s.now + dt ≤ d := of_decide_eq_true a1
          refine ⟨d, t, g1, a1, ?_, g4, ?_, ?_⟩
          · show d ≤ s.now + dt + 10000; omega
          · show t ≤ s.now + dt; omega
          · refine g6.imp id ?_
            rintro ⟨p, k1, k2, k3, k4, k5⟩
            rw [k1] at a2
            exact ⟨p, k1, of_decide_eq_true a2, k3, k4, k5⟩
        · exact Or.inr (Or.inl hd)
        · exact Or.inr (Or.inr hl)
      · cases hs

theorem run_inv : ∀ {l : List Event} {s s' : St}, Inv s → run s l = some s' → Inv s'
  | [], s, s', h, hr => by cases hr; exact h
  | e :: l, s, s', h, hr => by
    simp only [run, Option.bind_eq_some_iff] at hr
    obtain ⟨s1, h1, h2⟩ := hr
    exact run_inv (step_inv h h1) h2

theorem init_inv : Inv {} := ⟨fun c hc => by cases hc⟩

end Verif.Ws
