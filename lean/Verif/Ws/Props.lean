import Verif.Ws.Inv

/-
C110: WebSocket faces.
-/
namespace Verif.Ws
open Verif.Lp (Bytes readElem)
open Verif.Tp (TState)

/-! ### Lemmas -/

theorem states_mem {l : List Obs} {x : TState} (h : .state x ∈ l) : x ∈ states l := by
  unfold states
  rw [List.mem_filterMap]
  exact ⟨_, h, rfl⟩

theorem Up.exists {now : Nat} {c : Conn} (h : Up now c) : Exists c := by
  intro hm
  have := states_mem hm
  rw [h.noState] at this
  cases this

theorem Dead.gone {c : Conn} (h : Dead c) : ¬Exists c := by
  obtain ⟨l, m, x, hf⟩ := h.final
  intro he
  apply he
  rw [hf.log]
  simp

theorem takeWhile_all {α : Type} {p : α → Bool} : ∀ {l : List α}, (∀ x ∈ l, p x = true) → l.takeWhile p = l
  | [], _ => rfl
  | a :: l, h => by
    rw [List.takeWhile_cons, if_pos (h a (List.mem_cons_self ..)), takeWhile_all (fun x hx => h x (List.mem_cons_of_mem _ hx))]

theorem Up.untilClosed {now : Nat} {c : Conn} (h : Up now c) : untilClosed c.log = c.log := by
  apply takeWhile_all
  intro o ho
  have := h.exists
  by_cases hc : o = .state .closed
  · rw [hc] at ho; exact absurd ho this
  · simp [hc]

theorem Final.untilClosed {c : Conn} {l m : List Obs} {x : TState} (h : Final c l m x) : untilClosed c.log = l ++ [.state x] := by
  have hl : ∀ o ∈ l ++ [.state x], (o != .state .closed) = true := by
    intro o ho
    rcases List.mem_append.1 ho with ho | ho
    · by_cases hc : o = .state .closed
      · rw [hc] at ho
        have := states_mem ho
        rw [h.noState] at this
        cases this
      · simp [hc]
    · rw [List.mem_singleton.1 ho]
      rcases h.way with rfl | rfl <;> decide
  unfold Ws.untilClosed
  rw [h.log, show l ++ .state x :: .state .closed :: m = (l ++ [.state x]) ++ .state .closed :: m by simp]
  rw [List.takeWhile_append, takeWhile_all hl]
  simp

theorem after_nil {m : List Obs} (h : ∀ o ∈ m, (∃ b, o = .message b) ∨ ∃ t, o = .ponged t) :
    delivered m = [] ∧ accepted m = [] ∧ written m = [] ∧ states m = [] ∧ m.countP isPinged = 0 ∧ ∀ t, .timeout t ∉ m := by
  refine ⟨?_, ?_, ?_, ?_, ?_, ?_⟩
  · unfold delivered
    rw [List.filterMap_eq_nil_iff]
    intro o ho
    rcases h o ho with ⟨b, rfl⟩ | ⟨t, rfl⟩ <;> rfl
  · unfold accepted
    rw [List.filterMap_eq_nil_iff]
    intro o ho
    rcases h o ho with ⟨b, rfl⟩ | ⟨t, rfl⟩ <;> rfl
  · unfold written
    rw [List.filterMap_eq_nil_iff]
    intro o ho
    rcases h o ho with ⟨b, rfl⟩ | ⟨t, rfl⟩ <;> rfl
  · unfold states
    rw [List.filterMap_eq_nil_iff]
    intro o ho
    rcases h o ho with ⟨b, rfl⟩ | ⟨t, rfl⟩ <;> rfl
  · rw [List.countP_eq_zero]
    intro o ho
    rcases h o ho with ⟨b, rfl⟩ | ⟨t, rfl⟩ <;> exact Bool.false_ne_true
  · intro t ht
    rcases h _ ht with ⟨b, hb⟩ | ⟨t, ht⟩
    · cases hb
    · cases ht

theorem conn_inv {l : List Event} {s : St} (h : run {} l = some s) {c : Conn} (hc : c ∈ s.conns) (hf : c.fault = none) : Up s.now c ∨ Dead c := by
  rcases (run_inv init_inv h).conns c hc with hu | hd | hl
  · exact Or.inl hu
  · exact Or.inr hd
  · have := hl.1; rw [hf] at this; cases this

theorem bracket {α : Type} (a b c : List α) : a ++ b ++ c = a ++ (b ++ c) := List.append_assoc a b c

/-! ### Properties -/

/-- C110: each message of the peer becomes one packet, the TLV element it begins with, or nothing if it does not begin with one; in order, as long as the
face exists. -/
theorem C110_receive {l : List Event} {s : St} (h : run {} l = some s) {c : Conn} (hc : c ∈ s.conns) (hf : c.fault = none) :
    delivered c.log = (messages (untilClosed c.log)).filterMap firstPacket := by
  rcases conn_inv h hc hf with hu | hd
  · rw [hu.untilClosed]; exact hu.deliv
  · obtain ⟨l, m, x, hx⟩ := hd.final
    have h1 := hx.deliv
    have h2 := (after_nil hx.after).1
    rw [hx.untilClosed, hx.log]
    unfold delivered messages at *
    rw [List.filterMap_append, List.filterMap_append, h1]
    simp [h2]

/-- C110: each packet sent on a face becomes one message, in order; the only one to be lost is the one whose loss closes the face. -/
theorem C110_send {l : List Event} {s : St} (h : run {} l = some s) {c : Conn} (hc : c ∈ s.conns) (hf : c.fault = none) :
    accepted c.log = written c.log ∨ ¬Exists c ∧ ∃ p, accepted c.log = written c.log ++ [p] := by
  rcases conn_inv h hc hf with hu | hd
  · exact Or.inl hu.sent
  · obtain ⟨l, m, x, hx⟩ := hd.final
    have h1 := hx.sent
    obtain ⟨-, h2, h3, -⟩ := after_nil hx.after
    have e1 : accepted c.log = accepted l := by
      rw [hx.log]
      unfold accepted at *
      rw [List.filterMap_append]
      simp [h2]
    have e2 : written c.log = written l := by
      rw [hx.log]
      unfold written at *
      rw [List.filterMap_append]
      simp [h3]
    rw [e1, e2]
    exact h1.imp id (fun h => ⟨hd.gone, h⟩)

/-- C110: a face goes from UP by FAILED or CLOSING to CLOSED, once; and it is gone when its connection is. -/
theorem C110_states {l : List Event} {s : St} (h : run {} l = some s) {c : Conn} (hc : c ∈ s.conns) (hf : c.fault = none) :
    (states c.log = [] ∧ Exists c ∧ c.known = true ∧ c.sess ≠ .gone) ∨
    ((states c.log = [.failed, .closed] ∨ states c.log = [.closing, .closed]) ∧ ¬Exists c ∧ c.known = false ∧ c.ping = none) := by
  rcases conn_inv h hc hf with hu | hd
  · exact Or.inl ⟨hu.noState, hu.exists, hu.known, hu.sess⟩
  · right
    refine ⟨?_, hd.gone, hd.known, hd.ping⟩
    obtain ⟨l, m, x, hx⟩ := hd.final
    obtain ⟨-, -, -, h2, -⟩ := after_nil hx.after
    have : states c.log = [x, .closed] := by
      have h1 := hx.noState
      rw [hx.log]
      unfold states at *
      rw [List.filterMap_append, h1]
      simp [h2]
    rw [this]
    rcases hx.way with rfl | rfl
    · exact Or.inl rfl
    · exact Or.inr rfl

/-- C110: a peer that is not there any more is noticed: no face outlives the last pong, or the opening of its connection, by more than 15 seconds. -/
theorem C110_detects {l : List Event} {s : St} (h : run {} l = some s) {c : Conn} (hc : c ∈ s.conns) (hf : c.fault = none) (he : Exists c) :
    ∃ t, (.opened t ∈ c.log ∨ .ponged t ∈ c.log) ∧ s.now ≤ t + 15000 := by
  rcases conn_inv h hc hf with hu | hd
  · obtain ⟨d, t, g1, g2, g3, g4, g5, g6⟩ := hu.timer
    refine ⟨t, g4, ?_⟩
    rcases g6 with ⟨-, g6⟩ | ⟨p, k0, k1, k2, k3, k4⟩ <;> omega
  · exact absurd he hd.gone

/-- C110: a peer that answers is left alone: a face is only given up for want of a pong 5 seconds after a ping, none having come in between. -/
theorem C110_patient {l : List Event} {s : St} (h : run {} l = some s) {c : Conn} (hc : c ∈ s.conns) (hf : c.fault = none) {t : Nat} (ht : .timeout t ∈ c.log) :
    ∃ pre p mid post, t = p + 5000 ∧ c.log = pre ++ .pinged p :: (mid ++ .timeout t :: post) ∧ ∀ o ∈ mid, ∀ t', o ≠ .ponged t' := by
  rcases conn_inv h hc hf with hu | hd
  · exact absurd ht (hu.late t)
  · obtain ⟨l, m, x, hx⟩ := hd.final
    rw [hx.log] at ht
    obtain ⟨-, -, -, -, -, h2⟩ := after_nil hx.after
    have : .timeout t ∈ l := by
      rcases List.mem_append.1 ht with ht | ht
      · exact ht
      · rcases List.mem_cons.1 ht with ht | ht
        · cases ht
        · rcases List.mem_cons.1 ht with ht | ht
          · cases ht
          · exact absurd ht (h2 t)
    obtain ⟨l0, p, h3, h4, pre, mid, h5, h6⟩ := hx.late t this
    refine ⟨pre, p, mid, .state x :: .state .closed :: m, h4, ?_, h6⟩
    rw [hx.log, h3, h5]
    simp

/-- C110: the counters of pings and pongs are truthful. -/
theorem C110_counters {l : List Event} {s : St} (h : run {} l = some s) {c : Conn} (hc : c ∈ s.conns) (hf : c.fault = none) :
    c.nOutPings = c.log.countP (fun o => match o with | .pinged _ => true | _ => false) ∧
    c.nInPongs = (untilClosed c.log).countP (fun o => match o with | .ponged _ => true | _ => false) := by
  have e1 : (fun o : Obs => match o with | .pinged _ => true | _ => false) = isPinged := rfl
  have e2 : (fun o : Obs => match o with | .ponged _ => true | _ => false) = isPonged := rfl
  rw [e1, e2]
  rcases conn_inv h hc hf with hu | hd
  · rw [hu.untilClosed]; exact ⟨hu.pings, hu.pongs⟩
  · obtain ⟨l, m, x, hx⟩ := hd.final
    obtain ⟨-, -, -, -, h2, -⟩ := after_nil hx.after
    rw [hx.untilClosed, hx.log, hx.pings, hx.pongs]
    constructor
    · rw [List.countP_append, List.countP_cons, List.countP_cons, h2]; simp [isPinged]
    · rw [List.countP_append]; simp [isPonged]

/-- C110: what happens on one connection does not affect the others. -/
theorem C110_separate {s s' : St} {i : Nat} {e : CEvent} (h : step s (.on i e) = some s') : s'.conns.length = s.conns.length ∧ ∀ j, j ≠ i → s'.conns[j]? = s.conns[j]? := by
  unfold step at h
  split at h
  · cases h
  · simp only [Option.bind_eq_some_iff, Option.map_eq_some_iff] at h
    obtain ⟨c, hc, c', hc', rfl⟩ := h
    refine ⟨by simp, fun j hj => ?_⟩
    show (s.conns.set i c')[j]? = _
    rw [List.getElem?_set_ne (fun h => hj h.symm)]

/-- C110: no assertion fails and no exception is thrown, if no peer resets its connection between the handshake and the creation of the face. -/
theorem C110_no_fault_partial {l : List Event} {s : St} (h : run {} l = some s) (hl : .opened true ∉ l) : ∀ c ∈ s.conns, c.fault = none := by
  have key : ∀ (l : List Event) (s s' : St), Inv s → (∀ c ∈ s.conns, c.fault = none) → .opened true ∉ l → run s l = some s' → ∀ c ∈ s'.conns, c.fault = none := by
    intro l
    induction l with
    | nil => intro s s' _ h _ hr; cases hr; exact h
    | cons e l ih =>
      intro s s' hi h hl hr
      simp only [run, Option.bind_eq_some_iff] at hr
      obtain ⟨s1, h1, h2⟩ := hr
      refine ih s1 s' (step_inv hi h1) ?_ (fun hm => hl (List.mem_cons_of_mem _ hm)) h2
      intro c hc
      unfold step at h1
      split at h1
      · cases h1
      · cases e with
        | opened reset =>
          cases h1
          rcases List.mem_append.1 hc with hc | hc
          · exact h c hc
          · rw [List.mem_singleton.1 hc]
            cases reset
            · rfl
            · exact absurd (List.mem_cons_self ..) hl
        | on i e =>
          simp only [Option.bind_eq_some_iff, Option.map_eq_some_iff] at h1
          obtain ⟨c0, hc0, c', hc', rfl⟩ := h1
          rcases List.mem_or_eq_of_mem_set hc with hc | rfl
          · exact h c hc
          · have hm := List.mem_of_getElem? hc0
            rcases hi.conns c0 hm with hu | hd | hlost
            · rcases cstep_up hu hc' with h1 | h1
              · exact h1.fault
              · exact h1.fault
            · exact (cstep_dead hd hc').fault
            · have := h c0 hm
              rw [hlost.1] at this; cases this
        | tick dt =>
          dsimp only at h1
          split at h1 <;> cases h1
          exact h c hc
  exact key l {} s init_inv (fun c hc => by cases hc) hl h

/-! ### Examples -/

/-- An Interest packet of 3 octets, followed by others. -/
abbrev exMsg : Bytes := [5, 1, 7, 9, 9]

/-- Two connections: one is answered, sent to and closed by its peer; the other one is silent. -/
abbrev exRun : List Event := [.opened false, .tick 10, .opened false, .on 0 (.message exMsg), .on 0 (.send [6, 1, 2]), .tick 9990, .on 0 .pingTimer, .tick 10,
  .on 1 .pingTimer, .on 0 .pong, .tick 4990, .tick 10, .on 1 .pongTimer, .on 0 .closeFrame, .on 0 (.send [6, 0]), .on 0 (.message exMsg), .on 0 .terminated]

example : (run {} exRun).any (fun s => s.conns.map (·.log) == [
    [.opened 0, .message exMsg, .deliver [5, 1, 7], .accepted [6, 1, 2], .wrote [6, 1, 2], .pinged 10000, .ponged 10010, .accepted [6, 0], .state .failed, .state .closed, .message exMsg],
    [.opened 10, .pinged 10010, .timeout 15010, .state .failed, .state .closed]]) = true := by decide +kernel

example : (run {} (exRun.take 8)).any (fun s => s.conns.all (fun c => c.fault.isNone && c.known && !c.log.contains (.state .closed))) = true := by decide +kernel

/-! ### Violations -/

/-- C110, violation: a peer that resets its connection right after the handshake ends NFD. -/
theorem C110_crash : (run {} [.opened false, .opened true]).any (fun s => s.conns.any (fun c => c.fault == some .exception)) = true := by decide +kernel

/-- C110, violation: packets of any size are taken, also such as are longer than the longest NDN packet (8800 octets) … -/
theorem C110_oversized (now : Nat) (c : Conn) (h : Up now c) {p : Bytes} (hp : Tp.IsPacket p) : ∃ c', cstep now c (.message p) = some c' ∧ delivered c'.log = delivered c.log ++ [p] := by
  obtain ⟨e, hp⟩ := hp
  refine ⟨receiveMessage (c.note [.message p]) p, ?_, ?_⟩
  · unfold cstep
    dsimp only
    rw [if_neg h.sess, if_pos h.known]
  · unfold receiveMessage
    rw [hp]
    show delivered ((c.log ++ [.message p]) ++ [.deliver (p.take (p.length - 0))]) = _
    unfold delivered
    rw [List.filterMap_append, List.filterMap_append]
    simp

/-- … on which a stream transport fails that it is forwarded to: its face is closed. -/
theorem C110_poison {p : Bytes} (hp : Tp.IsPacket p) (hl : 8800 < p.length) (s : Tp.St) (hs : s.state = .up) (hb : s.recvBuf = []) :
    ∃ s', Tp.handleReceive s (p.take 8800) = .ok s' ∧ s'.state = .failed := by
  have h1 : readElem (p.take 8800) = none := by
    have : Tp.IsPacket (p.take 8800 ++ p.drop 8800) := by rw [List.take_append_drop]; exact hp
    refine this.prefix ?_
    intro h
    have := congrArg List.length h
    simp at this
    omega
  have h2 : (p.take 8800).length = 8800 := by simp; omega
  have h3 : Tp.parseLoop (p.take 8800).length (p.take 8800) = ([], p.take 8800) := by
    rw [h2]
    unfold Tp.parseLoop
    rw [if_neg (by intro h; rw [h] at h2; cases h2), h1]
  unfold Tp.handleReceive
  simp only [hb, List.nil_append, h3]
  rw [if_pos ⟨h2, trivial⟩]
  unfold Tp.setState
  simp only [hs, Tp.validTransition]
  exact ⟨_, rfl, rfl⟩

/-- There are such packets. -/
example : Tp.IsPacket (6 :: 253 :: 34 :: 97 :: List.replicate 8801 0) := by
  have h : (List.replicate 8801 (0 : UInt8)).length = 8801 := List.length_replicate
  generalize List.replicate 8801 (0 : UInt8) = v at h
  refine ⟨⟨6, v⟩, ?_⟩
  have h1 : v.take 8801 = v := List.take_of_length_le (by omega)
  have h2 : Lp.bigEndian [34, 97] = 8801 := by decide
  simp [readElem, Lp.readVar, h, h1, h2]

end Verif.Ws
