/-
Properties of stream transports.
-/
import Verif.Tp.Live
import Verif.Tp.Octets
import Verif.Tp.Term

namespace Verif.Tp
open Verif.Lp

/-! ### Example data -/

/-- Two packets: an element with two octets of value and one without any. -/
abbrev pkt1 : Bytes := [5, 2, 7, 9]
abbrev pkt2 : Bytes := [6, 0]

def okWith {ε α : Type} (r : Except ε α) (f : α → Bool) : Bool := match r with | .ok s => f s | _ => false
def errIs {α : Type} (r : Except Fault α) (g : Fault) : Bool := match r with | .error f => f == g | _ => false

theorem errIs_eq {α : Type} {r : Except Fault α} {g : Fault} (h : errIs r g = true) : r = .error g := by
  unfold errIs at h
  split at h
  · rw [eq_of_beq h]
  · cases h

theorem okWith_ex {α : Type} {r : Except Fault α} {f : α → Bool} (h : okWith r f = true) : ∃ s, r = .ok s ∧ f s = true := by
  unfold okWith at h
  split at h
  · exact ⟨_, rfl, h⟩
  · cases h

/-! ### C52: framing -/

/-- The octets received on a connection are the delivered packets, one after the other, and an incomplete rest. -/
theorem C52_received (tcp : Bool) (p : Persist) (es : List Event) (s : St) (h : run (init tcp p) es = .ok s) :
    (∀ q ∈ delivered (since s.out), IsPacket q ∧ q.length ≤ 8800) ∧
    ∃ rest, octetsIn (since s.out) = (delivered (since s.out)).flatten ++ rest ∧ readElem rest = none ∧
      (s.state = .up → rest.length < 8800) := by
  have := keepsRx.run (Inv.init tcp p) (Rx.init tcp p) h
  exact ⟨this.pk, s.recvBuf, this.eq, this.inc, fun hu => this.up (.inl hu)⟩

/-- However the octets of a sequence of packets (and an incomplete one) were cut into reads, these packets are what was delivered. -/
theorem C52_exact (tcp : Bool) (p : Persist) (es : List Event) (s : St) (h : run (init tcp p) es = .ok s)
    (qs : List Bytes) (rest : Bytes) (hq : ∀ q ∈ qs, IsPacket q) (hr : readElem rest = none)
    (heq : octetsIn (since s.out) = qs.flatten ++ rest) : delivered (since s.out) = qs := by
  have := keepsRx.run (Inv.init tcp p) (Rx.init tcp p) h
  exact (packets_unique (fun q hq => (this.pk q hq).1) hq this.inc hr (by rw [← this.eq, heq])).1

/-- A transport in UP does not fail when it reads octets of a stream of packets that are not too large, and goes on reading. -/
theorem C52_continues (tcp : Bool) (p : Persist) (es : List Event) (s : St) (h : run (init tcp p) es = .ok s) (hup : s.state = .up)
    (hrd : s.reading = true) (c : Bytes) (hc : c ≠ []) (hfit : s.recvBuf.length + c.length ≤ 8800) (rf : Bool)
    (qs : List Bytes) (hq : ∀ q ∈ qs, IsPacket q ∧ q.length ≤ 8800) (hpre : octetsIn (since s.out) ++ c <+: qs.flatten) :
    ∃ s', step s (.io .none (.data c) rf) = .ok s' ∧ s'.state = .up ∧ s'.reading = true ∧
      octetsIn (since s'.out) = octetsIn (since s.out) ++ c ∧ delivered (since s'.out) <+: qs := by
  have hi := run_inv (Inv.init tcp p) h
  have hx := keepsRx.run (Inv.init tcp p) (Rx.init tcp p) h
  have hl := hi.life
  simp only [Life, hup] at hl
  obtain ⟨q1, q2, q3⟩ := parseLoop_spec (n := (s.recvBuf ++ c).length) (b := s.recvBuf ++ c) (Nat.le_refl _)
  have hstep : step s (.io .none (.data c) rf) = handleReceive { s with reading := false } c := by
    have h1 : doWrite s .none = (s, none) := by unfold doWrite; cases s.writing <;> rfl
    have h2 : doRead s (.data c) = ({ s with reading := false }, some (.readOk c)) := by
      unfold doRead
      rw [if_neg (by simp [hrd])]
      simp only
      rw [if_neg (by rintro (h | h); exact hc h; simp only [maxPacket] at h; omega)]
    simp only [step, hl.1, Bool.false_and, h1, h2, complete, handle]
    simp
  have hrx : octetsIn (since s.out) ++ c = (delivered (since s.out) ++ (parseLoop (s.recvBuf ++ c).length (s.recvBuf ++ c)).1).flatten ++
      (parseLoop (s.recvBuf ++ c).length (s.recvBuf ++ c)).2 := by
    rw [hx.eq]
    simp only [List.flatten_append, List.append_assoc]
    rw [← q1]
  have hsince : ∀ (l : List Bytes), since (s.out ++ .read c :: l.map .deliver) = since s.out ++ .read c :: l.map .deliver := by
    intro l
    apply since_append
    intro x hx w
    rcases List.mem_cons.1 hx with rfl | hx
    · simp
    · simp only [List.mem_map] at hx
      obtain ⟨p, _, rfl⟩ := hx
      simp
  generalize hr : parseLoop (s.recvBuf ++ c).length (s.recvBuf ++ c) = r at q1 q2 q3 hrx
  obtain ⟨k1, k2⟩ := packets_prefix (ps := delivered (since s.out) ++ r.1) (qs := qs) (a := r.2)
    (by intro q hq'
        rcases List.mem_append.1 hq' with hq' | hq'
        · exact (hx.pk q hq').1
        · exact q2 q hq') (fun q hq' => (hq q hq').1) q3 (by rw [← hrx]; exact hpre)
  have hlt : r.2.length < 8800 := by
    rcases k2 with h | ⟨q, hq', h⟩
    · rw [h]; simp
    · have := (hq q hq').2; omega
  refine ⟨{ s with recvBuf := r.2, out := s.out ++ .read c :: r.1.map .deliver, reading := true }, ?_, hup, rfl, ?_, ?_⟩
  · rw [hstep]
    unfold handleReceive
    simp only [hr]
    rw [if_neg (by rintro ⟨h, _⟩; simp only [maxPacket] at h; omega)]
    unfold startReceive
    rw [if_neg (by simp [hup]), if_pos (by exact hl.2.1)]
  · simp only [hsince, octetsIn_append, octetsIn, octetsIn_deliver, List.append_nil]
  · simp only [hsince, delivered_append, delivered, delivered_deliver]
    exact k1

/-- The octets that left on a connection are the beginning of the packets accepted on it, one after the other. -/
theorem C52_sent (tcp : Bool) (p : Persist) (es : List Event) (s : St) (h : run (init tcp p) es = .ok s) :
    octetsOut (since s.out) <+: (accepted (since s.out)).flatten :=
  (keepsTx.run (Inv.init tcp p) (Tx.init tcp p) h).pre

/-- All of them have left when nothing is outstanding. -/
theorem C52_sent_all (tcp : Bool) (p : Persist) (es : List Event) (s : St) (h : run (init tcp p) es = .ok s) (hup : s.state = .up)
    (hr : s.ready = []) (hw : s.writing = none) : octetsOut (since s.out) = (accepted (since s.out)).flatten := by
  have hl := keepsLive.run (Inv.init tcp p) (Live.init tcp p) h
  have hx := keepsTx.run (Inv.init tcp p) (Tx.init tcp p) h
  refine (hx.idle hup ?_).symm
  apply Decidable.byContradiction
  intro hq
  rcases hl.wr hup hq with h | ⟨x, hx, _⟩
  · rw [hw] at h; cases h
  · rw [hr] at hx; cases hx

/-- In UP the transport does not stall: it is reading, or a read is about to be handled; while there are packets to be sent it is writing, or
a write is about to be handled; and there is space for the next read. -/
theorem C52_live (tcp : Bool) (p : Persist) (es : List Event) (s : St) (h : run (init tcp p) es = .ok s) (hup : s.state = .up) :
    (s.reading = true ∨ ∃ x ∈ s.ready, x.isRead = true) ∧ (s.sendQ ≠ [] → s.writing.isSome = true ∨ ∃ x ∈ s.ready, x.isWrite = true) ∧
      s.recvBuf.length < 8800 := by
  have hl := keepsLive.run (Inv.init tcp p) (Live.init tcp p) h
  have hx := keepsRx.run (Inv.init tcp p) (Rx.init tcp p) h
  exact ⟨hl.rd hup, hl.wr hup, hx.up (.inl hup)⟩

/-- Two packets cut in the middle, and octets of a third one. -/
abbrev exRead : List Event := [.io .none (.data [5, 2, 7]) false, .io .none (.data [9, 6]) false, .io .none (.data [0, 5]) false]

example : okWith (run (init true .persistent) exRead) (fun s => delivered (since s.out) == [pkt1, pkt2] && octetsIn (since s.out) == [5, 2, 7, 9, 6, 0, 5]
    && s.state == .up && s.reading) = true := by decide +kernel

example : IsPacket pkt1 ∧ IsPacket pkt2 ∧ readElem [5] = none := ⟨⟨⟨5, [7, 9]⟩, by decide⟩, ⟨⟨6, []⟩, by decide⟩, by decide⟩

/-- Two packets are sent; the socket takes them in three pieces. -/
example : okWith (run (init false .persistent) [.send pkt1, .send pkt2, .io (.some 3) .none false, .io (.some 3) .none false])
    (fun s => octetsOut (since s.out) == [5, 2, 7, 9] && accepted (since s.out) == [pkt1, pkt2] && s.state == .up && s.writing == some pkt2) = true := by decide +kernel

example : okWith (run (init false .persistent) [.send pkt1, .send pkt2, .io (.some 3) .none false, .io (.some 3) .none false, .io (.some 2) .none false])
    (fun s => octetsOut (since s.out) == pkt1 ++ pkt2 && s.state == .up && s.writing == none && s.ready == []) = true := by decide +kernel

/-- After reconnecting, a packet that was cut off by the error of the connection does not disturb the new one. -/
example : okWith (run (init true .permanent) [.io .none (.data [5, 2, 7]) false, .send pkt1, .io (.some 1) .none false, .io .none (.err .eof) false, .next, .next,
      .connect true, .send pkt2, .io (.some 2) (.data pkt2) false, .next])
    (fun s => delivered (since s.out) == [pkt2] && octetsOut (since s.out) == pkt2 && s.state == .up) = true := by decide +kernel

/-! ### C53: life of a transport -/

/-- State changes are permitted ones, and all effects fit the state. -/
theorem C53_path (tcp : Bool) (p : Persist) (es : List Event) (s : St) (h : run (init tcp p) es = .ok s) : Path .up s.out s.state :=
  keepsPath.run (Inv.init tcp p) .nil h

theorem Path.split {t v : TState} {o1 o2 : List Out} {x : Out} (h : Path t (o1 ++ x :: o2) v) : ∃ u u', Path t o1 u ∧ Fits u x u' ∧ Path u' o2 v := by
  generalize ho : o1 ++ x :: o2 = o at h
  induction h generalizing o2 with
  | nil => simp at ho
  | snoc hp hf ih =>
    rename_i v o y
    rcases List.eq_nil_or_concat o2 with rfl | ⟨o3, z, rfl⟩
    · rw [show o1 ++ [x] = o1 ++ [x] from rfl] at ho
      obtain ⟨h1, h2⟩ := List.append_inj' ho rfl
      cases h2
      subst h1
      exact ⟨_, _, hp, hf, .nil⟩
    · rw [List.concat_eq_append, show o1 ++ x :: (o3 ++ [z]) = (o1 ++ x :: o3) ++ [z] by simp] at ho
      obtain ⟨h1, h2⟩ := List.append_inj' ho rfl
      cases h2
      obtain ⟨u, u', k1, k2, k3⟩ := ih h1
      exact ⟨u, u', k1, k2, by rw [List.concat_eq_append]; exact k3.snoc hf⟩

/-- Once the transport is CLOSING, FAILED or CLOSED, no packet is accepted or delivered, no octet leaves, and no connection is made. -/
theorem C53_no_send (tcp : Bool) (p : Persist) (es : List Event) (s : St) (h : run (init tcp p) es = .ok s)
    (o1 o2 : List Out) (x y : TState) (ho : s.out = o1 ++ .state x y :: o2) (hy : y = .closing ∨ y = .failed ∨ y = .closed) :
    ∀ z ∈ o2, (∃ u v, z = .state u v) ∨ ∃ b, z = .read b := by
  have hp := C53_path tcp p es s h
  rw [ho] at hp
  obtain ⟨u, u', _, hf, hp2⟩ := hp.split
  have hu : u' = y := by cases hf; rfl
  subst hu
  clear ho h hf
  have key : ∀ {t : TState} {o : List Out} {v : TState}, Path t o v → t = .closing ∨ t = .failed ∨ t = .closed →
      (v = .closing ∨ v = .failed ∨ v = .closed) ∧ ∀ z ∈ o, (∃ u v, z = .state u v) ∨ ∃ b, z = .read b := by
    intro t o v hp
    induction hp with
    | nil => intro ht; exact ⟨ht, by simp⟩
    | snoc hp hf ih =>
      intro ht
      obtain ⟨i1, i2⟩ := ih ht
      cases hf with
      | state ha =>
        refine ⟨?_, ?_⟩
        · cases ha <;> simp_all
        · intro z hz
          rcases List.mem_append.1 hz with hz | hz
          · exact i2 z hz
          · exact .inl ⟨_, _, List.mem_singleton.1 hz⟩
      | read hn =>
        refine ⟨i1, ?_⟩
        intro z hz
        rcases List.mem_append.1 hz with hz | hz
        · exact i2 z hz
        · exact .inr ⟨_, List.mem_singleton.1 hz⟩
      | _ => simp at i1
  exact (key hp2 hy).2

/-- There are no effects after CLOSED. -/
theorem C53_final (tcp : Bool) (p : Persist) (es : List Event) (s : St) (h : run (init tcp p) es = .ok s)
    (o1 o2 : List Out) (x : TState) (ho : s.out = o1 ++ .state x .closed :: o2) : o2 = [] := by
  have hp := C53_path tcp p es s h
  rw [ho] at hp
  obtain ⟨u, u', _, hf, hp2⟩ := hp.split
  have hu : u' = .closed := by cases hf; rfl
  subst hu
  have key : ∀ {t : TState} {o : List Out} {v : TState}, Path t o v → t = .closed → v = .closed ∧ o = [] := by
    intro t o v hp
    induction hp with
    | nil => intro ht; exact ⟨ht, rfl⟩
    | snoc hp hf ih =>
      intro ht
      obtain ⟨i1, i2⟩ := ih ht
      subst i1
      cases hf with
      | state ha => cases ha
      | read hn => exact absurd rfl hn
  exact (key hp2 rfl).2

/-- Closing a transport that is UP or DOWN makes it CLOSING; closing it in any other state, in particular again, has no effect. -/
theorem C53_close (tcp : Bool) (p : Persist) (es : List Event) (s : St) (h : run (init tcp p) es = .ok s) :
    ∃ s', step s .close = .ok s' ∧ step s' .close = .ok s' ∧
      (s.state = .up ∨ s.state = .down → s'.state = .closing ∧ s'.out = s.out ++ [.state s.state .closing]) ∧
      (s.state = .closing ∨ s.state = .failed ∨ s.state = .closed → s' = s) := by
  have hi := run_inv (Inv.init tcp p) h
  by_cases hs : s.state = .up ∨ s.state = .down
  · have hd : s.dead = false := (hi.alive (by rcases hs with h | h <;> (rw [h]; intro h; cases h))).2
    have hset : setState s .closing = .ok { s with state := .closing, out := s.out ++ [.state s.state .closing] } := by
      unfold setState
      rcases hs with h | h <;> (rw [h]; rfl)
    have hcl : close s = .ok (doClose { s with state := .closing, out := s.out ++ [.state s.state .closing] }) := by
      unfold close
      rw [if_neg (by rcases hs with h | h <;> simp [h]), hset]
      rfl
    refine ⟨_, by simp only [step, hd]; exact hcl, ?_, fun _ => ⟨?_, ?_⟩, ?_⟩
    · have : (doClose { s with state := .closing, out := s.out ++ [.state s.state .closing] }).state = .closing := by simp [doClose, post, cancel_eq]
      simp only [step]
      split
      · rfl
      · unfold close; rw [if_pos (by rw [this]; simp)]
    · simp [doClose, post, cancel_eq]
    · simp [doClose, post, cancel_eq]
    · intro h; rcases hs with h' | h' <;> simp [h'] at h
  · have : step s .close = .ok s := by
      simp only [step]
      split
      · rfl
      · unfold close; rw [if_pos (by constructor <;> (intro h; exact hs (by simp [h])))]
    exact ⟨s, this, this, fun h => absurd h hs, fun _ => rfl⟩

/-- A transport that is CLOSING or FAILED becomes CLOSED when the handlers that are in the queue have been invoked, unless one of them ends
the run (see C80). -/
theorem C53_closes (tcp : Bool) (p : Persist) (es : List Event) (s : St) (h : run (init tcp p) es = .ok s)
    (hs : s.state = .closing ∨ s.state = .failed ∨ s.state = .closed) :
    ∃ n, (∃ t, run s (List.replicate n .next) = .ok t ∧ t.state = .closed ∧ t.dead = true) ∨ ∃ f, run s (List.replicate n .next) = .error f :=
  closes (run_inv (Inv.init tcp p) h) (by rcases hs with h | h | h <;> (rw [h]; rfl))

/-- A transport is closed while it writes and reads. -/
example : okWith (run (init true .permanent) [.send pkt1, .io (.some 1) (.data pkt2) false, .close, .close, .next, .next, .next, .send pkt2, .next])
    (fun s => s.state == .closed && s.dead && s.ready == [] && s.out == [.accepted pkt1, .wire [5], .read pkt2, .deliver pkt2, .state .up .closing, .state .closing .closed]) = true := by
  decide +kernel

/-! ### C79: reconnecting -/

/-- The waiting times of the connection attempts of a run. -/
theorem C79_backoff (tcp : Bool) (p : Persist) (es : List Event) (s : St) (h : run (init tcp p) es = .ok s) : ∃ w, Backoff s.out w := by
  obtain ⟨⟨w, hw, _⟩, _⟩ := keepsWaits.run (Inv.init tcp p) ⟨⟨none, .nil, (by simp [init]), rfl, rfl⟩, by simp [init]⟩ h
  exact ⟨w, hw⟩

/-- A transport that is DOWN is a permanent TCP transport, and keeps trying: the timer of the last attempt is running, or an attempt is about
to be made. -/
theorem C79_retries (tcp : Bool) (p : Persist) (es : List Event) (s : St) (h : run (init tcp p) es = .ok s) (hd : s.state = .down) :
    s.tcp = true ∧ s.persist = .permanent ∧ (s.timer = true ∨ .reconnect ∈ s.ready) := by
  have hi := run_inv (Inv.init tcp p) h
  have hl := keepsLive.run (Inv.init tcp p) (Live.init tcp p) h
  have h4 := hi.life
  simp only [Life, hd] at h4
  exact ⟨h4.2.1, h4.2.2.1, hl.dn hd⟩

/-- An error of the socket closes or fails any transport but a permanent TCP transport, which goes DOWN. -/
theorem C79_error (tcp : Bool) (p : Persist) (es : List Event) (s : St) (h : run (init tcp p) es = .ok s) (hup : s.state = .up)
    (hrd : s.reading = true) (e : Err) (he : e ≠ .aborted) (rf : Bool) :
    ∃ s', step s (.io .none (.err e) rf) = .ok s' ∧
      s'.state = if s.tcp = true ∧ s.persist = .permanent then .down else if e = .eof then .closing else .failed := by
  have hi := run_inv (Inv.init tcp p) h
  have hl := hi.life
  simp only [Life, hup] at hl
  have hstep : step s (.io .none (.err e) rf) = processError { s with reading := false } e := by
    have h1 : doWrite s .none = (s, none) := by unfold doWrite; cases s.writing <;> rfl
    have h2 : doRead s (.err e) = ({ s with reading := false }, some (.readErr e)) := by
      unfold doRead
      rw [if_neg (by simp [hrd])]
      simp only
      rw [if_neg he]
    simp only [step, hl.1, Bool.false_and, h1, h2, complete, handle]
    simp
  rw [hstep]
  unfold processError
  rw [if_neg (by simp [hup, leaving, he])]
  unfold handleError
  by_cases hp : s.tcp = true ∧ s.persist = .permanent
  · rw [if_pos (by exact hp), if_pos hp]
    simp [setState, hup, validTransition, bind, Except.bind, post, cancel_eq, emit]
  · rw [if_neg (by exact hp), if_neg hp]
    unfold handleErrorBase
    cases e with
    | aborted => exact absurd rfl he
    | eof => simp [setState, hup, validTransition, bind, Except.bind, post, doClose, cancel_eq, emit]
    | other => simp [setState, hup, validTransition, bind, Except.bind, post, doClose, cancel_eq, emit]

/-- The connection is lost; two attempts time out, the third one succeeds; it is lost again. -/
abbrev exDown : List Event :=
  [.io .none (.err .other) false, .next, .timer, .next, .next, .connect false, .timer, .next, .connect true, .io .none (.err .eof) false, .next]

example : okWith (run (init true .permanent) exDown) (fun s => s.state == .down && s.out ==
    [.state .up .down, .connecting 1000, .connecting 2000, .connecting 4000, .connected, .state .down .up, .state .up .down, .connecting 1000]) = true := by
  decide +kernel

/-! ### C80: no operation on a transport aborts the process -/

/-- Two ways of ending the process are possible, and only in one situation: a read that has succeeded waits for its handler while the
transport is closed, fails or goes down. In particular, no handler runs after the transport has been deallocated. -/
theorem C80_faults_partial (tcp : Bool) (p : Persist) (es : List Event) (f : Fault) (h : run (init tcp p) es = .error f) :
    (f = .receiveNotUp ∨ f = .transition) ∧
    ∃ es1 es2 s c rest, es = es1 ++ .next :: es2 ∧ run (init tcp p) es1 = .ok s ∧ s.ready = .readOk c :: rest ∧ s.state ≠ .up := by
  obtain ⟨es1, e, es2, s, h1, h2, h3⟩ := run_error h
  obtain ⟨h4, h5, h6, c, rest, h7⟩ := step_err (run_inv (Inv.init tcp p) h2) h3
  subst h4
  exact ⟨h5, es1, es2, s, c, rest, h1, h2, h7, h6⟩

/-- The process is not aborted if a read with data never completes together with a write. -/
theorem C80_single_partial (tcp : Bool) (p : Persist) (es : List Event) (h : ∀ w c rf, .io w (.data c) rf ∈ es → w = .none) :
    ∃ s, run (init tcp p) es = .ok s := by
  refine single_ok (Inv.init tcp p) (by intro c; simp [init]) ?_
  intro e he
  cases e with
  | io w r rf =>
    cases r with
    | data c => rw [h w c rf he]; rfl
    | none => cases w <;> rfl
    | err e => cases w <;> rfl
  | _ => rfl

/-- The assertion in startReceive fails: a write fails and a read succeeds at the same time. -/
theorem C80_assertion : ∃ es, run (init false .persistent) es = .error .receiveNotUp :=
  ⟨[.send pkt1, .io (.err .other) (.data pkt2) false, .next, .next], errIs_eq (by decide +kernel)⟩

/-- 8800 octets without a complete packet: the beginning of an element with 9000 octets of value. -/
abbrev tooLarge : Bytes := [5, 253, 35, 40] ++ List.replicate 8796 0

/-- An exception that nothing catches: the transport is closed while the handler of a read is in the queue, and the buffer is full then. -/
theorem C80_exception : ∃ es, run (init false .persistent) es = .error .transition :=
  ⟨[.send pkt1, .io (.some 4) (.data tooLarge) false, .close, .next], errIs_eq (by decide +kernel)⟩

end Verif.Tp
