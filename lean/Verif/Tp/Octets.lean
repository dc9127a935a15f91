/-
The octets and packets that go through a stream transport.
-/
import Verif.Tp.Keeps
import Verif.Tp.Spec

namespace Verif.Tp
open Verif.Lp

theorem since_snoc (o : List Out) (x : Out) : since (o ++ [x]) = match x with | .connecting _ => [] | x => since o ++ [x] := by
  unfold since
  rw [List.foldl_append]
  cases x <;> rfl

theorem since_append {o o' : List Out} (h : ∀ x ∈ o', ∀ w, x ≠ .connecting w) : since (o ++ o') = since o ++ o' := by
  induction o' generalizing o with
  | nil => simp
  | cons x l ih =>
    rw [show o ++ x :: l = (o ++ [x]) ++ l by simp, ih (fun y hy => h y (List.mem_cons_of_mem _ hy)), since_snoc]
    cases x with
    | connecting w => exact absurd rfl (h _ (List.mem_cons_self ..) w)
    | _ => simp

theorem octetsIn_append (o o' : List Out) : octetsIn (o ++ o') = octetsIn o ++ octetsIn o' := by
  induction o with
  | nil => rfl
  | cons x l ih => cases x <;> simp [octetsIn, ih]

theorem octetsOut_append (o o' : List Out) : octetsOut (o ++ o') = octetsOut o ++ octetsOut o' := by
  induction o with
  | nil => rfl
  | cons x l ih => cases x <;> simp [octetsOut, ih]

theorem delivered_append (o o' : List Out) : delivered (o ++ o') = delivered o ++ delivered o' := by
  induction o with
  | nil => rfl
  | cons x l ih => cases x <;> simp [delivered, ih]

theorem accepted_append (o o' : List Out) : accepted (o ++ o') = accepted o ++ accepted o' := by
  induction o with
  | nil => rfl
  | cons x l ih => cases x <;> simp [accepted, ih]

/-! ### Receiving -/

/-- The octets received on this connection are the packets delivered and the octets in the buffer. -/
structure Rx (s : St) (L : List Handler) : Prop where
  eq : octetsIn (since s.out) = (delivered (since s.out)).flatten ++ s.recvBuf
  pk : ∀ p ∈ delivered (since s.out), IsPacket p ∧ p.length ≤ maxPacket
  inc : readElem s.recvBuf = none
  len : s.recvBuf.length ≤ maxPacket
  up : s.state = .up ∨ s.state = .down → s.recvBuf.length < maxPacket
  hd : ∀ c, .readOk c ∈ L ++ s.ready → s.recvBuf.length + c.length ≤ maxPacket

/-- Effects that concern neither reading nor connecting. -/
def Out.plain : Out → Bool
  | .read _ | .deliver _ | .connecting _ => false
  | _ => true

theorem plain_rx {o o' : List Out} (h : ∀ x ∈ o', x.plain = true) :
    octetsIn (since (o ++ o')) = octetsIn (since o) ∧ delivered (since (o ++ o')) = delivered (since o) := by
  rw [since_append (by intro x hx w hw; subst hw; have := h _ hx; cases this), octetsIn_append, delivered_append]
  have : octetsIn o' = [] ∧ delivered o' = [] := by
    induction o' with
    | nil => exact ⟨rfl, rfl⟩
    | cons x l ih =>
      have hx := h x (List.mem_cons_self ..)
      have hl := ih (fun y hy => h y (List.mem_cons_of_mem _ hy))
      cases x <;> first | (simp [octetsIn, delivered, hl]; done) | (cases hx; done)
  simp [this]

theorem Rx.same {s s' : St} {L L' : List Handler} {o : List Out} (h : Rx s L) (ho : s'.out = s.out ++ o) (hx : ∀ x ∈ o, x.plain = true)
    (hb : s'.recvBuf = s.recvBuf) (hr : ∀ c, .readOk c ∈ L' ++ s'.ready → .readOk c ∈ L ++ s.ready)
    (hs : s'.state = .up ∨ s'.state = .down → s.state = .up ∨ s.state = .down) : Rx s' L' := by
  obtain ⟨h1, h2, h3, h4, h5, h6⟩ := h
  have := plain_rx (o := s.out) hx
  rw [← ho] at this
  refine ⟨by rw [this.1, this.2, hb]; exact h1, by rw [this.2]; exact h2, by rw [hb]; exact h3, by rw [hb]; exact h4, fun h => by rw [hb]; exact h5 (hs h), fun c hc => by rw [hb]; exact h6 c (hr c hc)⟩

theorem abortions_no_read {s : St} {c : Bytes} : .readOk c ∉ abortions s := by
  intro h; rcases abortions_mem h with h | h | h <;> cases h

theorem valid_from {t n : TState} (h : validTransition t n = true) (hn : n = .up ∨ n = .down) : t = .up ∨ t = .down := by
  cases t <;> rcases hn with rfl | rfl <;> simp_all [validTransition]

theorem Rx.setState {s s' : St} {n : TState} {L : List Handler} (h : Rx s L) (hs : setState s n = .ok s') : Rx s' L := by
  rcases setState_ok hs with ⟨_, rfl⟩ | ⟨hv, rfl⟩
  · exact h
  · refine h.same rfl (by simp [Out.plain]) rfl ?_ (fun hn => valid_from hv hn)
    intro c hc
    simp only [List.mem_append] at hc ⊢
    rcases hc with hc | hc | hc
    · exact .inl hc
    · exact .inr hc
    · split at hc <;> simp at hc

theorem Rx.doClose {s : St} {L : List Handler} (h : Rx s L) : Rx (doClose s) L := by
  refine h.same (o := []) (by simp [Tp.doClose, post, cancel_eq]) (by simp) (by simp [Tp.doClose, post, cancel_eq]) ?_ (by simp [Tp.doClose, post, cancel_eq])
  intro c hc
  simpa [Tp.doClose, post, cancel_eq, abortions_no_read] using hc

theorem processError_rx {s s' : St} {x : Handler} {e : Err} (h : Rx s [x]) (hh : processError s e = .ok s') : Rx s' [] := by
  have h : Rx s [] := h.same (o := []) (by simp) (by simp) rfl (by intro c hc; exact List.mem_append_right _ hc) id
  unfold processError at hh
  split at hh
  · cases hh; exact h
  · unfold handleError at hh
    split at hh
    · simp only [bind_ok] at hh
      obtain ⟨u, h1, h2⟩ := hh
      cases h2
      refine (h.setState h1).same (o := []) (by simp [post, cancel_eq]) (by simp) (by simp [post, cancel_eq]) ?_ (by simp [post, cancel_eq])
      intro c hc
      simpa [post, cancel_eq, abortions_no_read] using hc
    · simp only [handleErrorBase, bind_ok] at hh
      obtain ⟨u, h1, h2⟩ := hh
      cases h2
      exact (h.setState h1).doClose

theorem octetsIn_deliver (l : List Bytes) : octetsIn (l.map Out.deliver) = [] := by
  induction l with
  | nil => rfl
  | cons p l ih => simpa [octetsIn] using ih

theorem delivered_deliver (l : List Bytes) : delivered (l.map Out.deliver) = l := by
  induction l with
  | nil => rfl
  | cons p l ih => simpa [delivered] using ih

theorem mem_flatten_length {l : List Bytes} {p : Bytes} (h : p ∈ l) : p.length ≤ l.flatten.length := by
  induction l with
  | nil => cases h
  | cons q l ih =>
    simp only [List.flatten_cons, List.length_append]
    rcases List.mem_cons.1 h with rfl | h
    · omega
    · have := ih h; omega

theorem handleReceive_rx {s s' : St} {c : Bytes} (hi : Inv s) (hp : Pre s (.readOk c)) (h : Rx s [.readOk c]) (hh : handleReceive s c = .ok s') : Rx s' [] := by
  unfold handleReceive at hh
  simp only at hh
  obtain ⟨q1, q2, q3⟩ := parseLoop_spec (n := (s.recvBuf ++ c).length) (b := s.recvBuf ++ c) (Nat.le_refl _)
  generalize hr : parseLoop (s.recvBuf ++ c).length (s.recvBuf ++ c) = r at hh q1 q2 q3
  obtain ⟨h1, h2, h3, h4, h5, h6⟩ := h
  have hlen := h6 c (by simp)
  have hlen' : r.1.flatten.length + r.2.length = s.recvBuf.length + c.length := by
    have := congrArg List.length q1
    simp only [List.length_append] at this
    omega
  have hsince : since (s.out ++ .read c :: r.1.map .deliver) = since s.out ++ .read c :: r.1.map .deliver := by
    apply since_append
    intro x hx w
    rcases List.mem_cons.1 hx with rfl | hx
    · simp
    · simp only [List.mem_map] at hx
      obtain ⟨p, _, rfl⟩ := hx
      simp
  have base : ∀ (t : St), t.out = s.out ++ .read c :: r.1.map .deliver → t.recvBuf = r.2 →
      (t.state = .up ∨ t.state = .down → r.2.length < maxPacket) → (∀ c', .readOk c' ∉ t.ready) → Rx t [] := by
    intro t e1 e2 e3 e4
    have d : delivered (since t.out) = delivered (since s.out) ++ r.1 := by
      rw [e1, hsince, delivered_append]; simp [delivered, delivered_deliver]
    refine ⟨?_, ?_, by rw [e2]; exact q3, by rw [e2]; omega, by rw [e2]; exact e3, ?_⟩
    · rw [d, e1, hsince, octetsIn_append, e2, h1]
      simp only [octetsIn, octetsIn_deliver, List.append_nil, List.flatten_append, List.append_assoc]
      rw [q1]
    · rw [d]
      intro p hp
      rcases List.mem_append.1 hp with hp | hp
      · exact h2 p hp
      · refine ⟨q2 p hp, ?_⟩
        have := mem_flatten_length hp
        omega
    · intro c' hc'; exact absurd hc' (e4 c')
  split at hh
  · rename_i hov
    simp only [bind_ok] at hh
    obtain ⟨u, e1, e2⟩ := hh
    cases e2
    rcases setState_ok e1 with ⟨he, rfl⟩ | ⟨hv, rfl⟩
    · simp only at he
      refine base _ (by simp [doClose, post, cancel_eq]) (by simp [doClose, post, cancel_eq]) ?_ ?_
      · simp [doClose, post, cancel_eq, he]
      · intro c' hc'
        simp only [doClose, post, cancel_eq, List.mem_append, List.mem_singleton, reduceCtorEq, or_false] at hc'
        rcases hc' with hc' | hc'
        · exact hp.2 c' hc'
        · exact abortions_no_read hc'
    · refine Rx.doClose ?_
      refine (base { s with state := .failed, recvBuf := r.2, out := s.out ++ .read c :: r.1.map .deliver } rfl rfl (by simp) hp.2).same
        (o := [.state s.state .failed]) rfl (by simp [Out.plain]) rfl ?_ (by simp)
      simp
  · rename_i hov
    unfold startReceive at hh
    split at hh
    · cases hh
    · rename_i hst
      have hst : s.state = .up := by simpa using hst
      have hl := hi.life
      simp only [Life, hst] at hl
      rw [if_pos (by exact hl.2.1)] at hh
      cases hh
      refine base _ rfl rfl (fun _ => ?_) hp.2
      by_cases hn : r.1 = []
      · rw [hn] at hlen'
        simp at hlen'
        have : r.2.length ≠ maxPacket := fun h => hov ⟨h, hn⟩
        omega
      · cases hr1 : r.1 with
        | nil => exact absurd hr1 hn
        | cons p l =>
          have := (q2 p (by rw [hr1]; exact List.mem_cons_self ..)).ne_nil
          have : 0 < p.length := by cases p with | nil => exact absurd rfl this | cons => simp
          have h' := mem_flatten_length (l := r.1) (p := p) (by rw [hr1]; exact List.mem_cons_self ..)
          omega

theorem sendFromQueue_rx {s : St} {L : List Handler} (h : Rx s L) : Rx (sendFromQueue s) L := by
  unfold sendFromQueue
  split
  · exact h.same (o := []) (by simp) (by simp) rfl (fun c hc => hc) id
  · refine h.same (o := []) (by simp [post]) (by simp) rfl ?_ id
    intro c hc
    simpa [post] using hc

theorem keepsRx : Keeps Rx where
  perm := by
    intro s s' L L' h he _ hm
    rw [he]
    exact h.same (o := []) (by simp) (by simp) rfl (fun c hc => (hm _).1 hc) id
  send := by
    intro s p hi hu h
    have h0 : Rx (emit s (.accepted p)) [] := h.same (o := [.accepted p]) rfl (by simp [Out.plain]) rfl (fun c hc => hc) id
    unfold send
    rw [if_pos hu]
    unfold doSend
    rw [if_neg (by simp [emit, hu])]
    simp only
    have h1 : Rx { emit s (.accepted p) with sendQ := (emit s (.accepted p)).sendQ ++ [p] } [] := h0.same (o := []) (by simp) (by simp) rfl (fun c hc => hc) id
    split
    · exact sendFromQueue_rx h1
    · exact h1
  leave := by
    intro s s' n _ h _ _ hs
    exact (h.setState hs).doClose
  persist := by
    intro s p h
    exact h.same (o := []) (by simp) (by simp) rfl (fun c hc => hc) id
  fall := by
    intro s s' p _ h _ hs
    have h1 : Rx { s with persist := p } [] := h.same (o := []) (by simp) (by simp) rfl (fun c hc => hc) id
    exact (h1.setState hs).doClose
  write := by
    intro s w hi h
    unfold doWrite
    split
    · rename_i rest n hw
      extract_lets s1
      have hs1 : Rx s1 [] := by
        simp only [s1]
        split
        · exact h
        · exact h.same (o := [.wire _]) rfl (by simp [Out.plain]) rfl (fun c hc => hc) id
      split
      · refine hs1.same (o := []) (by simp) (by simp) rfl (fun c hc => ?_) id
        simpa using hc
      · exact hs1.same (o := []) (by simp) (by simp) rfl (fun c hc => hc) id
    · split
      · exact h
      · refine h.same (o := []) (by simp) (by simp) rfl (fun c hc => ?_) id
        simpa using hc
    · exact h
  read := by
    intro s r L hi h
    rcases doRead_cases s r with he | ⟨x, he, hr, hx⟩
    · rw [he]; exact h
    · rw [he]
      obtain ⟨h1, h2, h3, h4, h5, h6⟩ := h
      refine ⟨h1, h2, h3, h4, h5, ?_⟩
      intro c hc
      simp only [Option.toList_some, List.singleton_append, List.cons_append] at hc
      rcases List.mem_cons.1 hc with hc | hc
      · rcases hx with ⟨c', rfl, _, hl, _⟩ | ⟨e, rfl, _⟩
        · cases hc; exact hl
        · cases hc
      · exact h6 c hc
  handle := by
    intro s s' x hi hp h hh
    have h' : Rx s [] := h.same (o := []) (by simp) (by simp) rfl (fun c hc => List.mem_append_right _ hc) id
    cases x with
    | readOk c => exact handleReceive_rx hi hp h hh
    | readErr e => exact processError_rx h hh
    | writeErr e => exact processError_rx h hh
    | writeOk n =>
      simp only [handle, handleSend] at hh
      split at hh
      · cases hh
      · split at hh
        · cases hh
        · cases hh
          rename_i p q _ _
          have h1 : Rx { s with sendQ := q } [] := h'.same (o := []) (by simp) (by simp) rfl (fun c hc => hc) id
          split
          · exact h1
          · exact sendFromQueue_rx h1
    | connectAborted => cases hh; exact h'
    | deferredClose => exact hp.elim
    | dealloc => exact hp.elim
    | reconnect =>
      simp only [handle, reconnect] at hh
      split at hh
      · cases hh; exact h'
      · split at hh
        · cases hh
        · cases hh
          have hs : since (emit { cancel s with usable := false, recvBuf := [], sendQ := [], timer := true, connecting := some (cancel s).ready.length } (.connecting (cancel s).wait)).out = [] := by
            simp [emit, cancel_eq, since_snoc]
          refine ⟨?_, ?_, rfl, by simp [emit], by simp [emit], ?_⟩
          · rw [hs]; simp [octetsIn, delivered, emit]
          · rw [hs]; simp [delivered]
          · intro c hc
            simp only [emit, cancel_eq, List.nil_append, List.mem_append] at hc
            rcases hc with hc | hc
            · have := hp.2 _ hc; cases this
            · exact absurd hc abortions_no_read
  deferred := by
    intro s s' rest hi hr h hh
    unfold deferredClose at hh
    refine Rx.setState ?_ hh
    refine h.same (o := []) (by simp [cancel_eq]) (by simp) (by simp [cancel_eq]) ?_ (by simp [cancel_eq])
    intro c hc
    simp only [cancel_eq, List.nil_append, List.mem_append] at hc
    rcases hc with hc | hc
    · rw [hr]; exact List.mem_cons_of_mem _ hc
    · exact absurd hc abortions_no_read
  dealloc := by
    intro s rest hi hc hr h
    refine h.same (o := []) (by simp) (by simp) rfl (fun c hc => ?_) id
    rw [hr]; exact List.mem_cons_of_mem _ hc
  connect := by
    intro s hi hd hr hc h
    refine h.same (o := [.connected, .state .down .up]) (by simp) (by simp [Out.plain]) rfl (fun c hc => hc) (fun _ => .inr hd)
  timer := by
    intro s _ hd ht h
    refine h.same (o := []) (by simp [handleReconnectTimeout, post, cancel_eq]) (by simp) (by simp [handleReconnectTimeout, post, cancel_eq]) ?_ (by simp [handleReconnectTimeout, post, cancel_eq])
    intro c hc
    simpa [handleReconnectTimeout, post, cancel_eq, abortions_no_read] using hc

theorem Rx.init (tcp : Bool) (p : Persist) : Rx (init tcp p) [] :=
  ⟨rfl, by simp [Tp.init, since, delivered], rfl, by simp [Tp.init], by simp [Tp.init], by simp [Tp.init]⟩

/-! ### Sending -/

/-- The octets of the packets accepted on this connection. -/
def accOct (s : St) : Bytes := (accepted (since s.out)).flatten

/-- The octets that left on this connection. -/
def outOct (s : St) : Bytes := octetsOut (since s.out)

structure Tx (s : St) (L : List Handler) : Prop where
  pre : outOct s <+: accOct s
  cur : ∀ rest, s.writing = some rest → ∃ p q, s.sendQ = p :: q ∧ accOct s = outOct s ++ rest ++ q.flatten
  fin : ∀ n, .writeOk n ∈ L ++ s.ready → ∃ p q, s.sendQ = p :: q ∧ accOct s = outOct s ++ q.flatten
  idle : s.state = .up → s.sendQ = [] → accOct s = outOct s
  dn : s.state = .down → s.connecting.isSome = true → accOct s = [] ∧ outOct s = []

/-- Effects that concern neither sending nor connecting. -/
def Out.plain' : Out → Bool
  | .accepted _ | .wire _ | .connecting _ => false
  | _ => true

theorem plain_tx {o o' : List Out} (h : ∀ x ∈ o', x.plain' = true) :
    octetsOut (since (o ++ o')) = octetsOut (since o) ∧ accepted (since (o ++ o')) = accepted (since o) := by
  rw [since_append (by intro x hx w hw; subst hw; have := h _ hx; cases this), octetsOut_append, accepted_append]
  have : octetsOut o' = [] ∧ accepted o' = [] := by
    induction o' with
    | nil => exact ⟨rfl, rfl⟩
    | cons x l ih =>
      have hx := h x (List.mem_cons_self ..)
      have hl := ih (fun y hy => h y (List.mem_cons_of_mem _ hy))
      cases x <;> first | (simp [octetsOut, accepted, hl]; done) | (cases hx; done)
  simp [this]

theorem oct_eq {s s' : St} {o : List Out} (ho : s'.out = s.out ++ o) (hx : ∀ x ∈ o, x.plain' = true) : accOct s' = accOct s ∧ outOct s' = outOct s := by
  have := plain_tx (o := s.out) hx
  rw [← ho] at this
  exact ⟨by simp only [accOct, this.2], by simp only [outOct, this.1]⟩

/-- The queue is not changed; the write is not, or it is given up. -/
theorem Tx.same {s s' : St} {L L' : List Handler} {o : List Out} (h : Tx s L) (ho : s'.out = s.out ++ o) (hx : ∀ x ∈ o, x.plain' = true)
    (hq : s'.sendQ = s.sendQ) (hw : s'.writing = s.writing ∨ s'.writing = none) (hr : ∀ n, .writeOk n ∈ L' ++ s'.ready → .writeOk n ∈ L ++ s.ready)
    (hs : s'.state = .up → s.state = .up) (hd : s'.state = .down → s'.connecting.isSome = true → s.state = .down ∧ s.connecting.isSome = true) : Tx s' L' := by
  obtain ⟨h1, h2, h3, h4, h5⟩ := h
  obtain ⟨e1, e2⟩ := oct_eq (s := s) (s' := s') ho hx
  refine ⟨by rw [e1, e2]; exact h1, ?_, ?_, ?_, ?_⟩
  · intro rest hr'
    rw [e1, e2, hq]
    refine h2 rest ?_
    rcases hw with hw | hw
    · rw [← hw]; exact hr'
    · rw [hw] at hr'; cases hr'
  · intro n hn
    rw [e1, e2, hq]
    exact h3 n (hr n hn)
  · intro hu hn
    rw [e1, e2]
    exact h4 (hs hu) (by rw [← hq]; exact hn)
  · intro hdn hc
    rw [e1, e2]
    exact h5 (hd hdn hc).1 (hd hdn hc).2

theorem abortions_no_write {s : St} {n : Nat} : .writeOk n ∉ abortions s := by
  intro h; rcases abortions_mem h with h | h | h <;> cases h

theorem Tx.leave {s s' : St} {n : TState} {L : List Handler} (h : Tx s L) (hn : n = .closing ∨ n = .failed) (hs : setState s n = .ok s') : Tx (doClose s') L := by
  have hst : s'.state = n := by
    rcases setState_ok hs with ⟨h, rfl⟩ | ⟨_, rfl⟩
    · exact h
    · rfl
  have hout : ∃ o, s'.out = s.out ++ o ∧ ∀ x ∈ o, x.plain' = true := by
    rcases setState_ok hs with ⟨_, rfl⟩ | ⟨_, rfl⟩
    · exact ⟨[], by simp, by simp⟩
    · exact ⟨_, rfl, by simp [Out.plain']⟩
  obtain ⟨o, ho, hx⟩ := hout
  have hq : s'.sendQ = s.sendQ := by rcases setState_ok hs with ⟨_, rfl⟩ | ⟨_, rfl⟩ <;> rfl
  have hr : ∀ m, .writeOk m ∈ s'.ready → .writeOk m ∈ s.ready := by
    rcases setState_ok hs with ⟨_, rfl⟩ | ⟨_, rfl⟩
    · exact fun _ h => h
    · intro m hm
      rcases List.mem_append.1 hm with hm | hm
      · exact hm
      · split at hm <;> simp at hm
  have hst' : (doClose s').state = n := by simp [doClose, post, cancel_eq, hst]
  refine h.same (o := o) (by simpa [doClose, post, cancel_eq] using ho) hx (by simpa [doClose, post, cancel_eq] using hq) (.inr (by simp [doClose, post, cancel_eq])) ?_ ?_ ?_
  · intro m hm
    simp only [doClose, post, cancel_eq, List.mem_append, List.mem_singleton, reduceCtorEq, or_false] at hm ⊢
    rcases hm with hm | hm | hm
    · exact .inl hm
    · exact .inr (hr m hm)
    · exact absurd hm abortions_no_write
  · intro h; rw [hst'] at h; rcases hn with rfl | rfl <;> cases h
  · intro h; rw [hst'] at h; rcases hn with rfl | rfl <;> cases h

theorem processError_tx {s s' : St} {e : Err} (h : Tx s []) (hh : processError s e = .ok s') : Tx s' [] := by
  unfold processError at hh
  split at hh
  · cases hh; exact h
  · unfold handleError at hh
    split at hh
    · simp only [bind_ok] at hh
      obtain ⟨u, h1, h2⟩ := hh
      cases h2
      have hst : u.state = .down := by
        rcases setState_ok h1 with ⟨h, rfl⟩ | ⟨_, rfl⟩
        · exact h
        · rfl
      have hout : ∃ o, u.out = s.out ++ o ∧ ∀ x ∈ o, x.plain' = true := by
        rcases setState_ok h1 with ⟨_, rfl⟩ | ⟨_, rfl⟩
        · exact ⟨[], by simp, by simp⟩
        · exact ⟨_, rfl, by simp [Out.plain']⟩
      obtain ⟨o, ho, hx⟩ := hout
      have hq : u.sendQ = s.sendQ := by rcases setState_ok h1 with ⟨_, rfl⟩ | ⟨_, rfl⟩ <;> rfl
      have hr : ∀ m, .writeOk m ∈ u.ready → .writeOk m ∈ s.ready := by
        rcases setState_ok h1 with ⟨_, rfl⟩ | ⟨_, rfl⟩
        · exact fun _ h => h
        · intro m hm; simpa using hm
      refine h.same (o := o) (by simpa [post, cancel_eq] using ho) hx (by simpa [post, cancel_eq] using hq) (.inr (by simp [post, cancel_eq])) ?_ ?_ ?_
      · intro m hm
        simp only [post, cancel_eq, List.nil_append, List.mem_append, List.mem_singleton, reduceCtorEq, or_false] at hm ⊢
        rcases hm with hm | hm
        · exact hr m hm
        · exact absurd hm abortions_no_write
      · intro h; simp [post, cancel_eq, hst] at h
      · intro _ h; simp [post, cancel_eq] at h
    · simp only [handleErrorBase, bind_ok] at hh
      obtain ⟨u, h1, h2⟩ := hh
      cases h2
      exact h.leave (by split <;> simp) h1

theorem keepsTx : Keeps Tx where
  perm := by
    intro s s' L L' h he hc hm
    rw [he]
    exact h.same (o := []) (by simp) (by simp) rfl (.inl rfl) (fun n hn => (hm _).1 hn) id (fun hd hc' => ⟨hd, hc hc'⟩)
  send := by
    intro s p hi hu h
    have hl := hi.life
    simp only [Life, hu] at hl
    have ea : accOct (emit s (.accepted p)) = accOct s ++ p := by
      simp [accOct, emit, since_snoc, accepted_append, accepted]
    have eo : outOct (emit s (.accepted p)) = outOct s := by
      simp [outOct, emit, since_snoc, octetsOut_append, octetsOut]
    unfold send
    rw [if_pos hu]
    unfold doSend
    rw [if_neg (by simp [emit, hu])]
    simp only
    split
    · rename_i hq
      have hq : s.sendQ = [] := hq
      unfold sendFromQueue
      rw [if_pos (by exact hl.2.1)]
      have heq := h.idle hu hq
      refine ⟨?_, ?_, ?_, ?_, ?_⟩
      · show outOct (emit s (.accepted p)) <+: accOct (emit s (.accepted p)); rw [ea, eo, heq]; exact List.prefix_append ..
      · intro rest hr
        simp only [emit, hq, List.nil_append, List.head?_cons, Option.getD_some, Option.some.injEq] at hr
        subst hr
        refine ⟨p, [], by simp [emit, hq], ?_⟩
        show accOct (emit s (.accepted p)) = outOct (emit s (.accepted p)) ++ _ ++ _; rw [ea, eo, heq]; simp
      · intro n hn
        have := hl.2.2.2.2.2.2.2.2 _ hn rfl
        exact absurd hq this
      · intro _ h; simp [emit] at h
      · intro h; simp [emit, hu] at h
    · rename_i hq
      have hq : s.sendQ ≠ [] := hq
      refine ⟨?_, ?_, ?_, ?_, ?_⟩
      · show outOct (emit s (.accepted p)) <+: accOct (emit s (.accepted p)); rw [ea, eo]; exact List.IsPrefix.trans h.pre (List.prefix_append ..)
      · intro rest hr
        obtain ⟨p', q, h1, h2⟩ := h.cur rest hr
        refine ⟨p', q ++ [p], by simp [emit, h1], ?_⟩
        show accOct (emit s (.accepted p)) = outOct (emit s (.accepted p)) ++ _ ++ _; rw [ea, eo, h2]; simp
      · intro n hn
        obtain ⟨p', q, h1, h2⟩ := h.fin n hn
        refine ⟨p', q ++ [p], by simp [emit, h1], ?_⟩
        show accOct (emit s (.accepted p)) = outOct (emit s (.accepted p)) ++ _; rw [ea, eo, h2]; simp
      · intro _ h; simp [emit] at h
      · intro h; simp [emit, hu] at h
  leave := by
    intro s s' n _ h _ hn hs
    exact h.leave hn hs
  persist := by
    intro s p h
    exact h.same (o := []) (by simp) (by simp) rfl (.inl rfl) (fun n hn => hn) id (fun h1 h2 => ⟨h1, h2⟩)
  fall := by
    intro s s' p _ h _ hs
    have h1 : Tx { s with persist := p } [] := h.same (o := []) (by simp) (by simp) rfl (.inl rfl) (fun n hn => hn) id (fun h1 h2 => ⟨h1, h2⟩)
    exact h1.leave (.inr rfl) hs
  write := by
    intro s w hi h
    unfold doWrite
    split
    · rename_i rest n hw
      have hconn := (hi.writing_state (by rw [hw]; rfl)).2
      extract_lets s1
      have ea : accOct s1 = accOct s := by
        simp only [s1]
        split
        · rfl
        · simp [accOct, emit, since_snoc, accepted_append, accepted]
      have eo : outOct s1 = outOct s ++ rest.take n := by
        simp only [s1]
        split
        · rename_i h0; rw [h0]; simp
        · simp [outOct, emit, since_snoc, octetsOut_append, octetsOut]
      have e1 : s1.sendQ = s.sendQ ∧ s1.state = s.state ∧ s1.ready = s.ready ∧ s1.connecting = s.connecting := by
        simp only [s1]
        split <;> simp [emit]
      clear_value s1
      obtain ⟨p, q, hq, heq⟩ := h.cur rest hw
      have hnw : ∀ m, .writeOk m ∉ s.ready := fun m hm => by have := (hi.wr m hm).1; rw [hw] at this; cases this
      have hsplit : rest = rest.take n ++ rest.drop n := (List.take_append_drop n rest).symm
      split
      · rename_i hd
        have heq' : accOct s = outOct s ++ rest.take n ++ q.flatten := by
          rw [heq]; congr 2; rw [hd, List.append_nil] at hsplit; exact hsplit
        refine ⟨?_, fun r hr => (by cases hr), ?_, ?_, ?_⟩
        · show outOct s1 <+: accOct s1
          rw [ea, eo, heq']; exact List.prefix_append ..
        · intro m _
          exact ⟨p, q, e1.1.trans hq, by show accOct s1 = outOct s1 ++ _; rw [ea, eo]; exact heq'⟩
        · intro _ h; simp only [e1.1, hq] at h; cases h
        · intro _ hc
          simp only [e1.2.2.2, hconn] at hc
          cases hc
      · have heq' : accOct s = outOct s ++ rest.take n ++ rest.drop n ++ q.flatten := by
          rw [heq]; congr 1; rw [List.append_assoc, ← hsplit]
        refine ⟨?_, ?_, ?_, ?_, ?_⟩
        · show outOct s1 <+: accOct s1
          rw [ea, eo, heq', List.append_assoc (outOct s ++ _)]; exact List.prefix_append ..
        · intro r hr
          cases hr
          exact ⟨p, q, e1.1.trans hq, by show accOct s1 = outOct s1 ++ _ ++ _; rw [ea, eo]; exact heq'⟩
        · intro m hm
          simp only [Option.toList_none, List.nil_append, e1.2.2.1] at hm
          exact absurd hm (hnw m)
        · intro _ h; simp only [e1.1, hq] at h; cases h
        · intro _ hc
          simp only [e1.2.2.2, hconn] at hc
          cases hc
    · split
      · exact h
      · refine h.same (o := []) (by simp) (by simp) rfl (.inr rfl) (fun n hn => ?_) id (fun h1 h2 => ⟨h1, h2⟩)
        simpa using hn
    · exact h
  read := by
    intro s r L hi h
    rcases doRead_cases s r with he | ⟨x, he, hr, hx⟩
    · rw [he]; exact h
    · rw [he]
      refine h.same (o := []) (by simp) (by simp) rfl (.inl rfl) (fun n hn => ?_) id (fun h1 h2 => ⟨h1, h2⟩)
      simp only [Option.toList_some, List.singleton_append, List.cons_append] at hn
      rcases List.mem_cons.1 hn with hn | hn
      · rcases hx with ⟨c, rfl, _⟩ | ⟨e, rfl, _⟩ <;> cases hn
      · exact hn
  handle := by
    intro s s' x hi hp h hh
    have h' : Tx s [] := h.same (o := []) (by simp) (by simp) rfl (.inl rfl) (fun n hn => List.mem_append_right _ hn) id (fun h1 h2 => ⟨h1, h2⟩)
    cases x with
    | readOk c =>
      simp only [handle, handleReceive] at hh
      generalize hr : parseLoop (s.recvBuf ++ c).length (s.recvBuf ++ c) = r at hh
      have hs1 : Tx { s with recvBuf := r.2, out := s.out ++ .read c :: r.1.map .deliver } [] := by
        refine h'.same rfl ?_ rfl (.inl rfl) (fun n hn => hn) id (fun h1 h2 => ⟨h1, h2⟩)
        intro x hx
        rcases List.mem_cons.1 hx with rfl | hx
        · rfl
        · simp only [List.mem_map] at hx
          obtain ⟨p, _, rfl⟩ := hx
          rfl
      split at hh
      · simp only [bind_ok] at hh
        obtain ⟨u, h1, h2⟩ := hh
        cases h2
        exact hs1.leave (.inr rfl) h1
      · unfold startReceive at hh
        split at hh
        · cases hh
        · rename_i hst
          have hst : s.state = .up := by simpa using hst
          have hl := hi.life
          simp only [Life, hst] at hl
          rw [if_pos (by exact hl.2.1)] at hh
          cases hh
          exact hs1.same (o := []) (by simp) (by simp) rfl (.inl rfl) (fun n hn => hn) id (fun h1 h2 => ⟨h1, h2⟩)
    | readErr e => exact processError_tx h' hh
    | writeErr e => exact processError_tx h' hh
    | writeOk n =>
      have hp : SendReady s n := hp
      obtain ⟨p, q, hq, heq⟩ := h.fin n (by simp)
      obtain ⟨p', q', hq', hl⟩ := hp.queue
      rw [hq] at hq'
      cases hq'
      simp only [handle, handleSend, hq] at hh
      rw [if_neg (by simp [hl])] at hh
      cases hh
      split
      · rename_i hq0
        subst hq0
        refine ⟨h.pre, ?_, fun m hm => absurd hm (hp.ready m), fun _ _ => ?_, h'.dn⟩
        · intro r hr; exact absurd (hp.writing.symm.trans hr) (by simp)
        · show accOct s = outOct s; simpa using heq
      · rename_i hq0
        cases q with
        | nil => exact absurd rfl hq0
        | cons p2 q2 =>
          unfold sendFromQueue
          split
          · refine ⟨h.pre, ?_, fun m hm => absurd hm (hp.ready m), fun _ hn => (by cases hn), ?_⟩
            · intro r hr
              cases hr
              refine ⟨p2, q2, rfl, ?_⟩
              show accOct s = outOct s ++ p2 ++ _
              rw [heq]; simp
            · intro _ hc; have hc : s.connecting.isSome = true := hc; rw [hp.conn] at hc; cases hc
          · refine ⟨h.pre, ?_, ?_, fun _ hn => (by cases hn), ?_⟩
            · intro r hr; exact absurd (hp.writing.symm.trans hr) (by simp)
            · intro m hm
              simp only [post, List.nil_append, List.mem_append, List.mem_singleton, reduceCtorEq, or_false] at hm
              exact absurd hm (hp.ready m)
            · intro _ hc; have hc : s.connecting.isSome = true := hc; rw [hp.conn] at hc; cases hc
    | connectAborted => cases hh; exact h'
    | deferredClose => exact hp.elim
    | dealloc => exact hp.elim
    | reconnect =>
      simp only [handle, reconnect] at hh
      split at hh
      · cases hh; exact h'
      · split at hh
        · cases hh
        · cases hh
          have hs : since (emit { cancel s with usable := false, recvBuf := [], sendQ := [], timer := true, connecting := some (cancel s).ready.length } (.connecting (cancel s).wait)).out = [] := by
            simp [emit, cancel_eq, since_snoc]
          refine ⟨?_, ?_, ?_, ?_, ?_⟩
          · simp only [accOct, outOct]; rw [hs]; simp [octetsOut]
          · intro r hr; simp [emit, cancel_eq] at hr
          · intro n hn
            simp only [emit, cancel_eq, List.nil_append, List.mem_append] at hn
            rcases hn with hn | hn
            · have := hp.2 _ hn; cases this
            · exact absurd hn abortions_no_write
          · intro _ _; simp only [accOct, outOct]; rw [hs]; simp [octetsOut, accepted]
          · intro _ _; simp only [accOct, outOct]; rw [hs]; simp [octetsOut, accepted]
  deferred := by
    intro s s' rest hi hr h hh
    unfold deferredClose at hh
    have hst : s'.state = .closed := by
      rcases setState_ok hh with ⟨h, rfl⟩ | ⟨_, rfl⟩
      · exact h
      · rfl
    have hout : ∃ o, s'.out = s.out ++ o ∧ ∀ x ∈ o, x.plain' = true := by
      rcases setState_ok hh with ⟨_, rfl⟩ | ⟨_, rfl⟩
      · exact ⟨[], by simp [cancel_eq], by simp⟩
      · exact ⟨[_], by simp only [cancel_eq]; rfl, by simp [Out.plain']⟩
    obtain ⟨o, ho, hx⟩ := hout
    obtain ⟨e1, e2⟩ := oct_eq ho hx
    refine ⟨by rw [e1, e2]; exact h.pre, ?_, ?_, fun hu => ?_, fun hd => ?_⟩
    · intro r hr
      rcases setState_ok hh with ⟨_, rfl⟩ | ⟨_, rfl⟩ <;> simp [cancel_eq] at hr
    · intro n hn
      have hq : ∀ x ∈ rest, x.quiet = true := by have := hi.head; rw [hr] at this; exact this
      have hn' : .writeOk n ∈ rest := by
        rcases setState_ok hh with ⟨_, rfl⟩ | ⟨_, rfl⟩
        · simpa [cancel_eq, abortions_no_write] using hn
        · simpa [cancel_eq, abortions_no_write] using hn
      have := hq _ hn'; cases this
    · rw [hst] at hu; cases hu
    · rw [hst] at hd; cases hd
  dealloc := by
    intro s rest hi hc hr h
    refine h.same (o := []) (by simp) (by simp) rfl (.inl rfl) (fun n hn => ?_) id (fun h1 h2 => ⟨h1, by simpa using h2⟩)
    rw [hr]; exact List.mem_cons_of_mem _ hn
  connect := by
    intro s hi hd hr hc h
    obtain ⟨e1, e2⟩ := oct_eq (s := s) (s' := connected s) (o := [.connected, .state .down .up]) (by simp) (by simp [Out.plain'])
    have hl := hi.life
    simp only [Life, hd] at hl
    obtain ⟨b1, b2, b3, b4⟩ := hl.2.2.2.2.2 0 hc
    obtain ⟨d1, d2⟩ := h.dn hd (by rw [hc]; rfl)
    refine ⟨by rw [e1, e2]; exact h.pre, ?_, ?_, fun _ _ => by rw [e1, e2, d1, d2], fun hd => by cases hd⟩
    · intro r hr'; rw [show s.writing = _ from hr'] at b2; cases b2
    · intro n hn; simp [hr] at hn
  timer := by
    intro s _ hd ht h
    refine h.same (o := []) (by simp [handleReconnectTimeout, post, cancel_eq]) (by simp) (by simp [handleReconnectTimeout, post, cancel_eq])
      (.inr (by simp [handleReconnectTimeout, post, cancel_eq])) ?_ (by simp [handleReconnectTimeout, post, cancel_eq]) (by simp [handleReconnectTimeout, post, cancel_eq])
    intro n hn
    simpa [handleReconnectTimeout, post, cancel_eq, abortions_no_write] using hn

theorem Tx.init (tcp : Bool) (p : Persist) : Tx (init tcp p) [] :=
  ⟨by simp [outOct, accOct, Tp.init, since, octetsOut], by simp [Tp.init], by simp [Tp.init], by simp [outOct, accOct, Tp.init, since, octetsOut, accepted], by simp [Tp.init]⟩

end Verif.Tp
