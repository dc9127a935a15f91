import Verif.It.Spec

/-! C127: the internal face delivers what was sent, once and in order, and never inside the call that sends. -/
namespace Verif.It

variable {P : Type}

/-! ### Lists -/

theorem forClient_append (a b : List (Task P)) : forClient (a ++ b) = forClient a ++ forClient b := by
  induction a with
  | nil => rfl
  | cons x a ih => cases x <;> simp [forClient, ih]

theorem forForwarder_append (a b : List (Task P)) : forForwarder (a ++ b) = forForwarder a ++ forForwarder b := by
  induction a with
  | nil => rfl
  | cons x a ih => cases x <;> simp [forForwarder, ih]

/-- Nothing is done with a transport after the function that frees it. -/
def Order (a b : Task P) : Prop := ∀ t, a = .free t → b ≠ .free t ∧ ∀ p, b ≠ .toForwarder t p

/-! ### Invariant -/

structure Inv (x : Told P) (s : St P) : Prop where
  conn : s.forwarder = x.conn
  peer : ∀ t, s.peer t = true ↔ x.conn = some t
  alive : ∀ t, x.conn = some t → s.life t = .opened
  client : s.client = false → x.conn = none
  toC : x.toClient = s.clientGot ++ forClient s.queue
  toF : x.toForwarder = s.forwarderGot.map (fun y => (y.1, y.2.1)) ++ forForwarder s.queue
  there : ∀ t p, .toForwarder t p ∈ s.queue → s.life t = .opened ∨ s.life t = .closed
  free : ∀ t, .free t ∈ s.queue → s.life t = .closed
  order : s.queue.Pairwise Order

theorem inv_init : Inv ({} : Told P) (init : St P) := by
  constructor <;> simp [init, forClient, forForwarder]

/-- What `connectToForwarder` does. -/
theorem connect_eq {x : Told P} {s : St P} (hi : Inv x s) {t : Option Nat} (ht : ∀ o, t = some o → s.life o = .opened) :
    s.connect t = .ok { s with forwarder := t, peer := fun y => t == some y } := by
  have hp : ∀ y, s.peer y = (x.conn == some y) := by
    intro y
    by_cases h : x.conn = some y
    · rw [(hi.peer y).mpr h, h]; simp
    · cases hv : s.peer y with
      | true => exact absurd ((hi.peer y).mp hv) h
      | false => simp [h]
  unfold St.connect
  rw [hi.conn]
  cases hc : x.conn with
  | none =>
    simp only [bind, Except.bind]
    cases t with
    | none =>
      simp only
      congr
      funext y
      rw [hp, hc]
    | some o =>
      simp only [St.setPeer, ht o rfl]
      simp only [reduceCtorEq, or_self, if_false]
      congr
      funext y
      rw [hp, hc]
      by_cases h : o = y
      · simp [h]
      · simp [h, Ne.symm h]
  | some c =>
    simp only [bind, Except.bind, St.setPeer, hi.alive c hc, reduceCtorEq, or_self, if_false]
    cases t with
    | none =>
      simp only
      congr
      funext y
      rw [hp, hc]
      by_cases h : c = y
      · simp [h]
      · simp [h, Ne.symm h]
    | some o =>
      simp only [ht o rfl, reduceCtorEq, or_self, if_false]
      congr
      funext y
      rw [hp, hc]
      by_cases h : o = y
      · simp [h]
      · by_cases h' : c = y
        · simp [h, h', Ne.symm h]
        · have e1 : (c == y) = false := beq_eq_false_iff_ne.mpr h'
          have e2 : (o == y) = false := beq_eq_false_iff_ne.mpr h
          simp [e1, e2, Ne.symm h, Ne.symm h']

theorem inv_step {x : Told P} {s s' : St P} {e : Ev P} (hi : Inv x s) (ha : s.allowed e) (hs : s.step e = .ok s') : Inv (x.after e) s' := by
  cases e with
  | make t =>
    injection hs with hs
    subst hs
    have ha : s.life t = .no := ha
    refine ⟨hi.conn, hi.peer, ?_, hi.client, hi.toC, hi.toF, ?_, ?_, hi.order⟩
    · intro y hy
      dsimp only
      split
      · rfl
      · exact hi.alive y hy
    · intro y p hy
      dsimp only
      split
      · exact .inl rfl
      · exact hi.there y p hy
    · intro y hy
      dsimp only
      have := hi.free y hy
      rw [if_neg]
      · exact this
      · intro he
        rw [he, ha] at this
        cases this
  | connect t =>
    have ht : ∀ o, t = some o → s.life o = .opened := by
      rintro o rfl
      exact ha.2
    have hs : s.connect t = .ok s' := hs
    rw [connect_eq hi ht] at hs
    injection hs with hs
    subst hs
    refine ⟨rfl, ?_, ht, ?_, hi.toC, hi.toF, hi.there, hi.free, hi.order⟩
    · intro y
      show (t == some y) = true ↔ t = some y
      simp
    · intro hc
      have hc : s.client = false := hc
      cases t with
      | none => rfl
      | some o => rw [ha.1] at hc; cases hc
  | clientSend p =>
    have hs : s.clientSend p = .ok s' := hs
    unfold St.clientSend at hs
    rw [hi.conn] at hs
    rcases Option.eq_none_or_eq_some x.conn with hc | ⟨t, hc⟩
    · rw [hc] at hs
      injection hs with hs
      have e1 : x.after (.clientSend p) = x := by unfold Told.after; dsimp only; rw [hc]
      rw [e1]
      exact hs ▸ hi
    · have e1 : x.after (.clientSend p) = { x with toForwarder := x.toForwarder ++ [(t, p)] } := by unfold Told.after; dsimp only; rw [hc]
      rw [e1]
      have hl := hi.alive t hc
      rw [hc] at hs
      dsimp only at hs
      rw [hl, if_neg (by decide)] at hs
      injection hs with hs
      subst hs
      refine ⟨hc.symm, hi.peer, hi.alive, hi.client, ?_, ?_, ?_, ?_, ?_⟩
      · dsimp only
        rw [forClient_append, hi.toC]
        simp [forClient]
      · dsimp only
        rw [forForwarder_append, hi.toF]
        simp [forForwarder]
      · intro y q hy
        rcases List.mem_append.mp hy with hy | hy
        · exact hi.there y q hy
        · rw [List.mem_singleton] at hy
          injection hy with h1 h2
          rw [h1]
          exact .inl hl
      · intro y hy
        rcases List.mem_append.mp hy with hy | hy
        · exact hi.free y hy
        · rw [List.mem_singleton] at hy
          cases hy
      · refine List.pairwise_append.mpr ⟨hi.order, List.pairwise_singleton .., ?_⟩
        intro a ha b hb y hy
        rw [List.mem_singleton] at hb
        subst hb hy
        refine ⟨by simp, fun q hq => ?_⟩
        injection hq with h1 h2
        have := hi.free y ha
        rw [← h1, hl] at this
        cases this
  | forwarderSend t p =>
    have hs : s.forwarderSend t p = .ok s' := hs
    unfold St.forwarderSend at hs
    unfold Told.after
    by_cases hc : x.conn = some t
    · have hl := hi.alive t hc
      have hcl : s.client = true := by
        cases h : s.client with
        | true => rfl
        | false => rw [hi.client h] at hc; cases hc
      rw [if_neg (by rw [hl]; decide), if_pos ((hi.peer t).mpr hc), if_pos hcl] at hs
      injection hs with hs
      subst hs
      dsimp only
      rw [if_pos hc]
      refine ⟨hi.conn, hi.peer, hi.alive, hi.client, ?_, ?_, ?_, ?_, ?_⟩
      · dsimp only
        rw [forClient_append, hi.toC]
        simp [forClient]
      · dsimp only
        rw [forForwarder_append, hi.toF]
        simp [forForwarder]
      · intro y q hy
        rcases List.mem_append.mp hy with hy | hy
        · exact hi.there y q hy
        · rw [List.mem_singleton] at hy
          cases hy
      · intro y hy
        rcases List.mem_append.mp hy with hy | hy
        · exact hi.free y hy
        · rw [List.mem_singleton] at hy
          cases hy
      · refine List.pairwise_append.mpr ⟨hi.order, List.pairwise_singleton .., ?_⟩
        intro a ha b hb y hy
        rw [List.mem_singleton] at hb
        subst hb
        exact ⟨by simp, fun q => by simp⟩
    · have hp : s.peer t = false := by
        cases h : s.peer t with
        | false => rfl
        | true => exact absurd ((hi.peer t).mp h) hc
      dsimp only
      rw [if_neg hc]
      rw [hp] at hs
      split at hs
      · injection hs with hs
        exact hs ▸ hi
      · injection hs with hs
        exact hs ▸ hi
  | close t =>
    have hs : s.close t = .ok s' := hs
    unfold St.close at hs
    unfold Told.after
    split at hs
    · rename_i hl
      injection hs with hs
      subst hs
      have : x.conn ≠ some t := fun h => hl (hi.alive t h)
      dsimp only
      rw [if_neg this]
      exact hi
    · rename_i hl
      have hl : s.life t = .opened := by simpa using hl
      -- the queue and the lives are the same whether the client was connected or not
      have key : ∀ c pe, (∀ y, pe y = true ↔ c = some y) → (∀ y, c = some y → x.conn = some y ∧ y ≠ t) → (x.conn = none → c = none) →
          Inv ({ x with conn := c } : Told P) ({ s with
            life := fun y => if y = t then .closed else s.life y, forwarder := c, peer := pe, queue := s.queue ++ [.free t] } : St P) := by
        intro c pe hpe hc hn
        refine ⟨rfl, hpe, ?_, ?_, ?_, ?_, ?_, ?_, ?_⟩
        · intro y hy
          dsimp only
          rw [if_neg (hc y hy).2]
          exact hi.alive y (hc y hy).1
        · intro h
          exact hn (hi.client h)
        · dsimp only
          rw [forClient_append, hi.toC]
          simp [forClient]
        · dsimp only
          rw [forForwarder_append, hi.toF]
          simp [forForwarder]
        · intro y q hy
          dsimp only
          split
          · exact .inr rfl
          · rcases List.mem_append.mp hy with hy | hy
            · exact hi.there y q hy
            · rw [List.mem_singleton] at hy
              cases hy
        · intro y hy
          dsimp only
          split
          · rfl
          · rename_i hne
            rcases List.mem_append.mp hy with hy | hy
            · exact hi.free y hy
            · rw [List.mem_singleton] at hy
              injection hy with hy
              exact absurd hy hne
        · refine List.pairwise_append.mpr ⟨hi.order, List.pairwise_singleton .., ?_⟩
          intro a ha b hb y hy
          rw [List.mem_singleton] at hb
          subst hb hy
          refine ⟨fun he => ?_, fun q => by simp⟩
          injection he with he
          have := hi.free y ha
          rw [← he, hl] at this
          cases this
      by_cases hc : x.conn = some t
      · simp only [hi.conn, hc, if_true, St.connect, bind, Except.bind, St.setPeer, reduceCtorEq, or_self, if_false] at hs
        injection hs with hs
        subst hs
        dsimp only
        rw [if_pos hc]
        refine key none _ ?_ (fun y h => by cases h) (fun _ => rfl)
        intro y
        by_cases h : y = t
        · simp [h]
        · rw [if_neg h]
          constructor
          · intro h2
            rw [hi.peer y, hc] at h2
            injection h2 with h2
            exact absurd h2.symm h
          · intro h2
            cases h2
      · simp only [hi.conn, hc, if_false, bind, Except.bind] at hs
        injection hs with hs
        subst hs
        dsimp only
        rw [if_neg hc]
        have := key x.conn s.peer hi.peer (fun y hy => ⟨hy, fun he => hc (he ▸ hy)⟩) id
        rw [← hi.conn] at this
        rw [← hi.conn]
        exact this
  | runNext =>
    have hs : s.runNext = .ok s' := hs
    unfold St.runNext at hs
    have ho := hi.order
    have h1 := hi.toC
    have h2 := hi.toF
    have h3 := hi.there
    have h4 := hi.free
    cases hq : s.queue with
    | nil =>
      rw [hq] at hs
      injection hs with hs
      exact hs ▸ hi
    | cons a q =>
      rw [hq] at hs ho h1 h2 h3 h4
      rw [List.pairwise_cons] at ho
      cases a with
      | toForwarder t p =>
        dsimp only at hs
        split at hs
        · cases hs
        · injection hs with hs
          subst hs
          refine ⟨hi.conn, hi.peer, hi.alive, hi.client, h1, ?_, fun y p' hy => h3 y p' (List.mem_cons_of_mem _ hy), fun y hy => h4 y (List.mem_cons_of_mem _ hy), ho.2⟩
          show x.toForwarder = _
          rw [h2]
          simp [forForwarder]
      | toClient p =>
        dsimp only at hs
        split at hs
        · injection hs with hs
          subst hs
          refine ⟨hi.conn, hi.peer, hi.alive, hi.client, ?_, h2, fun y p' hy => h3 y p' (List.mem_cons_of_mem _ hy), fun y hy => h4 y (List.mem_cons_of_mem _ hy), ho.2⟩
          show x.toClient = _
          rw [h1]
          simp [forClient]
        · cases hs
      | free t =>
        injection hs with hs
        subst hs
        have hcl := h4 t (List.mem_cons_self ..)
        refine ⟨hi.conn, hi.peer, ?_, hi.client, h1, h2, ?_, ?_, ho.2⟩
        · intro y hy
          have := hi.alive y hy
          dsimp only
          rw [if_neg (fun he => by rw [he, hcl] at this; cases this)]
          exact this
        · intro y p hy
          dsimp only
          rw [if_neg (fun he => (ho.1 _ hy t rfl).2 p (by rw [he]))]
          exact h3 y p (List.mem_cons_of_mem _ hy)
        · intro y hy
          dsimp only
          rw [if_neg (fun he => (ho.1 _ hy t rfl).1 (by rw [he]))]
          exact h4 y (List.mem_cons_of_mem _ hy)
  | destroyClient =>
    have h := hi
    simp only [St.step, hi.conn, bind, Except.bind] at hs
    have key : ∀ pe : Nat → Bool, (∀ y, pe y = false) → Inv ({ x with conn := none } : Told P) ({ s with client := false, forwarder := none, peer := pe } : St P) := by
      intro pe hpe
      refine ⟨rfl, ?_, (fun y h => by cases h), fun _ => rfl, hi.toC, hi.toF, hi.there, hi.free, hi.order⟩
      intro y
      dsimp only
      rw [hpe y]
      simp
    cases hc : x.conn with
    | none =>
      rw [hc] at hs
      injection hs with hs
      subst hs
      refine key s.peer (fun y => ?_)
      cases h : s.peer y with
      | false => rfl
      | true => rw [hi.peer y, hc] at h; cases h
    | some c =>
      rw [hc] at hs
      simp only [St.setPeer, hi.alive c hc, reduceCtorEq, or_self, if_false] at hs
      injection hs with hs
      subst hs
      refine key _ (fun y => ?_)
      by_cases h : y = c
      · rw [if_pos h]
      · rw [if_neg h]
        cases hp : s.peer y with
        | false => rfl
        | true =>
          rw [hi.peer y, hc] at hp
          injection hp with hp
          exact absurd hp.symm h

theorem Reach.inv {x : Told P} {s : St P} (h : Reach x s) : Inv x s := by
  induction h with
  | init => exact inv_init
  | step x s s' e _ ha hs ih => exact inv_step ih ha hs

/-! ### Theorems -/

/-- The client has got, or will get, each packet that a forwarder-side transport sent while connected to it, once and in this order, and nothing else. -/
theorem C127_to_client (x : Told P) (s : St P) (h : Reach x s) : x.toClient = s.clientGot ++ forClient s.queue := h.inv.toC

/-- The forwarder has got, or will get, each packet that the client sent while connected, once, in this order and on the transport to which the client was
connected, and nothing else. -/
theorem C127_to_forwarder (x : Told P) (s : St P) (h : Reach x s) :
    x.toForwarder = s.forwarderGot.map (fun y => (y.1, y.2.1)) ++ forForwarder s.queue := h.inv.toF

/-- Nothing is delivered inside a call: neither by sending, nor by connecting or closing. -/
theorem C127_not_inside (s s' : St P) (e : Ev P) (he : e ≠ .runNext) (hs : s.step e = .ok s') : s'.clientGot = s.clientGot ∧ s'.forwarderGot = s.forwarderGot := by
  have hset : ∀ (s s' : St P) t b, s.setPeer t b = .ok s' → s'.clientGot = s.clientGot ∧ s'.forwarderGot = s.forwarderGot := by
    intro s s' t b h
    unfold St.setPeer at h
    split at h
    · cases h
    · injection h with h; subst h; exact ⟨rfl, rfl⟩
  have hcon : ∀ (s s' : St P) t, s.connect t = .ok s' → s'.clientGot = s.clientGot ∧ s'.forwarderGot = s.forwarderGot := by
    intro s s' t h
    have tail : ∀ s1 : St P, (match t with | some o => ({ s1 with forwarder := t } : St P).setPeer o true | none => .ok ({ s1 with forwarder := t } : St P)) = .ok s' →
        s'.clientGot = s1.clientGot ∧ s'.forwarderGot = s1.forwarderGot := by
      intro s1 h
      cases t with
      | none => injection h with h; subst h; exact ⟨rfl, rfl⟩
      | some o => exact hset ({ s1 with forwarder := some o } : St P) s' o true h
    unfold St.connect at h
    cases hf : s.forwarder with
    | none =>
      rw [hf] at h
      exact tail s h
    | some o =>
      rw [hf] at h
      cases hp : s.setPeer o false with
      | error f => simp only [hp, bind, Except.bind] at h; cases h
      | ok s1 =>
        simp only [hp, bind, Except.bind] at h
        have e1 := hset _ _ _ _ hp
        have e2 := tail s1 h
        exact ⟨e2.1.trans e1.1, e2.2.trans e1.2⟩
  cases e with
  | make t => injection hs with hs; subst hs; exact ⟨rfl, rfl⟩
  | connect t => exact hcon _ _ _ hs
  | clientSend p =>
    have hs : s.clientSend p = .ok s' := hs
    unfold St.clientSend at hs
    split at hs
    · injection hs with hs; subst hs; exact ⟨rfl, rfl⟩
    · split at hs
      · cases hs
      · injection hs with hs; subst hs; exact ⟨rfl, rfl⟩
  | forwarderSend t p =>
    have hs : s.forwarderSend t p = .ok s' := hs
    unfold St.forwarderSend at hs
    split at hs
    · injection hs with hs; subst hs; exact ⟨rfl, rfl⟩
    · split at hs
      · split at hs
        · injection hs with hs; subst hs; exact ⟨rfl, rfl⟩
        · cases hs
      · injection hs with hs; subst hs; exact ⟨rfl, rfl⟩
  | close t =>
    have hs : s.close t = .ok s' := hs
    unfold St.close at hs
    split at hs
    · injection hs with hs; subst hs; exact ⟨rfl, rfl⟩
    · by_cases hf : s.forwarder = some t
      · simp only [hf, if_true] at hs
        generalize hk : St.connect ({ s with life := fun x => if x = t then .closed else s.life x, forwarder := some t } : St P) none = r at hs
        cases r with
        | error f => cases hs
        | ok s1 =>
          injection hs with hs
          subst hs
          have := hcon _ _ _ hk
          exact this
      · simp only [hf, if_false] at hs
        injection hs with hs; subst hs; exact ⟨rfl, rfl⟩
  | runNext => exact absurd rfl he
  | destroyClient =>
    cases hf : s.forwarder with
    | none =>
      simp only [St.step, hf, bind, Except.bind] at hs
      injection hs with hs; subst hs; exact ⟨rfl, rfl⟩
    | some o =>
      simp only [St.step, hf, bind, Except.bind] at hs
      cases hp : s.setPeer o false with
      | error f => rw [hp] at hs; cases hs
      | ok s1 =>
        rw [hp] at hs
        injection hs with hs
        subst hs
        exact hset s s1 o false hp

/-- C127 (partial): the only way to use a freed object is a packet for a client that was destroyed while the packet waited. So there is none while the client lives, and
closing faces is safe whatever is waiting. -/
theorem C127_safe_partial (x : Told P) (s : St P) (h : Reach x s) (e : Ev P) (ha : s.allowed e) (f : Fault) (hs : s.step e = .error f) :
    f = .freedClient ∧ e = .runNext ∧ s.client = false ∧ ∃ p q, s.queue = .toClient p :: q := by
  have hi := h.inv
  cases e with
  | make t => cases hs
  | connect t =>
    have ht : ∀ o, t = some o → s.life o = .opened := by
      rintro o rfl
      exact ha.2
    have hs : s.connect t = .error f := hs
    rw [connect_eq hi ht] at hs
    cases hs
  | clientSend p =>
    have hs : s.clientSend p = .error f := hs
    unfold St.clientSend at hs
    rw [hi.conn] at hs
    cases hc : x.conn with
    | none => rw [hc] at hs; cases hs
    | some t =>
      rw [hc] at hs
      dsimp only at hs
      rw [hi.alive t hc, if_neg (by decide)] at hs
      cases hs
  | forwarderSend t p =>
    have hs : s.forwarderSend t p = .error f := hs
    unfold St.forwarderSend at hs
    split at hs
    · cases hs
    · split at hs
      · rename_i hp
        split at hs
        · cases hs
        · rename_i hc
          have := hi.client (by simpa using hc)
          rw [(hi.peer t).mp hp] at this
          cases this
      · cases hs
  | close t =>
    have hs : s.close t = .error f := hs
    unfold St.close at hs
    split at hs
    · cases hs
    · rename_i hl
      by_cases hc : x.conn = some t
      · simp [hi.conn, hc, St.connect, bind, Except.bind, St.setPeer] at hs
      · simp [hi.conn, hc, bind, Except.bind] at hs
  | runNext =>
    have hs : s.runNext = .error f := hs
    unfold St.runNext at hs
    cases hq : s.queue with
    | nil => rw [hq] at hs; cases hs
    | cons a q =>
      rw [hq] at hs
      cases a with
      | toForwarder t p =>
        dsimp only at hs
        split at hs
        · rename_i hl
          have := hi.there t p (by rw [hq]; exact List.mem_cons_self ..)
          rw [hl] at this
          rcases this with h | h <;> cases h
        · cases hs
      | toClient p =>
        dsimp only at hs
        split at hs
        · cases hs
        · rename_i hc
          injection hs with hs
          exact ⟨hs.symm, rfl, by simpa using hc, p, q, rfl⟩
      | free t => cases hs
  | destroyClient =>
    simp only [St.step, hi.conn, bind, Except.bind] at hs
    cases hc : x.conn with
    | none => rw [hc] at hs; cases hs
    | some c =>
      rw [hc] at hs
      simp [St.setPeer, hi.alive c hc] at hs

/-- While the client is there, all that was sent arrives: the event loop needs as many turns as functions wait. -/
theorem C127_arrives (x : Told P) (s : St P) (h : Reach x s) (hc : s.client = true) :
    ∃ s', Reach x s' ∧ s'.queue = [] ∧ s'.clientGot = x.toClient ∧ s'.forwarderGot.map (fun y => (y.1, y.2.1)) = x.toForwarder := by
  generalize hn : s.queue.length = n
  induction n generalizing s with
  | zero =>
    have hq := List.eq_nil_of_length_eq_zero hn
    have h1 := h.inv.toC
    have h2 := h.inv.toF
    rw [hq] at h1 h2
    exact ⟨s, h, hq, by rw [h1]; simp [forClient], by rw [h2]; simp [forForwarder]⟩
  | succ n ih =>
    cases hs : s.step .runNext with
    | error f =>
      have := (C127_safe_partial x s h .runNext trivial f hs).2.2.1
      rw [hc] at this
      cases this
    | ok s' =>
      have hs2 : s.runNext = .ok s' := hs
      unfold St.runNext at hs2
      have hlen : s'.queue.length = n ∧ s'.client = true := by
        cases hq : s.queue with
        | nil => rw [hq] at hn; cases hn
        | cons a q =>
          rw [hq] at hs2 hn
          rw [List.length_cons] at hn
          have hn : q.length = n := by omega
          cases a <;> dsimp only at hs2
          · split at hs2
            · cases hs2
            · injection hs2 with hs2; subst hs2; exact ⟨hn, hc⟩
          · split at hs2
            · injection hs2 with hs2; subst hs2; exact ⟨hn, hc⟩
            · rename_i hno; exact absurd hc hno
          · injection hs2 with hs2; subst hs2; exact ⟨hn, hc⟩
      exact ih s' (.step x s s' .runNext h trivial hs) hlen.2 hlen.1

/-! ### Concrete cases -/

/-- Runs, with the conditions of use checked. -/
def ok (s : St Nat) : Ev Nat → Bool
  | .make t => s.life t == .no
  | .connect (some t) => s.client && s.life t == .opened
  | .connect none | .clientSend _ | .destroyClient => s.client
  | _ => true

def runOk : Told Nat → St Nat → List (Ev Nat) → Option (Told Nat × St Nat)
  | x, s, [] => some (x, s)
  | x, s, e :: l =>
    if ok s e then
      match s.step e with
      | .ok s' => runOk (x.after e) s' l
      | .error _ => none
    else none

theorem runOk_reach (l : List (Ev Nat)) : ∀ {x : Told Nat} {s : St Nat} {x' s'}, Reach x s → runOk x s l = some (x', s') → Reach x' s' := by
  induction l with
  | nil =>
    intro x s x' s' h hr
    injection hr with hr
    injection hr with h1 h2
    rw [← h1, ← h2]
    exact h
  | cons e l ih =>
    intro x s x' s' h hr
    unfold runOk at hr
    split at hr
    · rename_i hok
      split at hr
      · rename_i s1 hs
        refine ih (.step x s s1 e h ?_ hs) hr
        unfold St.allowed
        unfold ok at hok
        cases e with
        | make t => simpa using hok
        | connect t =>
          cases t with
          | none => exact hok
          | some t => simpa using hok
        | clientSend p => exact hok
        | destroyClient => exact hok
        | _ => trivial
      · cases hr
    · cases hr

/-- The management's face is made; an Interest comes, the answer goes back; then the face is closed and two packets are lost. -/
def ex : List (Ev Nat) :=
  [.make 1, .connect (some 1), .forwarderSend 1 10, .forwarderSend 1 11, .runNext, .clientSend 20, .close 1, .clientSend 21, .forwarderSend 1 12, .runNext, .runNext]

def exRun : Told Nat × St Nat := (runOk {} init ex).getD ({}, init)

theorem exRun_reach (l : List (Ev Nat)) (h : (runOk {} init l).isSome = true) : Reach ((runOk {} init l).getD ({}, init)).1 ((runOk {} init l).getD ({}, init)).2 := by
  obtain ⟨⟨x, s⟩, hr⟩ := Option.isSome_iff_exists.mp h
  rw [hr]
  exact runOk_reach l .init hr

example : Reach exRun.1 exRun.2 ∧ exRun.2.client = true ∧ exRun.2.clientGot = [10, 11] ∧ exRun.2.forwarderGot = [(1, 20, false)] ∧ exRun.2.queue = [.free 1] :=
  ⟨exRun_reach ex (by decide +kernel), by decide +kernel, by decide +kernel, by decide +kernel, by decide +kernel⟩

/-- A packet may reach the forwarder after its face has been removed from the face table. -/
theorem C127_late : ∃ (x : Told Nat) (s : St Nat), Reach x s ∧ ∃ p, (1, p, false) ∈ s.forwarderGot :=
  ⟨exRun.1, exRun.2, exRun_reach ex (by decide +kernel), 20, by decide +kernel⟩

/-- A client that is destroyed while a packet for it waits is used afterwards. -/
theorem C127_client_gone : ∃ (x : Told Nat) (s : St Nat), Reach x s ∧ s.step .runNext = .error .freedClient :=
  ⟨_, _, exRun_reach [.make 1, .connect (some 1), .forwarderSend 1 10, .destroyClient] (by decide +kernel), rfl⟩

end Verif.It
