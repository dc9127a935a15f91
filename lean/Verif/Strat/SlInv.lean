import Verif.Strat.SlLemmas

/-
From which faces self-learning learns: the invariant.
-/
namespace Verif.Strat.Sl

open Fw
open Tb (FaceId Time FwInterest InRec OutRec PitEntry NextHop)

variable {env : Env}

/-! ### Data -/

theorem data_calls {st : Strategy} {s s' : St} {d : Data} {f : FaceId} (h : step env st s (.data d f) = some s') :
    (∃ e ∈ s.pit, e.interest.matchesData d = true ∧ dataMatches s d = [e] ∧ newCalls s s' = [.afterReceiveData d f e.uid]) ∨
    ∀ t ∈ newCalls s s', ∃ u, t = .beforeSatisfyInterest d f u := by
  have none' : ∀ {s' : St}, s'.calls = s.calls → ∀ t ∈ newCalls s s', ∃ u, t = .beforeSatisfyInterest d f u := by
    intro s' h t ht
    rw [newCalls_eq (l := []) (by rw [h, List.append_nil])] at ht; cases ht
  simp only [step, onIncomingData] at h
  split at h
  · cases h; exact Or.inr (none' rfl)
  · split at h
    · cases h; exact Or.inr (none' rfl)
    · split at h
      · right
        unfold onDataUnsolicited at h
        dsimp only at h
        split at h
        · rw [Option.map_eq_some_iff] at h
          obtain ⟨c, -, rfl⟩ := h
          exact none' rfl
        · cases h; exact none' rfl
      · left
        rename_i u hu
        rw [Option.bind_eq_some_iff] at h
        obtain ⟨c, -, h⟩ := h
        unfold satisfyOne at h
        rw [Option.map_eq_some_iff] at h
        obtain ⟨s1, h1, rfl⟩ := h
        change (dataMatches s d).map (·.uid) = [u] at hu
        obtain ⟨e, he, rfl⟩ := List.map_eq_singleton_iff.1 hu
        have hm : e ∈ dataMatches s d := by rw [he]; exact List.mem_singleton.2 rfl
        obtain ⟨m1, m2⟩ := List.mem_filter.1 hm
        refine ⟨e, m1, m2, he, ?_⟩
        have hc := acted_call h1
        refine newCalls_eq ?_
        have h2 : (satisfyEntry env s1 d f e.uid).calls = s1.calls := by
          unfold satisfyEntry insertDeadNonceList
          dsimp only
          split
          · rfl
          · split <;> rfl
        rw [h2, hc.calls]
        exact congrArg (· ++ _) (acted_timer [] _ _ _).calls
      · right
        rw [Option.bind_eq_some_iff] at h
        obtain ⟨c, -, h⟩ := h
        unfold satisfyMany at h
        rw [Option.map_eq_some_iff] at h
        obtain ⟨r, h1, rfl⟩ := h
        have key : ∀ (us : List Nat) (s : St) (acc : List FaceId) (r : St × List FaceId), satisfyAll env st d f s us acc = some r →
            ∃ l, r.1.calls = s.calls ++ l ∧ ∀ t ∈ l, ∃ u, t = .beforeSatisfyInterest d f u := by
          intro us
          induction us with
          | nil => intro s acc r h; cases h; exact ⟨[], (List.append_nil _).symm, fun t h => nomatch h⟩
          | cons u us ih =>
            intro s acc r h
            simp only [satisfyAll, Option.bind_eq_some_iff] at h
            obtain ⟨x, h2, h3⟩ := h
            obtain ⟨l, l1, l2⟩ := ih _ _ _ h3
            unfold satisfyStep at h2
            simp only [Option.map_eq_some_iff] at h2
            obtain ⟨s1, h4, rfl⟩ := h2
            have hc := acted_call h4
            refine ⟨.beforeSatisfyInterest d f u :: l, ?_, ?_⟩
            · rw [l1]
              have h5 : ((insertDeadNonceList env (s1.mod u (fun e => { e with satisfied := true, freshness := d.freshness })) u (some f)).mod u
                  (fun e => { e with toPitEntry := Tb.deleteOut (Tb.clearIns e.toPitEntry) f })).calls = s1.calls := by
                unfold insertDeadNonceList
                split
                · rfl
                · split <;> rfl
              rw [show _ = s1.calls from h5, hc.calls, show (setExpiryTimer s u 0).calls = s.calls from (acted_timer [] _ _ _).calls, List.append_assoc]; rfl
            · intro t ht
              rcases List.mem_cons.1 ht with rfl | ht
              · exact ⟨u, rfl⟩
              · exact l2 t ht
        obtain ⟨l, l1, l2⟩ := key _ _ _ _ h1
        have hd : ∀ (gs : List FaceId) (s : St), (gs.foldl (fun s g => onOutgoingData s d g) s).calls = s.calls := by
          intro gs
          induction gs with
          | nil => intro s; rfl
          | cons g gs ih => intro s; rw [List.foldl_cons, ih]; exact (acted_data [] s d g).calls
        rw [newCalls_eq (l := l) (by rw [hd, l1])]
        exact l2

theorem dataPosts_none {s : Sys} {ann : Option Ann} : ∀ {l : List Trigger}, (∀ t ∈ l, ∃ d f u, t = .beforeSatisfyInterest d f u) → dataPosts s ann l = []
  | [], _ => rfl
  | t :: l, h => by
    obtain ⟨d, f, u, rfl⟩ := h t List.mem_cons_self
    exact dataPosts_none (l := l) (fun x hx => h x (List.mem_cons_of_mem _ hx))

/-! ### The invariant -/

/-- This face was sent a discovery Interest with this name and selectors, when it was a non-local face. -/
def Discovered (asks : List Ask) (g : FaceId) (k : Interest) : Prop :=
  ∃ a ∈ asks, a.face = g ∧ a.nonDiscovery = false ∧ (∃ gi, a.info = some gi ∧ gi.scope = .nonLocal) ∧ a.interest.toInterest = k

theorem Discovered.mono {l m : List Ask} {g : FaceId} {k : Interest} (h : Discovered l g k) : Discovered (l ++ m) g k := by
  obtain ⟨a, h1, h2⟩ := h
  exact ⟨a, List.mem_append_left _ h1, h2⟩

/-- The last Interest with this name and selectors that was sent to this face. -/
def LastAsk (asks : List Ask) (g : FaceId) (k : Interest) (a : Ask) : Prop :=
  ∃ pre post, asks = pre ++ a :: post ∧ a.face = g ∧ a.interest.toInterest = k ∧ ∀ x ∈ post, ¬(x.face = g ∧ x.interest.toInterest = k)

def Known (info : Nat → FaceId → Option Bool) (asks : List Ask) (u : Nat) (k : Interest) (g : FaceId) : Prop :=
  ∃ a, LastAsk asks g k a ∧ info u g = some a.nonDiscovery ∧ (a.nonDiscovery = false → ∃ gi, a.info = some gi ∧ gi.scope = .nonLocal)

theorem LastAsk.append {l m : List Ask} {g : FaceId} {k : Interest} {a : Ask} (h : LastAsk l g k a)
    (hm : ∀ x ∈ m, ¬(x.face = g ∧ x.interest.toInterest = k)) : LastAsk (l ++ m) g k a := by
  obtain ⟨pre, post, h1, h2, h3, h4⟩ := h
  refine ⟨pre, post ++ m, by rw [h1]; simp, h2, h3, ?_⟩
  intro x hx
  rcases List.mem_append.1 hx with hx | hx
  · exact h4 x hx
  · exact hm x hx

theorem lastAsk_of_mem {g : FaceId} {k : Interest} : ∀ {m : List Ask} {a : Ask}, a ∈ m → a.face = g → a.interest.toInterest = k →
    ∃ b ∈ m, LastAsk m g k b
  | x :: m, a, h, h1, h2 => by
    by_cases hc : ∃ y ∈ m, y.face = g ∧ y.interest.toInterest = k
    · obtain ⟨y, y1, y2, y3⟩ := hc
      obtain ⟨b, b1, pre, post, p1, p2⟩ := lastAsk_of_mem y1 y2 y3
      exact ⟨b, List.mem_cons_of_mem _ b1, x :: pre, post, by rw [p1]; rfl, p2⟩
    · rcases List.mem_cons.1 h with rfl | h
      · exact ⟨a, List.mem_cons_self, [], m, rfl, h1, h2, fun y hy hh => hc ⟨y, hy, hh⟩⟩
      · exact absurd ⟨a, h, h1, h2⟩ hc

theorem LastAsk.prepend {l m : List Ask} {g : FaceId} {k : Interest} {a : Ask} (h : LastAsk m g k a) : LastAsk (l ++ m) g k a := by
  obtain ⟨pre, post, h1, h2⟩ := h
  exact ⟨l ++ pre, post, by rw [h1]; simp, h2⟩

theorem LastAsk.discovered {l : List Ask} {g : FaceId} {k : Interest} {a : Ask} (h : LastAsk l g k a) (hd : a.nonDiscovery = false)
    (hr : ∃ gi, a.info = some gi ∧ gi.scope = .nonLocal) : Discovered l g k := by
  obtain ⟨pre, post, h1, h2, h3, -⟩ := h
  exact ⟨a, by rw [h1]; simp, h2, hd, hr, h3⟩

theorem of_interestsOf {s : St} {nd : Bool} : ∀ {l : List Pkt} {a : Ask}, a ∈ interestsOf s nd l →
    a.nonDiscovery = nd ∧ a.info = s.faces a.face ∧ .interest a.face a.interest ∈ l
  | p :: l, a, h => by
    cases p with
    | interest g i =>
      rcases List.mem_cons.1 h with rfl | h
      · exact ⟨rfl, rfl, List.mem_cons_self⟩
      · obtain ⟨h1, h2, h3⟩ := of_interestsOf h
        exact ⟨h1, h2, List.mem_cons_of_mem _ h3⟩
    | data g d =>
      obtain ⟨h1, h2, h3⟩ := of_interestsOf (l := l) h
      exact ⟨h1, h2, List.mem_cons_of_mem _ h3⟩
    | nack g i k =>
      obtain ⟨h1, h2, h3⟩ := of_interestsOf (l := l) h
      exact ⟨h1, h2, List.mem_cons_of_mem _ h3⟩

structure J (s : Sys) : Prop where
  inv : Inv s.fw
  outs : ∀ e ∈ s.fw.pit, ∀ r ∈ e.outs, Known s.outInfo s.asks e.uid e.interest.toInterest r.face
  posted : ∀ pa f, .announce pa f ∈ s.posted → ∃ d k, (d, some pa, f) ∈ s.heard ∧ Discovered s.asks f k ∧ k.matchesData d = true

/-- Events in which the forwarder itself, and no other strategy or the sender, chooses where to send an Interest. -/
def Own : Event → Prop
  | .interest i _ _ _ _ => i.nextHop = none
  | .change sameType => sameType = true
  | .foreign _ _ => False
  | _ => True

theorem hasOut_of {s : St} (hn : (s.pit.map (·.uid)).Nodup) {e : Ent} (he : e ∈ s.pit) {r : OutRec} (hr : r ∈ e.outs) : hasOut s e.uid r.face = true := by
  unfold hasOut
  rw [find_mem hn he]
  exact List.any_eq_true.2 ⟨r, hr, by simp⟩

/-- The out-records after an event: those from before keep their information. -/
theorem outs_kept {s : Sys} (hj : J s) {fw : St} (hi : Inv fw) (ho : Outs (fun _ _ _ => False) s.fw fw) :
    ∀ e ∈ fw.pit, ∀ r ∈ e.outs, Known (fun u g => if hasOut fw u g then s.outInfo u g else none) s.asks e.uid e.interest.toInterest r.face := by
  intro e he r hr
  rcases ho e he r hr with ⟨e0, h1, h2, h3, r0, h4, h5⟩ | h
  · obtain ⟨b, b1, b2, b3⟩ := hj.outs e0 h1 r0 h4
    rw [h3, h5] at b1
    rw [h2, h5] at b2
    exact ⟨b, b1, (if_pos (hasOut_of hi.uids he hr)).trans b2, b3⟩
  · exact h.elim

theorem mem_interestsOf {s : St} {nd : Bool} {g : FaceId} {i : FwInterest} : ∀ {l : List Pkt}, .interest g i ∈ l → ⟨g, s.faces g, i, nd⟩ ∈ interestsOf s nd l
  | [], h => nomatch h
  | p :: l, h => by
    rcases List.mem_cons.1 h with rfl | h
    · exact List.mem_cons_self
    · have := mem_interestsOf (s := s) (nd := nd) h
      cases p with
      | interest => exact List.mem_cons_of_mem _ this
      | data => exact this
      | nack => exact this

theorem J_interest {s s' : Sys} (hj : J s) {i : FwInterest} {nd : Bool} {f : FaceId} {nhs : List NextHop} {table : List FaceId} (hn : i.nextHop = none)
    (h : onInterest env s i nd f nhs table = .ok s') : J s' := by
  unfold onInterest at h
  split at h
  · cases h
  · rename_i fw hs
    have hi := step_inv hj.inv hs
    have hpost : ∀ (m : List Ask), ∀ pa f, .announce pa f ∈ s.posted → ∃ d k, (d, some pa, f) ∈ s.heard ∧ Discovered (s.asks ++ m) f k ∧ k.matchesData d = true := by
      intro m pa f hp
      obtain ⟨d, k, h1, h2, h3⟩ := hj.posted pa f hp
      exact ⟨d, k, h1, h2.mono, h3⟩
    rcases interest_event hj.inv hn hs with hm | ⟨u, j, hk, hm⟩
    · rw [hm.asked] at h
      cases h
      refine ⟨hi, ?_, hpost _⟩
      intro e he r hr
      obtain ⟨b, b1, b2, b3⟩ := outs_kept hj hi (hm.outs _) e he r hr
      refine ⟨b, b1.append ?_, b2, b3⟩
      intro x hx
      exact absurd (of_interestsOf hx).2.2 (hm.quiet _ _)
    · rw [hm.asked] at h
      cases h
      refine ⟨hi, ?_, hpost _⟩
      intro e he r hr
      change ∃ a, LastAsk (s.asks ++ interestsOf s.fw (nd || !nhs.isEmpty) (newSent s.fw fw)) r.face e.interest.toInterest a ∧
        (if hasOut fw e.uid r.face then (if e.uid = u ∧ (newSent s.fw fw).any (interestTo r.face) then some (!nhs.isEmpty) else s.outInfo e.uid r.face) else none)
        = some a.nonDiscovery ∧ (a.nonDiscovery = false → _)
      rw [if_pos (hasOut_of hi.uids he hr)]
      by_cases hc : e.uid = u ∧ (newSent s.fw fw).any (interestTo r.face) = true
      · rw [if_pos hc]
        obtain ⟨p, hp, hpt⟩ := List.any_eq_true.1 hc.2
        cases p with
        | data => cases hpt
        | nack => cases hpt
        | interest g x =>
          have hg : g = r.face := by simpa [interestTo] using hpt
          subst hg
          obtain ⟨rfl, e1, h1, h2, h3⟩ := hm.key _ _ hp
          have hee : e1 = e := eq_of_uid hi.uids h1 he (h2.trans hc.1.symm)
          subst hee
          obtain ⟨a, a1, a2⟩ := lastAsk_of_mem (mem_interestsOf (s := s.fw) (nd := nd || !nhs.isEmpty) hp) rfl h3.symm
          obtain ⟨q1, q2, q3⟩ := of_interestsOf a1
          have hmark : a.nonDiscovery = !nhs.isEmpty := by
            rw [q1]
            cases hd : nd with
            | false => rfl
            | true =>
              cases nhs with
              | nil => exact absurd hp (hm.refused rfl hd _ _)
              | cons => rfl
          refine ⟨a, a2.prepend, by rw [hmark], ?_⟩
          intro hb
          rw [hmark] at hb
          have hb : nhs = [] := by cases nhs <;> simp_all
          rw [q2]
          exact hm.remote hb _ _ q3
      · rw [if_neg hc]
        rcases hm.outs e he r hr with ⟨e0, h1, h2, h3, r0, h4, h5⟩ | ⟨h1, -, h3⟩
        · obtain ⟨b, b1, b2, b3⟩ := hj.outs e0 h1 r0 h4
          rw [h3, h5] at b1
          rw [h2, h5] at b2
          refine ⟨b, b1.append ?_, b2, b3⟩
          rintro x hx ⟨x1, x2⟩
          have x3 := (of_interestsOf hx).2.2
          obtain ⟨x4, e1, y1, y2, y3⟩ := hm.key _ _ x3
          rw [x4] at x2
          have hee : e1 = e := eq_of_key hi.keys y1 he (y3.trans x2)
          rw [hee] at y2
          exact hc ⟨y2, List.any_eq_true.2 ⟨_, x3, by simp [interestTo, x1]⟩⟩
        · exact absurd ⟨h1, List.any_eq_true.2 ⟨_, h3, by simp [interestTo]⟩⟩ hc

theorem dataS_noAsk (s : Sys) (fw : St) (t : Trigger) (ht : ∀ i f u, t ≠ .afterReceiveInterest i f u) : ∀ a ∈ dataS s fw t, NoAsk a := by
  unfold dataS
  split
  · exact sl_noAsk _ _ ht
  · exact sl_noAsk _ _ ht

theorem J_data {s s' : Sys} (hj : J s) {d : Data} {ann : Option Ann} {f : FaceId} (h : onData env s d ann f = .ok s') : J s' := by
  unfold onData at h
  split at h
  · cases h
  · rename_i fw hs
    cases h
    have hi := step_inv hj.inv hs
    refine ⟨hi, outs_kept hj hi (outs_data (dataS_noAsk s) hs), ?_⟩
    intro pa g hp
    rcases List.mem_append.1 hp with hp | hp
    · obtain ⟨d, k, h1, h2, h3⟩ := hj.posted pa g hp
      exact ⟨d, k, List.mem_append_left _ h1, h2, h3⟩
    · rcases data_calls hs with ⟨e, h1, h2, -, hc⟩ | hc
      · rw [hc] at hp
        simp only [dataPosts, find_mem hj.inv.uids h1] at hp
        split at hp
        · rename_i ho
          obtain ⟨r, r1, r2⟩ := List.any_eq_true.1 ho
          have r2 : r.face = f := by simpa using r2
          split at hp
          · rename_i pa' hb _
            rw [List.mem_singleton] at hp
            cases hp
            obtain ⟨b, b1, b2, b3⟩ := hj.outs e h1 r r1
            rw [r2] at b1 b2
            have hbf : b.nonDiscovery = false := by
              cases hd : b.nonDiscovery with
              | false => rfl
              | true => rw [hd] at b2; unfold branch at hb; rw [if_pos b2] at hb; split at hb <;> cases hb
            exact ⟨d, _, List.mem_append_right _ (List.mem_singleton.2 rfl), b1.discovered hbf (b3 hbf), h2⟩
          · rw [List.mem_singleton] at hp; cases hp
          · cases hp
        · cases hp
      · rw [dataPosts_none (fun t ht => ⟨d, f, hc t ht⟩)] at hp
        cases hp

theorem outs_async {st : Strategy} (hst : ∀ s t, (∀ i f u, t ≠ .afterReceiveInterest i f u) → ∀ a ∈ st s t, NoAsk a) {s s' : St}
    (h : step env st s .async = some s') : Outs (fun _ _ _ => False) s s' := outs_call (hst _ _ (by intros; simp)) h

theorem J_step {s s' : Sys} (hj : J s) {e : Event} (he : Own e) (h : step1 env s e = .ok s') : J s' := by
  cases e with
  | interest i nd f nhs table => exact J_interest hj he h
  | data d ann f => exact J_data hj h
  | nack i k f nhs =>
    simp only [step1, onNack] at h
    split at h
    · cases h
    · rename_i fw hs
      have hi := step_inv hj.inv hs
      have ho := outs_kept hj hi (outs_nackEvent (fun s t ht => sl_noAsk s t ht) hs)
      split at h
      · cases h; exact ⟨hi, ho, hj.posted⟩
      · split at h
        · cases h
        · cases h
          refine ⟨hi, ho, ?_⟩
          intro pa g hp
          rcases List.mem_append.1 hp with hp | hp
          · exact hj.posted pa g hp
          · rw [List.mem_singleton] at hp; cases hp
  | rib ans =>
    cases h
    unfold onRib
    split
    · exact hj
    · split <;> exact ⟨hj.inv, hj.outs, hj.posted⟩
    · exact ⟨hj.inv, hj.outs, hj.posted⟩
  | main =>
    simp only [step1, onMain] at h
    split at h
    · cases h; exact hj
    · split at h
      · cases h
      · split at h
        · cases h
        · rename_i fw hs
          cases h
          have hi := step_inv hj.inv hs
          exact ⟨hi, outs_kept hj hi (outs_async (fun s t ht => sl_noAsk s t ht) hs), hj.posted⟩
  | change b =>
    cases h
    rw [if_pos (show b = true from he)]
    exact ⟨hj.inv, hj.outs, hj.posted⟩
  | other e =>
    simp only [step1] at h
    split at h
    · rename_i hp
      split at h
      · cases h
      · rename_i fw hs
        cases h
        have hi := step_inv hj.inv hs
        exact ⟨hi, outs_kept hj hi (outs_plain hp hs), hj.posted⟩
    · cases h; exact hj
  | foreign st e => exact he.elim

theorem J_start (n : Nat) : J (start n) :=
  ⟨init_inv n, (fun _ h => nomatch h), (fun _ _ h => nomatch h)⟩

theorem J_runs : ∀ {l : List Event} {s s' : Sys}, J s → (∀ e ∈ l, Own e) → runs env s l = .ok s' → J s'
  | [], s, s', hj, _, h => by cases h; exact hj
  | e :: l, s, s', hj, ho, h => by
    simp only [runs] at h
    split at h
    · rename_i s1 h1
      exact J_runs (J_step hj (ho e List.mem_cons_self) h1) (fun x hx => ho x (List.mem_cons_of_mem _ hx)) h
    · cases h

end Verif.Strat.Sl
